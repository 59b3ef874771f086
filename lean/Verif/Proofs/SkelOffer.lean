import Verif.Spec.SkelOffer

/-!
# Lemmas about offering and fields
-/
namespace Verif.SkelOffer
open Verif.SkelOfferSpec

variable {V : Type}

/-! ## Histories -/

theorem run_snoc_aux (P : St V → History V → Prop)
    (hstep : ∀ t tr o t' r, P t tr → t.step o = .ok (t', r) → P t' (tr ++ [(o, r)])) :
    ∀ (os : List (Op V)) (s u : St V) (pre tr : History V), P s pre →
      run s os = .ok (u, tr) → P u (pre ++ tr) := by
  intro os
  induction os with
  | nil =>
    intro s u pre tr h hr
    simp only [run, Except.ok.injEq, Prod.mk.injEq] at hr
    obtain ⟨rfl, rfl⟩ := hr
    simpa using h
  | cons o os ih =>
    intro s u pre tr h hr
    simp only [run] at hr
    split at hr
    · cases hr
    · rename_i t r hs
      split at hr
      · cases hr
      · rename_i u' tr' hr'
        simp only [Except.ok.injEq, Prod.mk.injEq] at hr
        obtain ⟨rfl, rfl⟩ := hr
        have := ih t u' (pre ++ [(o, r)]) tr' (hstep _ _ _ _ _ h hs) hr'
        simpa using this

/-- Induction over runs, newest call last. -/
theorem run_induct {P : St V → History V → Prop} {s : St V} {os : List (Op V)} {u : St V}
    {tr : History V} (h0 : P s [])
    (hstep : ∀ t tr o t' r, P t tr → t.step o = .ok (t', r) → P t' (tr ++ [(o, r)]))
    (hr : run s os = .ok (u, tr)) : P u tr := by
  simpa using run_snoc_aux P hstep os s u [] tr h0 hr

theorem Always.snoc {p : History V → Op V → Prop} {h : History V} {o : Op V} {r : Ret V}
    (a : Always p (h ++ [(o, r)])) : Always p h ∧ p h o := by
  refine ⟨?_, a h o r [] rfl⟩
  intro x o' r' b e
  exact a x o' r' (b ++ [(o, r)]) (by simp [e])

/-- Induction over runs all of whose calls satisfy a condition. -/
theorem run_induct_always {p : History V → Op V → Prop} {P : St V → History V → Prop}
    {s : St V} {os : List (Op V)} {u : St V} {tr : History V} (h0 : P s [])
    (hstep : ∀ t tr o t' r, P t tr → p tr o → t.step o = .ok (t', r) → P t' (tr ++ [(o, r)]))
    (hr : run s os = .ok (u, tr)) (ha : Always p tr) : P u tr := by
  have := run_induct (P := fun t h => Always p h → P t h) (s := s) (os := os) (u := u) (tr := tr)
    (fun _ => h0)
    (fun t h o t' r ih hs a => hstep t h o t' r (ih (Always.snoc a).1) (Always.snoc a).2 hs) hr
  exact this ha

theorem lastValue_snoc (i : Nat) (h : History V) (x : Op V × Ret V) :
    lastValue i (h ++ [x]) = (given i x).or (lastValue i h) := by
  unfold lastValue
  cases hx : given i x <;> simp [List.filterMap_append, hx]

theorem lastHandler_snoc (i : Nat) (h : History V) (x : Op V × Ret V) :
    lastHandler i (h ++ [x]) = (registered i x).or (lastHandler i h) := by
  unfold lastHandler
  cases hx : registered i x <;> simp [List.filterMap_append, hx]

theorem isOn_snoc (h : History V) (x : Op V × Ret V) : isOn (h ++ [x]) = switch (isOn h) x := by
  simp [isOn]

theorem offerCalled_snoc (h : History V) (x : Op V × Ret V) :
    offerCalled (h ++ [x]) = (offerCalled h || isOffer x.1) := by
  simp [offerCalled]

/-! ## A property of all fields -/

/-- `P` holds for all fields. -/
def FieldsAll (P : Nat → Fld V → Prop) (fs : List (Fld V)) : Prop :=
  ∀ i f, fs[i]? = some f → P i f

theorem FieldsAll.set {P : Nat → Fld V → Prop} {fs : List (Fld V)} {i : Nat} {f : Fld V}
    (h : FieldsAll P fs) (hf : P i f) : FieldsAll P (fs.set i f) := by
  intro j g hg
  rw [List.getElem?_set] at hg
  split at hg
  · rename_i hij
    subst hij
    split at hg
    · simp only [Option.some.injEq] at hg
      subst hg; exact hf
    · cases hg
  · exact h j g hg

theorem FieldsAll.nil {P : Nat → Fld V → Prop} : FieldsAll P [] := by
  intro i f h; simp at h

theorem FieldsAll.cons_iff {P : Nat → Fld V → Prop} {f : Fld V} {fs : List (Fld V)} :
    FieldsAll P (f :: fs) ↔ P 0 f ∧ FieldsAll (fun i => P (i + 1)) fs := by
  constructor
  · intro h
    exact ⟨h 0 f (by simp), fun i g hg => h (i + 1) g (by simpa using hg)⟩
  · rintro ⟨h0, h1⟩ i g hg
    cases i with
    | zero => simp at hg; subst hg; exact h0
    | succ i => exact h1 i g (by simpa using hg)

theorem FieldsAll.map {P : Nat → Fld V → Prop} {fs : List (Fld V)} {F : Fld V → Fld V}
    (h : FieldsAll P fs) (hF : ∀ i f, P i f → P i (F f)) : FieldsAll P (fs.map F) := by
  intro i g hg
  rw [List.getElem?_map] at hg
  cases hf : fs[i]? with
  | none => rw [hf] at hg; cases hg
  | some f =>
    rw [hf] at hg
    simp only [Option.map_some, Option.some.injEq] at hg
    subst hg
    exact hF i f (h i f hf)

/-- The field without the contents of the memory. -/
def Fld.clear (f : Fld V) : Fld V := { f with ev := f.ev.clear }

theorem offerFields_pres {m : Option Nat} {ok slot : Nat → Bool}
    {P : Nat → Fld V → Prop}
    (hp : ∀ i f f' a b r, P i f → f.prepare m a b = .ok (r, f') → P i f')
    (hs : ∀ i f f', P i f → f.stop m = .ok f' → P i f') :
    ∀ (fs : List (Fld V)) (k : Nat) (r : Option Err) (fs' : List (Fld V)),
      FieldsAll (fun i => P (i + k)) fs → offerFields m ok slot k fs = .ok (r, fs') →
      FieldsAll (fun i => P (i + k)) fs' := by
  intro fs
  induction fs with
  | nil =>
    intro k r fs' h e
    simp only [offerFields, Except.ok.injEq, Prod.mk.injEq] at e
    obtain ⟨_, rfl⟩ := e
    exact h
  | cons f fs ih =>
    intro k r fs' h e
    obtain ⟨h0, h1⟩ := FieldsAll.cons_iff.1 h
    have h1' : FieldsAll (fun i => P (i + (k + 1))) fs := by
      intro i g hg
      have := h1 i g hg
      dsimp only at this
      rwa [show i + 1 + k = i + (k + 1) by omega] at this
    have back : ∀ gs, FieldsAll (fun i => P (i + (k + 1))) gs →
        FieldsAll (fun i => P (i + 1 + k)) gs := by
      intro gs hgs i g hg
      have := hgs i g hg
      dsimp only at this
      rwa [show i + (k + 1) = i + 1 + k by omega] at this
    simp only [offerFields] at e
    split at e
    · cases e
    · rename_i er f' hf
      simp only [Except.ok.injEq, Prod.mk.injEq] at e
      obtain ⟨_, rfl⟩ := e
      exact FieldsAll.cons_iff.2 ⟨hp _ _ _ _ _ _ h0 hf, h1⟩
    · rename_i f' hf
      have hf' := hp _ _ _ _ _ _ h0 hf
      split at e
      · cases e
      · rename_i gs hgs
        simp only [Except.ok.injEq, Prod.mk.injEq] at e
        obtain ⟨_, rfl⟩ := e
        exact FieldsAll.cons_iff.2 ⟨hf', back _ (ih _ _ _ h1' hgs)⟩
      · rename_i er gs hgs
        split at e
        · cases e
        · rename_i f'' hf''
          simp only [Except.ok.injEq, Prod.mk.injEq] at e
          obtain ⟨_, rfl⟩ := e
          exact FieldsAll.cons_iff.2 ⟨hs _ _ _ hf' hf'', back _ (ih _ _ _ h1' hgs)⟩

theorem stopFields_pres {m : Option Nat} {P : Nat → Fld V → Prop}
    (hs : ∀ i f f', P i f → f.stop m = .ok f' → P i f') :
    ∀ (fs : List (Fld V)) (k : Nat) (fs' : List (Fld V)),
      FieldsAll (fun i => P (i + k)) fs → stopFields m fs = .ok fs' →
      FieldsAll (fun i => P (i + k)) fs' := by
  intro fs
  induction fs with
  | nil =>
    intro k fs' h e
    simp only [stopFields, Except.ok.injEq] at e
    subst e; exact h
  | cons f fs ih =>
    intro k fs' h e
    obtain ⟨h0, h1⟩ := FieldsAll.cons_iff.1 h
    simp only [stopFields] at e
    split at e
    · cases e
    · rename_i f' hf
      split at e
      · cases e
      · rename_i gs hgs
        simp only [Except.ok.injEq] at e
        subst e
        have h1' : FieldsAll (fun i => P (i + (k + 1))) fs := by
          intro i g hg
          have := h1 i g hg
          dsimp only at this
          rwa [show i + 1 + k = i + (k + 1) by omega] at this
        refine FieldsAll.cons_iff.2 ⟨hs _ _ _ h0 hf, ?_⟩
        intro i g hg
        have := ih _ _ h1' hgs i g hg
        dsimp only at this
        rwa [show i + (k + 1) = i + 1 + k by omega] at this

/-- A property of one field that survives everything the parts of
`OfferService` and `StopOfferService` do to it. -/
structure Closed (P : Nat → Fld V → Prop) : Prop where
  prepare : ∀ m i f f' a b r, P i f → f.prepare m a b = .ok (r, f') → P i f'
  stop : ∀ m i f f', P i f → f.stop m = .ok f' → P i f'

theorem wipe_pres {P : Nat → Fld V → Prop} {s : St V} (hc : ∀ i f, P i f → P i f.clear)
    (h : FieldsAll P s.fields) : FieldsAll P s.wipe.fields := by
  have : s.wipe.fields = s.fields.map Fld.clear := rfl
  rw [this]
  exact h.map hc

theorem bindStop_pres {P : Nat → Fld V → Prop} {s t : St V} {unused : Bool}
    (hc : unused = true → ∀ i f, P i f → P i f.clear)
    (h : FieldsAll P s.fields) (e : s.bindStop unused = .ok t) : FieldsAll P t.fields := by
  unfold St.bindStop at e
  split at e
  · split at e
    · rename_i hu
      simp only [Except.ok.injEq] at e
      subst e
      exact wipe_pres (hc hu) h
    · simp only [Except.ok.injEq] at e
      subst e
      exact h
  · cases e

theorem bindStop_bound {s t : St V} {unused : Bool} (e : s.bindStop unused = .ok t) :
    t.bound = false ∧ t.listed = s.listed ∧ t.offered = s.offered := by
  unfold St.bindStop at e
  split at e
  · split at e <;> simp only [Except.ok.injEq] at e <;> subst e <;> simp [St.wipe]
  · cases e

theorem failBind_spec {s t : St V} {env : Env} {er : Err} {r : Ret V}
    (e : s.failBind env er = .ok (t, r)) :
    s.bindStop env.unusedEnd = .ok t ∧ r = .err er := by
  unfold St.failBind at e
  split at e
  · cases e
  · rename_i t' h
    simp only [Except.ok.injEq, Prod.mk.injEq] at e
    obtain ⟨rfl, rfl⟩ := e
    exact ⟨h, rfl⟩

theorem failEvents_spec {s t : St V} {env : Env} {er : Err} {r : Ret V}
    (e : s.failEvents env er = .ok (t, r)) :
    ∃ es, stopEvents s.mem s.events = .ok es ∧
      ({ s with events := es } : St V).bindStop env.unusedEnd = .ok t ∧ r = .err er := by
  unfold St.failEvents at e
  split at e
  · cases e
  · rename_i es h
    have := failBind_spec e
    exact ⟨es, h, this.1, this.2⟩

theorem failFields_spec {s t : St V} {env : Env} {er : Err} {r : Ret V}
    (e : s.failFields env er = .ok (t, r)) :
    ∃ fs es, stopFields s.mem s.fields = .ok fs ∧ stopEvents s.mem s.events = .ok es ∧
      ({ s with fields := fs, events := es } : St V).bindStop env.unusedEnd = .ok t ∧
      r = .err er := by
  unfold St.failFields at e
  split at e
  · cases e
  · rename_i fs h
    obtain ⟨es, h1, h2, h3⟩ := failEvents_spec e
    exact ⟨fs, es, h, h1, h2, h3⟩

/-- What a call of `OfferService` whose binding was prepared ends with. -/
inductive OfferEnd (env : Env) (s : St V) : St V → Ret V → Prop
  /-- an event refused -/
  | events (es : List (Ev V)) (t : St V)
      (h1 : offerEvents s.mem env.evOk 0 s.events = .ok (false, es))
      (h2 : ({ s with events := es } : St V).bindStop env.unusedEnd = .ok t) :
      OfferEnd env s t (.err .bindingFailure)
  /-- a field refused -/
  | fields (es es' : List (Ev V)) (fs : List (Fld V)) (er : Err) (t : St V)
      (h1 : offerEvents s.mem env.evOk 0 s.events = .ok (true, es))
      (h2 : offerFields s.mem env.fldOk env.slot 0 s.fields = .ok (some er, fs))
      (h3 : stopEvents s.mem es = .ok es')
      (h4 : ({ s with events := es', fields := fs } : St V).bindStop env.unusedEnd = .ok t) :
      OfferEnd env s t (.err er)
  /-- a handler is missing or the service discovery refused -/
  | late (es es' : List (Ev V)) (fs fs' : List (Fld V)) (t : St V)
      (h1 : offerEvents s.mem env.evOk 0 s.events = .ok (true, es))
      (h2 : offerFields s.mem env.fldOk env.slot 0 s.fields = .ok (none, fs))
      (h3 : stopFields s.mem fs = .ok fs')
      (h4 : stopEvents s.mem es = .ok es')
      (h5 : ({ s with events := es', fields := fs' } : St V).bindStop env.unusedEnd = .ok t) :
      OfferEnd env s t (.err .bindingFailure)
  /-- success -/
  | done (es : List (Ev V)) (fs : List (Fld V))
      (h1 : offerEvents s.mem env.evOk 0 s.events = .ok (true, es))
      (h2 : offerFields s.mem env.fldOk env.slot 0 s.fields = .ok (none, fs))
      (h3 : s.listed = false)
      (h4 : ({ s with events := es, fields := fs } : St V).allHandlers = true) :
      OfferEnd env s { s with events := es, fields := fs, listed := true, offered := true } .done

theorem offerEventsOn_spec {s t : St V} {env : Env} {r : Ret V}
    (e : s.offerEventsOn env = .ok (t, r)) : OfferEnd env s t r := by
  unfold St.offerEventsOn at e
  split at e
  · cases e
  · rename_i es h1
    obtain ⟨h2, rfl⟩ := failBind_spec e
    exact .events es t h1 h2
  · rename_i es h1
    unfold St.offerFieldsOn at e
    split at e
    · cases e
    · rename_i er fs h2
      obtain ⟨es', h3, h4, rfl⟩ := failEvents_spec e
      exact .fields es es' fs er t h1 h2 h3 h4
    · rename_i fs h2
      unfold St.offerEnd at e
      split at e
      · rename_i ha
        split at e
        · rename_i hd
          simp only [Except.ok.injEq, Prod.mk.injEq] at e
          obtain ⟨rfl, rfl⟩ := e
          refine .done es fs h1 h2 ?_ ha
          simp only [Bool.and_eq_true, Bool.not_eq_true'] at hd
          exact hd.2
        · obtain ⟨fs', es', h3, h4, h5, rfl⟩ := failFields_spec e
          exact .late es es' fs fs' t h1 h2 h3 h4 h5
      · obtain ⟨fs', es', h3, h4, h5, rfl⟩ := failFields_spec e
        exact .late es es' fs fs' t h1 h2 h3 h4 h5

/-- The binding's part of `OfferService`. -/
theorem bindPrepare_spec {s t : St V} {b : Bind} {unused ok : Bool}
    (e : s.bindPrepare b unused = (ok, t)) :
    (t.fields = s.fields ∨ (unused = true ∧ t.fields = s.fields.map Fld.clear)) ∧
    (t.events = s.events ∨ (unused = true ∧ t.events = s.events.map Ev.clear)) ∧
    t.listed = s.listed ∧ t.offered = s.offered ∧ t.methods = s.methods ∧
    (ok = true → t.bound = true ∧ t.marker = true ∧ t.mem.isSome = true) ∧
    (ok = false → t.bound = s.bound) := by
  unfold St.bindPrepare at e
  split at e
  · simp only [Prod.mk.injEq] at e
    obtain ⟨rfl, rfl⟩ := e
    simp
  · unfold St.setUpMemory at e
    cases unused with
    | true =>
      simp only [if_true] at e
      cases hb : (b != .noMemory) with
      | true =>
        simp only [hb, if_true] at e
        split at e
        all_goals
          simp only [Prod.mk.injEq] at e
          obtain ⟨rfl, rfl⟩ := e
          refine ⟨Or.inr ⟨rfl, rfl⟩, Or.inr ⟨rfl, rfl⟩, ?_⟩
          simp [St.wipe]
      | false =>
        simp only [hb, Bool.false_eq_true, if_false] at e
        simp only [Prod.mk.injEq] at e
        obtain ⟨rfl, rfl⟩ := e
        refine ⟨Or.inr ⟨rfl, rfl⟩, Or.inr ⟨rfl, rfl⟩, ?_⟩
        simp [St.wipe]
    | false =>
      simp only [Bool.false_eq_true, if_false] at e
      cases hm : (s.mem.isSome && (b != .noMemory)) with
      | true =>
        simp only [hm] at e
        have hm' : s.mem.isSome = true := by
          simp only [Bool.and_eq_true] at hm; exact hm.1
        split at e
        all_goals
          simp only [Prod.mk.injEq] at e
          obtain ⟨rfl, rfl⟩ := e
          simp [hm']
      | false =>
        simp only [hm] at e
        simp only [Prod.mk.injEq] at e
        obtain ⟨rfl, rfl⟩ := e
        simp

/-- A call of `OfferService`. -/
theorem offer_spec {s t : St V} {env : Env} {r : Ret V} (e : s.offer env = .ok (t, r)) :
    (s.bindPrepare env.bind env.unused = (false, t) ∧ r = .err .bindingFailure) ∨
    ∃ u, s.bindPrepare env.bind env.unused = (true, u) ∧ OfferEnd env u t r := by
  unfold St.offer at e
  split at e
  · rename_i t' h
    simp only [Except.ok.injEq, Prod.mk.injEq] at e
    obtain ⟨rfl, rfl⟩ := e
    exact Or.inl ⟨h, rfl⟩
  · rename_i u h
    exact Or.inr ⟨u, h, offerEventsOn_spec e⟩

/-- Properties of fields that survive the parts also survive the whole. -/
theorem offerEnd_pres {P : Nat → Fld V → Prop} (hP : Closed P) {env : Env} {s t : St V}
    {r : Ret V} (hc : env.unusedEnd = true → ∀ i f, P i f → P i f.clear)
    (h : FieldsAll P s.fields) (e : OfferEnd env s t r) : FieldsAll P t.fields := by
  cases e with
  | events es _ h1 h2 => exact bindStop_pres (s := { s with events := es }) hc h h2
  | fields es es' fs er _ h1 h2 h3 h4 =>
    exact bindStop_pres hc
      (offerFields_pres (k := 0) (hP.prepare _) (hP.stop _) _ _ _ h h2) h4
  | late es es' fs fs' _ h1 h2 h3 h4 h5 =>
    have hf : FieldsAll P fs :=
      offerFields_pres (k := 0) (hP.prepare _) (hP.stop _) _ _ _ h h2
    exact bindStop_pres hc (stopFields_pres (k := 0) (hP.stop _) _ _ hf h3) h5
  | done es fs h1 h2 h3 h4 =>
    exact offerFields_pres (k := 0) (hP.prepare _) (hP.stop _) _ _ _ h h2

theorem offer_pres {P : Nat → Fld V → Prop} (hP : Closed P) {env : Env} {s t : St V}
    {r : Ret V} (hc : ∀ i f, P i f → P i f.clear)
    (h : FieldsAll P s.fields) (e : s.offer env = .ok (t, r)) : FieldsAll P t.fields := by
  rcases offer_spec e with ⟨hb, _⟩ | ⟨u, hb, he⟩
  · rcases (bindPrepare_spec hb).1 with hf | ⟨_, hf⟩
    · rwa [hf]
    · rw [hf]; exact h.map hc
  · refine offerEnd_pres hP (fun _ => hc) ?_ he
    rcases (bindPrepare_spec hb).1 with hf | ⟨_, hf⟩
    · rwa [hf]
    · rw [hf]; exact h.map hc

end Verif.SkelOffer
