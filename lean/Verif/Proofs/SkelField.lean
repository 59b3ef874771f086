import Verif.Proofs.SkelOffer

/-!
# Lemmas about the value of a field
-/
namespace Verif.SkelOffer
open Verif.SkelOfferSpec

variable {V : Type}

/-! ## The parts -/

theorem Ev.prepare_spec {m : Option Nat} {useLog ok r : Bool} {e e' : Ev V}
    (h : e.prepare m useLog ok = .ok (r, e')) :
    e'.val = e.val ∧ (r = true → e'.flag = true ∧ e'.views = m) ∧ (r = false → e' = e) := by
  unfold Ev.prepare at h
  split at h
  · split at h
    · split at h
      · simp only [Except.ok.injEq, Prod.mk.injEq] at h
        obtain ⟨rfl, rfl⟩ := h
        simp
      · cases h
    · simp only [Except.ok.injEq, Prod.mk.injEq] at h
      obtain ⟨rfl, rfl⟩ := h
      simp
  · simp only [Except.ok.injEq, Prod.mk.injEq] at h
    obtain ⟨rfl, rfl⟩ := h
    simp

theorem Ev.stop_spec {m : Option Nat} {e e' : Ev V} (h : e.stop m = .ok e') :
    e'.val = e.val ∧ e'.flag = false := by
  unfold Ev.stop at h
  split at h
  · split at h
    · simp only [Except.ok.injEq] at h; subst h; simp
    · split at h
      · simp only [Except.ok.injEq] at h; subst h; simp
      · cases h
  · rename_i hf
    simp only [Except.ok.injEq] at h; subst h
    simpa using hf

theorem Ev.send_spec {m : Option Nat} {v : V} {slot : Bool} {e e' : Ev V} {r : Option Err}
    (h : e.send m v slot = .ok (r, e')) :
    (r = none ∧ e' = { e with val := some v } ∧ e.flag = true) ∨
    (r ≠ none ∧ e' = e) := by
  unfold Ev.send at h
  split at h
  · rename_i hf
    split at h
    · simp only [Except.ok.injEq, Prod.mk.injEq] at h
      obtain ⟨rfl, rfl⟩ := h
      simp
    · split at h
      · split at h
        all_goals
          simp only [Except.ok.injEq, Prod.mk.injEq] at h
          obtain ⟨rfl, rfl⟩ := h
          simp [hf]
      · cases h
  · simp only [Except.ok.injEq, Prod.mk.injEq] at h
    obtain ⟨rfl, rfl⟩ := h
    simp

/-- What `PrepareOffer` does to the value of a field. -/
theorem Fld.prepare_spec {m : Option Nat} {a b : Bool} {f f' : Fld V} {r : Option Err}
    (h : f.prepare m a b = .ok (r, f')) :
    f'.getter = f.getter ∧ f'.setter = f.setter ∧ f'.handler = f.handler ∧
    ((f'.prepared = f.prepared ∧ f'.initial = f.initial ∧ f'.ev.val = f.ev.val) ∨
     (f.prepared = false ∧ f'.prepared = true ∧ f'.initial = none ∧ f'.ev.val = f.initial ∧
      f.initial ≠ none)) ∧
    (r = none → f'.prepared = true ∧ f'.ev.flag = true ∧ f'.ev.views = m) := by
  unfold Fld.prepare at h
  split at h
  · rename_i hp
    split at h
    · cases h
    · rename_i ev he
      have := Ev.prepare_spec he
      simp only [Except.ok.injEq, Prod.mk.injEq] at h
      obtain ⟨rfl, rfl⟩ := h
      refine ⟨rfl, rfl, rfl, Or.inl ⟨rfl, rfl, this.1⟩, fun _ => ⟨hp, ?_⟩⟩
      exact this.2.1 rfl
    · rename_i ev he
      have := Ev.prepare_spec he
      simp only [Except.ok.injEq, Prod.mk.injEq] at h
      obtain ⟨rfl, rfl⟩ := h
      exact ⟨rfl, rfl, rfl, Or.inl ⟨rfl, rfl, this.1⟩, fun x => by cases x⟩
  · rename_i hp
    split at h
    · simp only [Except.ok.injEq, Prod.mk.injEq] at h
      obtain ⟨rfl, rfl⟩ := h
      exact ⟨rfl, rfl, rfl, Or.inl ⟨rfl, rfl, rfl⟩, fun x => by cases x⟩
    · split at h
      · simp only [Except.ok.injEq, Prod.mk.injEq] at h
        obtain ⟨rfl, rfl⟩ := h
        exact ⟨rfl, rfl, rfl, Or.inl ⟨rfl, rfl, rfl⟩, fun x => by cases x⟩
      · rename_i hi
        split at h
        · cases h
        · rename_i ev he
          have := Ev.prepare_spec he
          simp only [Except.ok.injEq, Prod.mk.injEq] at h
          obtain ⟨rfl, rfl⟩ := h
          exact ⟨rfl, rfl, rfl, Or.inl ⟨rfl, rfl, this.1⟩, fun x => by cases x⟩
        · rename_i ev he
          have hev := Ev.prepare_spec he
          unfold Fld.deferred at h
          split at h
          · cases h
          · rename_i v hv
            dsimp only at hv h
            split at h
            · cases h
            · rename_i er ev' hs
              simp only [Except.ok.injEq, Prod.mk.injEq] at h
              obtain ⟨rfl, rfl⟩ := h
              rcases Ev.send_spec hs with ⟨x, _, _⟩ | ⟨_, rfl⟩
              · cases x
              · exact ⟨rfl, rfl, rfl, Or.inl ⟨rfl, rfl, hev.1⟩, fun x => by cases x⟩
            · rename_i ev' hs
              simp only [Except.ok.injEq, Prod.mk.injEq] at h
              obtain ⟨rfl, rfl⟩ := h
              rcases Ev.send_spec hs with ⟨_, rfl, _⟩ | ⟨x, _⟩
              · refine ⟨rfl, rfl, rfl, Or.inr ⟨by simpa using hp, rfl, rfl, ?_, ?_⟩, ?_⟩
                · simp [hv]
                · simp [hv]
                · intro _
                  exact ⟨rfl, hev.2.1 rfl⟩
              · exact absurd rfl x

theorem Fld.stop_spec {m : Option Nat} {f f' : Fld V} (h : f.stop m = .ok f') :
    f'.getter = f.getter ∧ f'.setter = f.setter ∧ f'.handler = f.handler ∧
    f'.prepared = f.prepared ∧ f'.initial = f.initial ∧ f'.ev.val = f.ev.val ∧
    f'.ev.flag = false := by
  unfold Fld.stop at h
  split at h
  · cases h
  · rename_i ev he
    simp only [Except.ok.injEq] at h
    subst h
    have := Ev.stop_spec he
    exact ⟨rfl, rfl, rfl, rfl, rfl, this.1, this.2⟩

theorem Fld.update_spec {m : Option Nat} {v : V} {slot : Bool} {f f' : Fld V}
    {r : Option Err} (h : f.update m v slot = .ok (r, f')) :
    (f.prepared = false ∧ r = none ∧ f' = { f with initial := some v }) ∨
    (f.prepared = true ∧ r = none ∧ f' = { f with ev := { f.ev with val := some v } }) ∨
    (f.prepared = true ∧ r ≠ none ∧ f' = f) := by
  unfold Fld.update at h
  split at h
  · rename_i hp
    split at h
    · cases h
    · rename_i er ev hs
      simp only [Except.ok.injEq, Prod.mk.injEq] at h
      obtain ⟨rfl, rfl⟩ := h
      rcases Ev.send_spec hs with ⟨x, rfl, _⟩ | ⟨x, rfl⟩
      · exact Or.inr (Or.inl ⟨hp, x, rfl⟩)
      · exact Or.inr (Or.inr ⟨hp, x, rfl⟩)
  · rename_i hp
    simp only [Except.ok.injEq, Prod.mk.injEq] at h
    obtain ⟨rfl, rfl⟩ := h
    exact Or.inl ⟨by simpa using hp, rfl, rfl⟩

/-! ## Calls of consumers -/

/-- What a call of a consumer does. -/
theorem call_spec {s t : St V} {c : Call V} {r : Ret V} (h : s.call c = .ok (t, r)) :
    (t = s ∧ (∀ i v slot w, c = .set i v slot → r ≠ .value w)) ∨
    (∃ i v slot f g, c = .set i v slot ∧ s.fields[i]? = some f ∧ f.handler = some g ∧
      s.bound = true ∧ f.ev.flag = true ∧ r = .value (g v) ∧
      t = s.putField i { f with ev := { f.ev with val := some (g v) } }) := by
  cases c with
  | get i found =>
    left
    refine ⟨?_, by intro _ _ _ _ h; cases h⟩
    unfold St.call at h
    dsimp only at h
    split at h
    · simp only [Except.ok.injEq, Prod.mk.injEq] at h; exact h.1.symm
    · split at h
      · unfold St.doGet at h
        split at h
        · cases h
        · simp only [Except.ok.injEq, Prod.mk.injEq] at h; exact h.1.symm
        · simp only [Except.ok.injEq, Prod.mk.injEq] at h; exact h.1.symm
      · simp only [Except.ok.injEq, Prod.mk.injEq] at h; exact h.1.symm
  | set i v slot =>
    unfold St.call at h
    dsimp only at h
    split at h
    · simp only [Except.ok.injEq, Prod.mk.injEq] at h
      obtain ⟨rfl, rfl⟩ := h
      left; exact ⟨rfl, by intros; simp⟩
    · rename_i f hf
      split at h
      · simp only [Except.ok.injEq, Prod.mk.injEq] at h
        obtain ⟨rfl, rfl⟩ := h
        left; exact ⟨rfl, by intros; simp⟩
      · rename_i g hg
        split at h
        · rename_i hb
          simp only [Bool.and_eq_true] at hb
          unfold St.doSet at h
          split at h
          · cases h
          · rename_i er ev hs
            simp only [Except.ok.injEq, Prod.mk.injEq] at h
            obtain ⟨rfl, rfl⟩ := h
            rcases Ev.send_spec hs with ⟨x, _, _⟩ | ⟨_, rfl⟩
            · cases x
            · left
              refine ⟨?_, by intros; simp⟩
              unfold St.putField
              have : s.fields.set i f = s.fields := by
                apply List.ext_getElem?
                intro j
                rw [List.getElem?_set]
                split
                · rename_i hij
                  subst hij
                  split
                  · exact hf.symm
                  · rename_i hl
                    rw [List.getElem?_eq_none (by omega)]
                · rfl
              show ({ s with fields := s.fields.set i f } : St V) = s
              rw [this]
          · rename_i ev hs
            simp only [Except.ok.injEq, Prod.mk.injEq] at h
            obtain ⟨rfl, rfl⟩ := h
            rcases Ev.send_spec hs with ⟨_, rfl, hfl⟩ | ⟨x, _⟩
            · right
              exact ⟨i, v, slot, f, g, rfl, hf, hg, hb.1, hfl, rfl, rfl⟩
            · exact absurd rfl x
        · simp only [Except.ok.injEq, Prod.mk.injEq] at h
          obtain ⟨rfl, rfl⟩ := h
          left; exact ⟨rfl, by intros; simp⟩

/-- A `Get` that is answered with a value. -/
theorem get_spec {s t : St V} {i : Nat} {found : Bool} {v : V}
    (h : s.call (.get i found) = .ok (t, .value v)) :
    ∃ f, s.fields[i]? = some f ∧ s.bound = true ∧ f.ev.val = some v := by
  unfold St.call at h
  dsimp only at h
  split at h
  · cases h
  · rename_i f hf
    split at h
    · rename_i hb
      simp only [Bool.and_eq_true] at hb
      unfold St.doGet at h
      split at h
      · cases h
      · cases h
      · rename_i v' hl
        simp only [Except.ok.injEq, Prod.mk.injEq, Ret.value.injEq] at h
        obtain ⟨_, rfl⟩ := h
        refine ⟨f, hf, hb.1.1, ?_⟩
        unfold Ev.latest at hl
        split at hl
        · cases hl
        · split at hl
          · simp only [Except.ok.injEq] at hl
            split at hl
            · exact hl
            · cases hl
          · cases hl
    · cases h

/-- A `Get` that reaches the provider while the field has a value. -/
theorem get_answer {s t : St V} {i : Nat} {r : Ret V}
    (hv : ∀ f, s.fields[i]? = some f → s.bound = true → f.ev.val ≠ none)
    (h : s.call (.get i true) = .ok (t, r)) : r = .unreached ∨ ∃ v, r = .value v := by
  unfold St.call at h
  dsimp only at h
  split at h
  · simp only [Except.ok.injEq, Prod.mk.injEq] at h; exact Or.inl h.2.symm
  · rename_i f hf
    split at h
    · rename_i hb
      simp only [Bool.and_eq_true] at hb
      have hv' := hv f hf hb.1.1
      unfold St.doGet at h
      split at h
      · cases h
      · rename_i hl
        unfold Ev.latest at hl
        split at hl
        · cases hl
        · split at hl
          · simp only [Except.ok.injEq, if_true] at hl
            exact absurd hl hv'
          · cases hl
      · rename_i v hl
        simp only [Except.ok.injEq, Prod.mk.injEq] at h
        exact Or.inr ⟨v, h.2.symm⟩
    · simp only [Except.ok.injEq, Prod.mk.injEq] at h; exact Or.inl h.2.symm

/-! ## The calls that run within `StopOfferService` -/

theorem stopFields_flag {m : Option Nat} : ∀ (fs fs' : List (Fld V)),
    stopFields m fs = .ok fs' → FieldsAll (fun _ f => f.ev.flag = false) fs' := by
  intro fs
  induction fs with
  | nil =>
    intro fs' h
    simp only [stopFields, Except.ok.injEq] at h
    subst h
    exact FieldsAll.nil
  | cons f fs ih =>
    intro fs' h
    simp only [stopFields] at h
    split at h
    · cases h
    · rename_i f' hf
      split at h
      · cases h
      · rename_i gs hgs
        simp only [Except.ok.injEq] at h
        subst h
        exact FieldsAll.cons_iff.2 ⟨(Fld.stop_spec hf).2.2.2.2.2.2, ih _ hgs⟩

theorem calls_stopped : ∀ (cs : List (Call V)) (s t : St V),
    FieldsAll (fun _ f => f.ev.flag = false) s.fields → St.calls cs s = .ok t → t = s := by
  intro cs
  induction cs with
  | nil =>
    intro s t _ h
    simp only [St.calls, Except.ok.injEq] at h
    exact h.symm
  | cons c cs ih =>
    intro s t hf h
    simp only [St.calls] at h
    split at h
    · cases h
    · rename_i u r hc
      rcases call_spec hc with ⟨rfl, _⟩ | ⟨i, v, slot, f, g, _, h1, _, _, h2, _, _⟩
      · exact ih _ _ hf h
      · have := hf i f h1
        rw [this] at h2; cases h2

/-- What `StopOfferService` does. -/
theorem stopOffer_spec {s t : St V} {unused : Bool} {during : List (Call V)} {r : Ret V}
    (h : s.stopOffer unused during = .ok (t, r)) :
    r = .done ∧
    ((s.offered = false ∧ t = s) ∨
     (s.offered = true ∧ ∃ es fs u, stopEvents s.mem s.events = .ok es ∧
      stopFields s.mem s.fields = .ok fs ∧
      ({ s with listed := false, events := es, fields := fs } : St V).bindStop unused = .ok u ∧
      t = { u with offered := false })) := by
  unfold St.stopOffer at h
  split at h
  · rename_i ho
    split at h
    · cases h
    · rename_i es he
      split at h
      · cases h
      · rename_i fs hf
        split at h
        · cases h
        · rename_i u hu
          split at h
          · cases h
          · rename_i w hw
            simp only [Except.ok.injEq, Prod.mk.injEq] at h
            obtain ⟨rfl, rfl⟩ := h
            have := calls_stopped _ _ _ (stopFields_flag _ _ hf) hu
            subst this
            exact ⟨rfl, Or.inr ⟨ho, es, fs, w, he, hf, hw, rfl⟩⟩
  · rename_i ho
    simp only [Except.ok.injEq, Prod.mk.injEq] at h
    obtain ⟨rfl, rfl⟩ := h
    exact ⟨rfl, Or.inl ⟨by simpa using ho, rfl⟩⟩

/-- Properties of fields that survive the parts also survive
`StopOfferService`. -/
theorem stopOffer_pres {P : Nat → Fld V → Prop} (hP : Closed P) {s t : St V} {unused : Bool}
    {during : List (Call V)} {r : Ret V}
    (hc : unused = true → ∀ i f, P i f → P i f.clear)
    (h : FieldsAll P s.fields) (e : s.stopOffer unused during = .ok (t, r)) :
    FieldsAll P t.fields := by
  rcases (stopOffer_spec e).2 with ⟨_, rfl⟩ | ⟨_, es, fs, u, h1, h2, h3, rfl⟩
  · exact h
  · exact bindStop_pres (t := u) hc (stopFields_pres (k := 0) (hP.stop _) _ _ h h2) h3

/-! ## The value of a field and the history -/

/-- The field agrees with the value given last. -/
def Agrees (last : Nat → Option V) (i : Nat) (f : Fld V) : Prop :=
  (f.prepared = false → last i = f.initial) ∧
  (f.prepared = true → last i ≠ none ∧ ∀ w, f.ev.val = some w → last i = some w)

theorem agrees_closed (last : Nat → Option V) : Closed (Agrees last) where
  prepare := by
    intro m i f f' a b r h e
    obtain ⟨_, _, _, h1, _⟩ := Fld.prepare_spec e
    rcases h1 with ⟨h2, h3, h4⟩ | ⟨h2, h3, h4, h5, h6⟩
    · unfold Agrees; rw [h2, h3, h4]; exact h
    · have := h.1 h2
      refine ⟨fun x => (by rw [h3] at x; cases x), fun _ => ⟨by rw [this]; exact h6, ?_⟩⟩
      intro w hw
      rw [this, ← h5, hw]
  stop := by
    intro m i f f' h e
    obtain ⟨_, _, _, h2, h3, h4, _⟩ := Fld.stop_spec e
    unfold Agrees; rw [h2, h3, h4]; exact h

theorem agrees_clear (last : Nat → Option V) (i : Nat) (f : Fld V) (h : Agrees last i f) :
    Agrees last i f.clear :=
  ⟨h.1, fun hp => ⟨(h.2 hp).1, fun w hw => by cases hw⟩⟩

/-- The set handler of the field is the one registered last. -/
def HandlerIs (last : Nat → Option (V → V)) (i : Nat) (f : Fld V) : Prop :=
  f.handler = last i

theorem handlerIs_closed (last : Nat → Option (V → V)) : Closed (HandlerIs last) where
  prepare := by
    intro m i f f' a b r h e
    obtain ⟨_, _, h1, _⟩ := Fld.prepare_spec e
    unfold HandlerIs; rw [h1]; exact h
  stop := by
    intro m i f f' h e
    obtain ⟨_, _, h1, _⟩ := Fld.stop_spec e
    unfold HandlerIs; rw [h1]; exact h

/-- The field has been prepared once. -/
def WasPrepared (_ : Nat) (f : Fld V) : Prop := f.prepared = true

theorem wasPrepared_closed : Closed (WasPrepared (V := V)) where
  prepare := by
    intro m i f f' a b r h e
    obtain ⟨_, _, _, h1, _⟩ := Fld.prepare_spec e
    rcases h1 with ⟨h2, _⟩ | ⟨_, h3, _⟩
    · unfold WasPrepared; rw [h2]; exact h
    · exact h3
  stop := by
    intro m i f f' h e
    obtain ⟨_, _, _, h2, _⟩ := Fld.stop_spec e
    unfold WasPrepared; rw [h2]; exact h

/-- After `OfferServiceFields` succeeded every field is prepared and offered. -/
theorem offerFields_done {m : Option Nat} {ok slot : Nat → Bool} :
    ∀ (fs : List (Fld V)) (k : Nat) (fs' : List (Fld V)),
      offerFields m ok slot k fs = .ok (none, fs') →
      FieldsAll (fun _ f => f.prepared = true ∧ f.ev.flag = true ∧ f.ev.views = m) fs' := by
  intro fs
  induction fs with
  | nil =>
    intro k fs' e
    simp only [offerFields, Except.ok.injEq, Prod.mk.injEq, true_and] at e
    subst e
    exact FieldsAll.nil
  | cons f fs ih =>
    intro k fs' e
    simp only [offerFields] at e
    split at e
    · cases e
    · cases e
    · rename_i f' hf
      split at e
      · cases e
      · rename_i gs hgs
        simp only [Except.ok.injEq, Prod.mk.injEq, true_and] at e
        subst e
        exact FieldsAll.cons_iff.2 ⟨(Fld.prepare_spec hf).2.2.2.2 rfl, ih _ _ hgs⟩
      · rename_i er gs hgs
        split at e
        · cases e
        · cases e

/-- Between the calls consumers reach the provider only after a successful
`OfferService`, so every field has been prepared. -/
def BoundPrepared (s : St V) : Prop := s.bound = true → FieldsAll WasPrepared s.fields

theorem offerEnd_bound {env : Env} {s t : St V} {r : Ret V} (e : OfferEnd env s t r) :
    BoundPrepared t := by
  cases e with
  | events es _ h1 h2 => intro h; rw [(bindStop_bound h2).1] at h; cases h
  | fields es es' fs er _ h1 h2 h3 h4 => intro h; rw [(bindStop_bound h4).1] at h; cases h
  | late es es' fs fs' _ h1 h2 h3 h4 h5 => intro h; rw [(bindStop_bound h5).1] at h; cases h
  | done es fs h1 h2 h3 h4 =>
    intro _ i f hf
    exact (offerFields_done _ _ _ h2 i f hf).1

theorem offer_bound {env : Env} {s t : St V} {r : Ret V} (h : BoundPrepared s)
    (e : s.offer env = .ok (t, r)) : BoundPrepared t := by
  rcases offer_spec e with ⟨hb, _⟩ | ⟨u, hb, he⟩
  · obtain ⟨h1, _, _, _, _, _, h2⟩ := bindPrepare_spec hb
    intro ht
    rw [h2 rfl] at ht
    rcases h1 with hf | ⟨_, hf⟩
    · rw [hf]; exact h ht
    · rw [hf]; exact (h ht).map (fun _ f hf => hf)
  · exact offerEnd_bound he

theorem given_other {i : Nat} {o : Op V} {r : Ret V}
    (h1 : ∀ j v slot, o ≠ .update j v slot) (h2 : ∀ j v slot, o ≠ .call (.set j v slot)) :
    given i (o, r) = none := by
  cases o with
  | update j v slot => exact absurd rfl (h1 j v slot)
  | call c =>
    cases c with
    | get => rfl
    | set j v slot => exact absurd rfl (h2 j v slot)
  | offer => rfl
  | stopOffer => rfl
  | send => rfl
  | setHandler => rfl
  | method => rfl

theorem registered_other {i : Nat} {o : Op V} {r : Ret V} (h1 : ∀ j g, o ≠ .setHandler j g) :
    registered i (o, r) = none := by
  cases o with
  | setHandler j g => exact absurd rfl (h1 j g)
  | _ => rfl

/-- The invariant that ties the fields to the history. -/
structure Inv (s : St V) (h : History V) : Prop where
  agrees : FieldsAll (Agrees fun i => lastValue i h) s.fields
  handler : FieldsAll (HandlerIs fun i => lastHandler i h) s.fields
  bound : BoundPrepared s

theorem agreesCongr {l l' : Nat → Option V} {fs : List (Fld V)}
    (h : FieldsAll (Agrees l) fs) (e : ∀ i, l' i = l i) : FieldsAll (Agrees l') fs := by
  have : l' = l := funext e
  rwa [this]

theorem handlerCongr {l l' : Nat → Option (V → V)} {fs : List (Fld V)}
    (h : FieldsAll (HandlerIs l) fs) (e : ∀ i, l' i = l i) : FieldsAll (HandlerIs l') fs := by
  have : l' = l := funext e
  rwa [this]

/-- A field is changed and the value given last changes accordingly. -/
theorem FieldsAll.update {P Q : Nat → Fld V → Prop} {fs : List (Fld V)} {i : Nat} {f : Fld V}
    (h : FieldsAll P fs) (hother : ∀ j g, j ≠ i → P j g → Q j g) (hf : Q i f) :
    FieldsAll Q (fs.set i f) := by
  intro j g hg
  rw [List.getElem?_set] at hg
  split at hg
  · rename_i hij
    subst hij
    split at hg
    · simp only [Option.some.injEq] at hg
      subst hg; exact hf
    · cases hg
  · rename_i hij
    exact hother j g (fun e => hij e.symm) (h j g hg)

theorem inv_step {s t : St V} {h : History V} {o : Op V} {r : Ret V} (hi : Inv s h)
    (e : s.step o = .ok (t, r)) : Inv t (h ++ [(o, r)]) := by
  cases o with
  | offer env =>
    refine ⟨?_, ?_, ?_⟩
    · refine agreesCongr (offer_pres (agrees_closed _) (agrees_clear _) hi.agrees e) ?_
      intro i; rw [lastValue_snoc]; rfl
    · refine handlerCongr (offer_pres (handlerIs_closed _) (fun _ _ x => x) hi.handler e) ?_
      intro i; rw [lastHandler_snoc]; rfl
    · exact offer_bound hi.bound e
  | stopOffer unused during =>
    refine ⟨?_, ?_, ?_⟩
    · refine agreesCongr
        (stopOffer_pres (agrees_closed _) (fun _ => agrees_clear _) hi.agrees e) ?_
      intro i; rw [lastValue_snoc]; rfl
    · refine handlerCongr
        (stopOffer_pres (handlerIs_closed _) (fun _ _ _ x => x) hi.handler e) ?_
      intro i; rw [lastHandler_snoc]; rfl
    · rcases (stopOffer_spec e).2 with ⟨_, rfl⟩ | ⟨_, es, fs, u, _, _, h3, rfl⟩
      · exact hi.bound
      · intro hb
        have := (bindStop_bound h3).1
        rw [show ({ u with offered := false } : St V).bound = u.bound from rfl, this] at hb
        cases hb
  | send i v slot =>
    have hf : t.fields = s.fields ∧ t.bound = s.bound := by
      simp only [St.step] at e
      split at e
      · simp only [Except.ok.injEq, Prod.mk.injEq] at e
        obtain ⟨rfl, _⟩ := e
        exact ⟨rfl, rfl⟩
      · split at e
        · cases e
        · simp only [Except.ok.injEq, Prod.mk.injEq] at e
          obtain ⟨rfl, _⟩ := e
          exact ⟨rfl, rfl⟩
    refine ⟨?_, ?_, ?_⟩
    · rw [hf.1]
      refine agreesCongr hi.agrees ?_
      intro i; rw [lastValue_snoc]; rfl
    · rw [hf.1]
      refine handlerCongr hi.handler ?_
      intro i; rw [lastHandler_snoc]; rfl
    · unfold BoundPrepared; rw [hf.1, hf.2]; exact hi.bound
  | update i v slot =>
    simp only [St.step] at e
    split at e
    · simp only [Except.ok.injEq, Prod.mk.injEq] at e
      obtain ⟨rfl, rfl⟩ := e
      refine ⟨agreesCongr hi.agrees ?_, handlerCongr hi.handler ?_, hi.bound⟩
      · intro i; rw [lastValue_snoc]; rfl
      · intro i; rw [lastHandler_snoc]; rfl
    · rename_i f hf
      split at e
      · cases e
      · rename_i er f' hu
        simp only [Except.ok.injEq, Prod.mk.injEq] at e
        obtain ⟨rfl, rfl⟩ := e
        have ha := hi.agrees i f hf
        have hh := hi.handler i f hf
        have hoth : ∀ (j : Nat), j ≠ i →
            lastValue j (h ++ [(Op.update i v slot, Ret.ofErr er)]) = lastValue j h := by
          intro j hj
          rw [lastValue_snoc]
          cases er <;> simp [given, Ret.ofErr, Ne.symm hj]
        have hH : ∀ j, lastHandler j (h ++ [(Op.update i v slot, Ret.ofErr er)]) =
            lastHandler j h := by
          intro j; rw [lastHandler_snoc]; rfl
        have same : f'.handler = f.handler ∧ f'.prepared = f.prepared := by
          rcases Fld.update_spec hu with ⟨_, _, rfl⟩ | ⟨_, _, rfl⟩ | ⟨_, _, rfl⟩ <;> exact ⟨rfl, rfl⟩
        refine ⟨?_, ?_, ?_⟩
        · refine hi.agrees.update ?_ ?_
          · intro j g hj hg
            unfold Agrees at hg ⊢
            dsimp only at hg ⊢
            rw [hoth j hj]; exact hg
          · unfold Agrees
            dsimp only
            rw [lastValue_snoc]
            rcases Fld.update_spec hu with ⟨hp, rfl, rfl⟩ | ⟨hp, rfl, rfl⟩ | ⟨hp, hr, rfl⟩
            · simp [given, Ret.ofErr, hp]
            · simp [given, Ret.ofErr, hp]
            · cases er with
              | none => exact absurd rfl hr
              | some er => simpa [given, Ret.ofErr, Agrees] using ha
        · refine hi.handler.update ?_ ?_
          · intro j g hj hg
            unfold HandlerIs at hg ⊢
            dsimp only at hg ⊢
            rw [hH j]; exact hg
          · unfold HandlerIs
            dsimp only
            rw [hH i, same.1]; exact hh
        · intro hb
          refine FieldsAll.set (hi.bound hb) ?_
          have := hi.bound hb i f hf
          unfold WasPrepared at this ⊢
          rw [same.2]; exact this
  | setHandler i g =>
    simp only [St.step] at e
    split at e
    · simp only [Except.ok.injEq, Prod.mk.injEq] at e
      obtain ⟨rfl, rfl⟩ := e
      refine ⟨agreesCongr hi.agrees ?_, handlerCongr hi.handler ?_, hi.bound⟩
      · intro i; rw [lastValue_snoc]; rfl
      · intro i; rw [lastHandler_snoc]; rfl
    · rename_i f hf
      split at e
      · simp only [Except.ok.injEq, Prod.mk.injEq] at e
        obtain ⟨rfl, rfl⟩ := e
        have hV : ∀ j, lastValue j (h ++ [(Op.setHandler i g, Ret.done)]) = lastValue j h := by
          intro j; rw [lastValue_snoc]; rfl
        refine ⟨?_, ?_, ?_⟩
        · refine hi.agrees.update ?_ ?_
          · intro j x _ hx
            unfold Agrees at hx ⊢
            dsimp only at hx ⊢
            rw [hV j]; exact hx
          · have := hi.agrees i f hf
            unfold Agrees at this ⊢
            dsimp only at this ⊢
            rw [hV i]; exact this
        · refine hi.handler.update ?_ ?_
          · intro j x hj hx
            unfold HandlerIs at hx ⊢
            dsimp only at hx ⊢
            rw [lastHandler_snoc]
            simpa [registered, Ne.symm hj] using hx
          · unfold HandlerIs
            dsimp only
            rw [lastHandler_snoc]
            simp [registered]
        · intro hb
          exact FieldsAll.set (hi.bound hb) (hi.bound hb i f hf)
      · simp only [Except.ok.injEq, Prod.mk.injEq] at e
        obtain ⟨rfl, rfl⟩ := e
        refine ⟨agreesCongr hi.agrees ?_, handlerCongr hi.handler ?_, hi.bound⟩
        · intro i; rw [lastValue_snoc]; rfl
        · intro i; rw [lastHandler_snoc]; rfl
  | method i =>
    simp only [St.step, Except.ok.injEq, Prod.mk.injEq] at e
    obtain ⟨rfl, rfl⟩ := e
    refine ⟨agreesCongr hi.agrees ?_, handlerCongr hi.handler ?_, hi.bound⟩
    · intro i; rw [lastValue_snoc]; rfl
    · intro i; rw [lastHandler_snoc]; rfl
  | call c =>
    have hH : ∀ j, lastHandler j (h ++ [(Op.call c, r)]) = lastHandler j h := by
      intro j; rw [lastHandler_snoc]; rfl
    rcases call_spec e with ⟨rfl, hr⟩ | ⟨i, v, slot, f, g, rfl, hf, hg, hb, _, rfl, rfl⟩
    · refine ⟨agreesCongr hi.agrees ?_, handlerCongr hi.handler hH, hi.bound⟩
      intro j
      rw [lastValue_snoc]
      cases c with
      | get => rfl
      | set i v slot =>
        cases r with
        | value w => exact absurd rfl (hr i v slot w rfl)
        | done => rfl
        | err => rfl
        | unreached => rfl
    · have hp : f.prepared = true := hi.bound hb i f hf
      refine ⟨?_, ?_, ?_⟩
      · refine hi.agrees.update ?_ ?_
        · intro j x hj hx
          unfold Agrees at hx ⊢
          dsimp only at hx ⊢
          rw [lastValue_snoc]
          simpa [given, Ne.symm hj] using hx
        · unfold Agrees
          dsimp only
          rw [lastValue_snoc]
          simp [given, hp]
      · refine hi.handler.update ?_ ?_
        · intro j x _ hx
          unfold HandlerIs at hx ⊢
          dsimp only at hx ⊢
          rw [hH j]; exact hx
        · have := hi.handler i f hf
          unfold HandlerIs at this ⊢
          dsimp only at this ⊢
          rw [hH i]; exact this
      · intro hb'
        exact FieldsAll.set (hi.bound hb') (hi.bound hb' i f hf)

theorem start_fields {n k : Nat} {tags : List Tags} {old : Option (Nat → Option V)} {i : Nat}
    {f : Fld V} (h : (start n tags k old).fields[i]? = some f) :
    f.prepared = false ∧ f.initial = none ∧ f.handler = none ∧ f.ev.flag = false ∧
    f.ev.log = none ∧ f.ev.views = none := by
  simp only [start, List.getElem?_map] at h
  cases hz : tags.zipIdx[i]? with
  | none => rw [hz] at h; cases h
  | some x =>
    rw [hz] at h
    simp only [Option.map_some, Option.some.injEq] at h
    subst h
    exact ⟨rfl, rfl, rfl, rfl, rfl, rfl⟩

theorem inv_start (n k : Nat) (tags : List Tags) (old : Option (Nat → Option V)) :
    Inv (start n tags k old) [] := by
  refine ⟨?_, ?_, ?_⟩
  · intro i f hf
    obtain ⟨h1, h2, _⟩ := start_fields hf
    refine ⟨fun _ => h2.symm, fun hp => ?_⟩
    rw [h1] at hp; cases hp
  · intro i f hf
    obtain ⟨_, _, h3, _⟩ := start_fields hf
    exact h3
  · intro h; cases h

theorem inv_run {n k : Nat} {tags : List Tags} {old : Option (Nat → Option V)}
    {os : List (Op V)} {s : St V} {h : History V}
    (hr : run (start n tags k old) os = .ok (s, h)) : Inv s h :=
  run_induct (inv_start n k tags old) (fun _ _ _ _ _ hi e => inv_step hi e) hr

end Verif.SkelOffer
