import Verif.Proofs.SkelField

/-!
# Fields keep their value while the memory is kept
-/
namespace Verif.SkelOffer
open Verif.SkelOfferSpec

variable {V : Type}

/-- A field that has been prepared has a value in the memory. -/
def HasValue (_ : Nat) (f : Fld V) : Prop := f.prepared = true → f.ev.val ≠ none

/-- The field has not been prepared. -/
def Fresh (_ : Nat) (f : Fld V) : Prop := f.prepared = false

theorem hasValue_closed : Closed (HasValue (V := V)) where
  prepare := by
    intro m i f f' a b r h e
    obtain ⟨_, _, _, h1, _⟩ := Fld.prepare_spec e
    rcases h1 with ⟨h2, _, h4⟩ | ⟨_, _, _, h5, h6⟩
    · unfold HasValue; rw [h2, h4]; exact h
    · intro _; rw [h5]; exact h6
  stop := by
    intro m i f f' h e
    obtain ⟨_, _, _, h2, _, h4, _⟩ := Fld.stop_spec e
    unfold HasValue; rw [h2, h4]; exact h

theorem FieldsAll.imp {P Q : Nat → Fld V → Prop} {fs : List (Fld V)} (h : FieldsAll P fs)
    (f : ∀ i x, P i x → Q i x) : FieldsAll Q fs := fun i x hx => f i x (h i x hx)

theorem fresh_hasValue {fs : List (Fld V)} (h : FieldsAll Fresh fs) : FieldsAll HasValue fs :=
  h.imp fun _ f hf hp => by unfold Fresh at hf; rw [hf] at hp; cases hp

/-- The calls other than `OfferService` and `StopOfferService` keep the values. -/
theorem plain_step {s t : St V} {o : Op V} {r : Ret V} (h : FieldsAll HasValue s.fields)
    (ho : ∀ env, o ≠ .offer env) (hs : ∀ u d, o ≠ .stopOffer u d)
    (e : s.step o = .ok (t, r)) :
    FieldsAll HasValue t.fields ∧ t.bound = s.bound ∧ t.offered = s.offered ∧
    t.listed = s.listed ∧
    (s.bound = false → FieldsAll Fresh s.fields → FieldsAll Fresh t.fields) := by
  cases o with
  | offer env => exact absurd rfl (ho env)
  | stopOffer u d => exact absurd rfl (hs u d)
  | send i v slot =>
    simp only [St.step] at e
    split at e
    · simp only [Except.ok.injEq, Prod.mk.injEq] at e
      obtain ⟨rfl, _⟩ := e
      exact ⟨h, rfl, rfl, rfl, fun _ x => x⟩
    · split at e
      · cases e
      · simp only [Except.ok.injEq, Prod.mk.injEq] at e
        obtain ⟨rfl, _⟩ := e
        exact ⟨h, rfl, rfl, rfl, fun _ x => x⟩
  | update i v slot =>
    simp only [St.step] at e
    split at e
    · simp only [Except.ok.injEq, Prod.mk.injEq] at e
      obtain ⟨rfl, _⟩ := e
      exact ⟨h, rfl, rfl, rfl, fun _ x => x⟩
    · rename_i f hf
      split at e
      · cases e
      · rename_i er f' hu
        simp only [Except.ok.injEq, Prod.mk.injEq] at e
        obtain ⟨rfl, _⟩ := e
        refine ⟨h.set ?_, rfl, rfl, rfl, fun _ x => x.set ?_⟩
        · rcases Fld.update_spec hu with ⟨hp, _, rfl⟩ | ⟨_, _, rfl⟩ | ⟨_, _, rfl⟩
          · intro hp'; dsimp only at hp'; rw [hp] at hp'; cases hp'
          · intro _; simp
          · exact h i f' hf
        · have := x i f hf
          unfold Fresh at this ⊢
          rcases Fld.update_spec hu with ⟨hp, _, rfl⟩ | ⟨_, _, rfl⟩ | ⟨_, _, rfl⟩
          · exact this
          · exact this
          · exact this
  | setHandler i g =>
    simp only [St.step] at e
    split at e
    · simp only [Except.ok.injEq, Prod.mk.injEq] at e
      obtain ⟨rfl, _⟩ := e
      exact ⟨h, rfl, rfl, rfl, fun _ x => x⟩
    · rename_i f hf
      split at e
      · simp only [Except.ok.injEq, Prod.mk.injEq] at e
        obtain ⟨rfl, _⟩ := e
        exact ⟨h.set (h i f hf), rfl, rfl, rfl, fun _ x => x.set (x i f hf)⟩
      · simp only [Except.ok.injEq, Prod.mk.injEq] at e
        obtain ⟨rfl, _⟩ := e
        exact ⟨h, rfl, rfl, rfl, fun _ x => x⟩
  | method i =>
    simp only [St.step, Except.ok.injEq, Prod.mk.injEq] at e
    obtain ⟨rfl, _⟩ := e
    exact ⟨h, rfl, rfl, rfl, fun _ x => x⟩
  | call c =>
    rcases call_spec e with ⟨rfl, _⟩ | ⟨i, v, slot, f, g, _, hf, _, hb, _, _, rfl⟩
    · exact ⟨h, rfl, rfl, rfl, fun _ x => x⟩
    · refine ⟨h.set ?_, rfl, rfl, rfl, fun x => by rw [x] at hb; cases hb⟩
      intro _; simp

theorem stopOffer_off {s t : St V} {u : Bool} {d : List (Call V)} {r : Ret V}
    (h : s.offered = false) (e : s.stopOffer u d = .ok (t, r)) : t = s := by
  rcases (stopOffer_spec e).2 with ⟨_, rfl⟩ | ⟨ho, _⟩
  · rfl
  · rw [h] at ho; cases ho

/-- Nothing has been offered yet. -/
def Untouched (s : St V) : Prop :=
  FieldsAll Fresh s.fields ∧ s.bound = false ∧ s.offered = false

/-- The first `OfferService`: the binding's part. -/
theorem bindPrepare_fresh {s t : St V} {b : Bind} {unused ok : Bool} (h : Untouched s)
    (e : s.bindPrepare b unused = (ok, t)) : FieldsAll Fresh t.fields := by
  rcases (bindPrepare_spec e).1 with hf | ⟨_, hf⟩
  · rw [hf]; exact h.1
  · rw [hf]; exact h.1.map fun _ _ x => x

/-- Invariant of the runs with at most one `OfferService`. -/
structure InvOnce (s : St V) (h : History V) : Prop where
  before : offerCalled h = false → Untouched s
  value : s.bound = true → FieldsAll HasValue s.fields

theorem invOnce_step {s t : St V} {h : History V} {o : Op V} {r : Ret V} (hi : InvOnce s h)
    (hp : Once h o) (e : s.step o = .ok (t, r)) : InvOnce t (h ++ [(o, r)]) := by
  by_cases hof : ∃ env, o = .offer env
  · obtain ⟨env, rfl⟩ := hof
    have hu := hi.before (hp rfl)
    refine ⟨fun x => by rw [offerCalled_snoc] at x; simp [isOffer] at x, ?_⟩
    rcases offer_spec e with ⟨hb, _⟩ | ⟨u, hb, he⟩
    · intro ht
      rw [(bindPrepare_spec hb).2.2.2.2.2.2 rfl, hu.2.1] at ht
      cases ht
    · have hv := fresh_hasValue (bindPrepare_fresh hu hb)
      intro ht
      cases he with
      | events es _ h1 h2 => rw [(bindStop_bound h2).1] at ht; cases ht
      | fields es es' fs er _ h1 h2 h3 h4 => rw [(bindStop_bound h4).1] at ht; cases ht
      | late es es' fs fs' _ h1 h2 h3 h4 h5 => rw [(bindStop_bound h5).1] at ht; cases ht
      | done es fs h1 h2 h3 h4 =>
        exact offerFields_pres (k := 0) (hasValue_closed.prepare _) (hasValue_closed.stop _)
          _ _ _ hv h2
  · by_cases hst : ∃ u d, o = .stopOffer u d
    · obtain ⟨u, d, rfl⟩ := hst
      refine ⟨?_, ?_⟩
      · intro x
        rw [offerCalled_snoc] at x
        simp only [isOffer, Bool.or_false] at x
        have := stopOffer_off (hi.before x).2.2 e
        subst this
        exact hi.before x
      · intro hb
        rcases (stopOffer_spec e).2 with ⟨_, rfl⟩ | ⟨_, es, fs, w, _, _, h3, rfl⟩
        · exact hi.value hb
        · have := (bindStop_bound h3).1
          rw [show ({ w with offered := false } : St V).bound = w.bound from rfl, this] at hb
          cases hb
    · have ho : ∀ env, o ≠ .offer env := fun env x => hof ⟨env, x⟩
      have hs : ∀ u d, o ≠ .stopOffer u d := fun u d x => hst ⟨u, d, x⟩
      have hne : isOffer o = false := by
        cases o with
        | offer env => exact absurd rfl (ho env)
        | _ => rfl
      refine ⟨?_, ?_⟩
      · intro x
        rw [offerCalled_snoc, hne, Bool.or_false] at x
        have hu := hi.before x
        have := plain_step (fresh_hasValue hu.1) ho hs e
        exact ⟨this.2.2.2.2 hu.2.1 hu.1, this.2.1.trans hu.2.1, this.2.2.1.trans hu.2.2⟩
      · intro hb
        by_cases hbs : s.bound = true
        · exact (plain_step (hi.value hbs) ho hs e).1
        · -- a call other than `OfferService` does not bind
          have hsame : t.bound = s.bound := by
            cases o with
            | offer env => exact absurd rfl (ho env)
            | stopOffer u d => exact absurd rfl (hs u d)
            | send i v slot =>
              simp only [St.step] at e
              split at e
              · simp only [Except.ok.injEq, Prod.mk.injEq] at e; rw [← e.1]
              · split at e
                · cases e
                · simp only [Except.ok.injEq, Prod.mk.injEq] at e; rw [← e.1]
            | update i v slot =>
              simp only [St.step] at e
              split at e
              · simp only [Except.ok.injEq, Prod.mk.injEq] at e; rw [← e.1]
              · split at e
                · cases e
                · simp only [Except.ok.injEq, Prod.mk.injEq] at e; rw [← e.1]; rfl
            | setHandler i g =>
              simp only [St.step] at e
              split at e
              · simp only [Except.ok.injEq, Prod.mk.injEq] at e; rw [← e.1]
              · split at e <;> simp only [Except.ok.injEq, Prod.mk.injEq] at e <;> rw [← e.1]
                rfl
            | method i =>
              simp only [St.step, Except.ok.injEq, Prod.mk.injEq] at e; rw [← e.1]
            | call c =>
              rcases call_spec e with ⟨rfl, _⟩ | ⟨i, v, slot, f, g, _, _, _, _, _, _, rfl⟩ <;> rfl
          rw [hsame] at hb
          exact absurd hb hbs

theorem untouched_start (n k : Nat) (tags : List Tags) (old : Option (Nat → Option V)) :
    Untouched (start n tags k old) :=
  ⟨fun _ _ hf => (start_fields hf).1, rfl, rfl⟩

theorem invOnce_run {n k : Nat} {tags : List Tags} {old : Option (Nat → Option V)}
    {os : List (Op V)} {s : St V} {h : History V}
    (hr : run (start n tags k old) os = .ok (s, h)) (ha : Always Once h) : InvOnce s h :=
  run_induct_always ⟨fun _ => untouched_start n k tags old, fun x => by cases x⟩
    (fun _ _ _ _ _ hi hp e => invOnce_step hi hp e) hr ha

/-- Invariant of the runs in which some consumer always uses the memory. -/
structure InvUsed (s : St V) (h : History V) : Prop where
  before : offerCalled h = false → Untouched s
  value : FieldsAll HasValue s.fields

theorem invUsed_step {s t : St V} {h : History V} {o : Op V} {r : Ret V} (hi : InvUsed s h)
    (hp : Used h o) (e : s.step o = .ok (t, r)) : InvUsed t (h ++ [(o, r)]) := by
  by_cases hof : ∃ env, o = .offer env
  · obtain ⟨env, rfl⟩ := hof
    refine ⟨fun x => by rw [offerCalled_snoc] at x; simp [isOffer] at x, ?_⟩
    have hbp : ∀ ok u, s.bindPrepare env.bind env.unused = (ok, u) →
        FieldsAll HasValue u.fields := by
      intro ok u hb
      cases hc : offerCalled h with
      | false => exact fresh_hasValue (bindPrepare_fresh (hi.before hc) hb)
      | true =>
        have hun := hp.1 hc
        rcases (bindPrepare_spec hb).1 with hf | ⟨hx, _⟩
        · rw [hf]; exact hi.value
        · rw [hun] at hx; cases hx
    rcases offer_spec e with ⟨hb, _⟩ | ⟨u, hb, he⟩
    · exact hbp _ _ hb
    · refine offerEnd_pres hasValue_closed ?_ (hbp _ _ hb) he
      intro hx
      rw [hp.2] at hx; cases hx
  · by_cases hst : ∃ u d, o = .stopOffer u d
    · obtain ⟨u, d, rfl⟩ := hst
      refine ⟨?_, ?_⟩
      · intro x
        rw [offerCalled_snoc] at x
        simp only [isOffer, Bool.or_false] at x
        have := stopOffer_off (hi.before x).2.2 e
        subst this
        exact hi.before x
      · cases hc : offerCalled h with
        | false =>
          have := stopOffer_off (hi.before hc).2.2 e
          subst this
          exact hi.value
        | true =>
          refine stopOffer_pres hasValue_closed ?_ hi.value e
          intro hx
          rw [hp hc] at hx; cases hx
    · have ho : ∀ env, o ≠ .offer env := fun env x => hof ⟨env, x⟩
      have hs : ∀ u d, o ≠ .stopOffer u d := fun u d x => hst ⟨u, d, x⟩
      have hne : isOffer o = false := by
        cases o with
        | offer env => exact absurd rfl (ho env)
        | _ => rfl
      have hpl := plain_step hi.value ho hs e
      refine ⟨?_, hpl.1⟩
      intro x
      rw [offerCalled_snoc, hne, Bool.or_false] at x
      have hu := hi.before x
      exact ⟨hpl.2.2.2.2 hu.2.1 hu.1, hpl.2.1.trans hu.2.1, hpl.2.2.1.trans hu.2.2⟩

theorem invUsed_run {n k : Nat} {tags : List Tags} {old : Option (Nat → Option V)}
    {os : List (Op V)} {s : St V} {h : History V}
    (hr : run (start n tags k old) os = .ok (s, h)) (ha : Always Used h) : InvUsed s h :=
  run_induct_always
    ⟨fun _ => untouched_start n k tags old, fresh_hasValue (untouched_start n k tags old).1⟩
    (fun _ _ _ _ _ hi hp e => invUsed_step hi hp e) hr ha

end Verif.SkelOffer
