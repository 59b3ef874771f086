import Verif.Spec.RustSub

namespace Verif.RustSub

structure Inv (s : St) : Prop where
  ov : s.over = true ↔ Ev.ended ∈ s.log
  sb : s.over = false → ∀ m, s.sub = some m ↔ s.obj = .subscription m
  px : s.over = false → (s.proxy = true ↔ s.obj ≠ .none)
  hd : s.over = false → s.handler = true → ∃ m, s.obj = .subscription m
  bz : s.over = false → s.busy = true → ∃ m, s.obj = .subscription m
  ft : s.future = true → s.busy = true
  sm : s.over = false → 0 < s.samples → ∃ m, s.obj = .subscription m ∧ s.samples ≤ m
  mx : s.over = false → ∀ m, s.obj = .subscription m → 0 < m ∧ m ≤ 255

theorem inv_init : Inv init := by constructor <;> simp [init]

theorem inv_step {s : St} (i : Inv s) (op : Op) : Inv (step s op) := by
  obtain ⟨ov, sb, px, hd, bz, ft, sm, mx⟩ := i
  obtain ⟨obj, proxy, sub, handler, busy, future, samples, over, log⟩ := s
  unfold step
  simp only at *
  cases over
  case true => simp only [if_true]; constructor <;> simp_all
  case false =>
  simp only [Bool.false_eq_true, if_false, forall_const, false_iff] at *
  cases op with
  | create ok => cases ok <;> cases obj <;> (simp only [create]; constructor <;> simp_all) <;> grind
  | subscribe m e b o =>
    cases obj with
    | none => simp only [subscribe]; constructor <;> simp_all
    | subscription k => simp only [subscribe]; constructor <;> simp_all
    | subscriber =>
      have h0 : samples = 0 := by
        cases samples with
        | zero => rfl
        | succ n => obtain ⟨m, a, _⟩ := sm (by omega); cases a
      have h1 : sub = none := by
        cases sub with
        | none => rfl
        | some k => have := (sb k).1 rfl; cases this
      have h2 : handler = false := by
        cases handler with
        | false => rfl
        | true => obtain ⟨m, a⟩ := hd rfl; cases a
      have h3 : busy = false := by
        cases busy with
        | false => rfl
        | true => obtain ⟨m, a⟩ := bz rfl; cases a
      have h4 : future = false := by
        cases future with
        | false => rfl
        | true => have := ft rfl; rw [h3] at this; cases this
      subst h0 h1 h2 h3 h4
      simp only [subscribe]
      split
      · simp only [refuse, destroyProxy, cppUnsubscribe]; constructor <;> simp_all
      · split
        · simp only [refuse, destroyProxy, cppUnsubscribe]; constructor <;> simp_all
        · split
          · simp only [refuse, destroyProxy, cppUnsubscribe]; constructor <;> simp_all
          · split
            · simp only [finish]; constructor <;> simp_all
            · split
              · simp only [refuse, destroyProxy, cppUnsubscribe]; constructor <;> simp_all
              · split
                · simp only [refuse, destroyProxy, cppUnsubscribe]; constructor <;> simp_all
                · constructor <;> simp_all
                  omega
  | unsubscribe =>
    cases obj with
    | none => simp only [unsubscribe]; constructor <;> simp_all
    | subscriber => simp only [unsubscribe]; constructor <;> simp_all
    | subscription k =>
      have h1 : sub = some k := (sb k).2 rfl
      subst h1
      simp only [unsubscribe, dropSubscription, cppUnsubscribe, finish]
      cases future <;> cases busy <;> by_cases h0 : samples = 0 <;>
        (simp [h0]; constructor <;> simp_all)
  | drop =>
    cases obj with
    | none => simp only [drop]; constructor <;> simp_all
    | subscriber =>
      have h0 : samples = 0 := by
        cases samples with
        | zero => rfl
        | succ n => obtain ⟨m, a, _⟩ := sm (by omega); cases a
      have h1 : sub = none := by
        cases sub with
        | none => rfl
        | some k => have := (sb k).1 rfl; cases this
      subst h0 h1
      simp only [drop, destroyProxy, cppUnsubscribe]
      constructor <;> simp_all
    | subscription k =>
      have h1 : sub = some k := (sb k).2 rfl
      subst h1
      simp only [drop, dropSubscription, cppUnsubscribe, destroyProxy, finish]
      cases future <;> cases busy <;> by_cases h0 : samples = 0 <;>
        (simp [h0]; constructor <;> simp_all)
  | receive n =>
    cases obj with
    | none => simp only [receive]; constructor <;> simp_all
    | subscriber => simp only [receive]; constructor <;> simp_all
    | subscription k =>
      simp only [receive, finish]
      cases busy <;> (simp; constructor <;> simp_all) <;> omega
  | release =>
    simp only [release]
    constructor <;> simp_all
    intro h
    obtain ⟨m, a, b⟩ := sm (by omega)
    exact ⟨m, a, by omega⟩
  | startReceive =>
    cases obj with
    | none => simp only [startReceive]; constructor <;> simp_all
    | subscriber => simp only [startReceive]; constructor <;> simp_all
    | subscription k =>
      simp only [startReceive, finish]
      cases busy <;> (simp; constructor <;> simp_all)
  | endReceive f =>
    simp only [endReceive]
    cases future <;> cases f <;> (simp; constructor <;> simp_all)

theorem inv_run : ∀ (ops : List Op) {s : St}, Inv s → Inv (run s ops)
  | [], _, i => i
  | op :: ops, _, i => inv_run ops (inv_step i op)

/-- Careful users: the guard is taken only by a future that exists. -/
structure Calm (s : St) : Prop where
  ov : s.over = false
  bf : s.busy = true → s.future = true

theorem calm_step {s : St} (i : Inv s) (c : Calm s) {op : Op} (h : Careful s op) : Calm (step s op) := by
  obtain ⟨ov, sb, px, hd, bz, ft, sm, mx⟩ := i
  obtain ⟨hov, bf⟩ := c
  obtain ⟨c1, c2, c3, c4⟩ := h
  obtain ⟨obj, proxy, sub, handler, busy, future, samples, over, log⟩ := s
  simp only at *
  subst hov
  unfold step
  simp only [Bool.false_eq_true, if_false, forall_const] at *
  cases op with
  | create ok => cases ok <;> cases obj <;> (simp only [create]; constructor <;> simp_all)
  | subscribe m e b o =>
    cases obj with
    | none => simp only [subscribe]; constructor <;> simp_all
    | subscription k => simp only [subscribe]; constructor <;> simp_all
    | subscriber =>
      have h0 : samples = 0 := by
        cases samples with
        | zero => rfl
        | succ n => obtain ⟨m, a, _⟩ := sm (by omega); cases a
      subst h0
      have h1 : sub = none := by
        cases sub with
        | none => rfl
        | some k => have := (sb k).1 rfl; cases this
      subst h1
      have hm := c4 m e b o rfl
      simp only [subscribe]
      split
      · simp only [refuse, destroyProxy, cppUnsubscribe]; constructor <;> simp_all
      · split
        · simp only [refuse, destroyProxy, cppUnsubscribe]; constructor <;> simp_all
        · split
          · simp only [refuse, destroyProxy, cppUnsubscribe]; constructor <;> simp_all
          · split
            · omega
            · split
              · simp only [refuse, destroyProxy, cppUnsubscribe]; constructor <;> simp_all
              · split
                · simp only [refuse, destroyProxy, cppUnsubscribe]; constructor <;> simp_all
                · constructor <;> simp_all
  | unsubscribe =>
    have h0 : samples = 0 := c1 (.inr rfl)
    subst h0
    cases obj with
    | none => simp only [unsubscribe]; constructor <;> simp_all
    | subscriber => simp only [unsubscribe]; constructor <;> simp_all
    | subscription k =>
      simp only [unsubscribe, dropSubscription, cppUnsubscribe, finish]
      cases future <;> cases busy <;> cases sub <;> (simp; constructor <;> simp_all)
  | drop =>
    have h0 : samples = 0 := c1 (.inl rfl)
    subst h0
    cases obj with
    | none => simp only [drop]; constructor <;> simp_all
    | subscriber =>
      simp only [drop, destroyProxy, cppUnsubscribe]
      cases sub <;> (constructor <;> simp_all)
    | subscription k =>
      simp only [drop, dropSubscription, cppUnsubscribe, destroyProxy, finish]
      cases future <;> cases busy <;> cases sub <;> (simp; constructor <;> simp_all)
  | receive n =>
    have hf := c3 (.inr ⟨n, rfl⟩)
    cases obj <;> cases busy <;> (simp only [receive]; constructor <;> simp_all)
  | release => simp only [release]; constructor <;> simp_all
  | startReceive =>
    have hf := c3 (.inl rfl)
    cases obj <;> cases busy <;> (simp only [startReceive]; constructor <;> simp_all)
  | endReceive f =>
    cases f with
    | true => exact absurd rfl c2
    | false => simp only [endReceive]; cases future <;> (simp; constructor <;> simp_all)

theorem alive_iff {s : St} (i : Inv s) : Alive s ↔ s.over = false := by
  unfold Alive
  rw [← i.ov]
  simp

end Verif.RustSub
