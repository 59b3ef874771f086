import Verif.Model.LogSet
/-! Ownership of transaction logs. -/
namespace Verif.LogSet
open Verif

structure Inv (s : St) : Prop where
  own : ∀ a i, (s.act a).owns = some i → s.ids i ≠ 0 ∧ i < s.n
  excl : ∀ a a' i, (s.act a).owns = some i → (s.act a').owns = some i → a = a'
  clean : ∀ i, s.ids i = 0 → s.dirty i = false
  acq : ∀ a r i id, s.act a = .acquire r i id → id ≠ 0
  fresh : ∀ a i, s.act a = .mark i → s.dirty i = false
  rel : ∀ a i, s.act a = .release i → s.dirty i = false
  noReuse : ∀ a i, s.act a ≠ .abortReuse i

theorem init_inv (n : Nat) : Inv (init n) := by
  constructor <;> intros <;> simp_all [init, Pc.owns]

/-- Only the state of actor `a` changes, and it owns what it owned before or nothing. -/
theorem Inv.act {s : St} (h : Inv s) {a : Nat} {p : Pc} (ho : p.owns = none ∨ p.owns = (s.act a).owns)
    (hq : ∀ r i id, p = .acquire r i id → id ≠ 0) (hm : ∀ i, p ≠ .mark i) (hr : ∀ i, p ≠ .release i)
    (hu : ∀ i, p ≠ .abortReuse i) :
    Inv { s with act := upd s.act a p } := by
  have key : ∀ b i, (upd s.act a p b).owns = some i → (s.act b).owns = some i := by
    intro b i
    unfold upd; split
    · rename_i e; subst e
      intro hi
      rcases ho with ho | ho
      · rw [ho] at hi; cases hi
      · rw [ho] at hi; exact hi
    · exact id
  refine ⟨fun b i hb => h.own b i (key b i hb), fun b b' i hb hb' => h.excl b b' i (key b i hb) (key b' i hb'),
    h.clean, ?_, ?_, ?_, ?_⟩
  · intro b r i id; show upd s.act a p b = _ → _
    unfold upd; split
    · exact hq r i id
    · exact h.acq b r i id
  · intro b i; show upd s.act a p b = _ → _
    unfold upd; split
    · exact fun e => absurd e (hm i)
    · exact h.fresh b i
  · intro b i; show upd s.act a p b = _ → _
    unfold upd; split
    · exact fun e => absurd e (hr i)
    · exact h.rel b i
  · intro b i; show upd s.act a p b ≠ _
    unfold upd; split
    · exact hu i
    · exact h.noReuse b i

/-- `Reset` up to the release of the id. -/
theorem Inv.reset {s : St} (h : Inv s) {a i : Nat} (ha : (s.act a).owns = some i) (rb : Nat → Bool) :
    Inv { s with dirty := upd s.dirty i false, rb := rb, act := upd s.act a (.release i) } := by
  have key : ∀ b j, (upd s.act a (.release i) b).owns = some j → (s.act b).owns = some j := by
    intro b j
    unfold upd; split
    · rename_i e; subst e; simp only [Pc.owns]; intro e; cases e; exact ha
    · exact id
  refine ⟨fun b j hb => h.own b j (key b j hb), fun b b' j hb hb' => h.excl b b' j (key b j hb) (key b' j hb'),
    ?_, ?_, ?_, ?_, ?_⟩
  · intro j hj; show upd s.dirty i false j = false
    unfold upd; split
    · rfl
    · exact h.clean j hj
  · intro b r j id; show upd s.act a _ b = _ → _
    unfold upd; split
    · simp
    · exact h.acq b r j id
  · intro b j; show upd s.act a _ b = _ → upd s.dirty i false j = false
    intro e; unfold upd at e ⊢; split at e
    · cases e
    · split
      · rfl
      · exact h.fresh b j e
  · intro b j; show upd s.act a _ b = _ → upd s.dirty i false j = false
    intro e; unfold upd at e ⊢; split at e
    · cases e; simp
    · split
      · rfl
      · exact h.rel b j e
  · intro b j; show upd s.act a _ b ≠ _
    unfold upd; split
    · simp
    · exact h.noReuse b j

theorem upd_false_self {f : Nat → Bool} {i : Nat} (h : f i = false) : upd f i false = f := by
  funext j; unfold upd; split <;> simp_all

theorem go_inv {s : St} (h : Inv s) (a : Nat) : Inv (go s a) := by
  unfold go
  split
  · rename_i retry i id hpc
    have hid := h.acq a _ _ _ hpc
    split
    · split
      · rename_i hi
        split
        · rename_i hfree
          have hno : ∀ b, (s.act b).owns ≠ some i := fun b hb => (h.own b i hb).1 hfree
          refine ⟨?_, ?_, ?_, ?_, ?_, ?_, ?_⟩
          · intro b j; show (upd s.act a _ b).owns = some j → upd s.ids i id j ≠ 0 ∧ j < s.n
            intro hb
            unfold upd at hb ⊢
            by_cases hji : j = i
            · simp [hji, hid, hi]
            · rw [if_neg hji]
              split at hb
              · simp only [Pc.owns, Option.some.injEq] at hb; omega
              · exact h.own b j hb
          · intro b b' j; show (upd s.act a _ b).owns = some j → (upd s.act a _ b').owns = some j → b = b'
            unfold upd
            split <;> split
            · intros; omega
            · intro e1 e2; simp only [Pc.owns, Option.some.injEq] at e1; subst e1; exact absurd e2 (hno b')
            · intro e1 e2; simp only [Pc.owns, Option.some.injEq] at e2; subst e2; exact absurd e1 (hno b)
            · exact h.excl b b' j
          · intro j; show upd s.ids i id j = 0 → s.dirty j = false
            unfold upd; split
            · intro e; exact absurd e hid
            · exact h.clean j
          · intro b r j id'; show upd s.act a _ b = _ → _
            unfold upd; split
            · simp
            · exact h.acq b r j id'
          · intro b j; show upd s.act a _ b = _ → _
            unfold upd; split
            · intro e; cases e; exact h.clean i hfree
            · exact h.fresh b j
          · intro b j; show upd s.act a _ b = _ → _
            unfold upd; split
            · simp
            · exact h.rel b j
          · intro b j; show upd s.act a _ b ≠ _
            unfold upd; split
            · simp
            · exact h.noReuse b j
        · exact h.act (.inl rfl) (by intro r j id' e; cases e; exact hid) (by simp) (by simp) (by simp)
      · exact h.act (.inl rfl) (by intro r j id' e; cases e; exact hid) (by simp) (by simp) (by simp)
    · exact h.act (.inl rfl) (by simp) (by simp) (by simp) (by simp)
  · rename_i i hpc
    have hd := h.fresh a i hpc
    rw [if_neg (by simp [hd])]
    have := h.act (a := a) (p := .registered i) (.inr (by rw [hpc]; rfl)) (by simp) (by simp) (by simp) (by simp)
    exact ⟨this.own, this.excl, this.clean, this.acq, this.fresh, this.rel, this.noReuse⟩
  · rename_i i hpc
    have hd := h.rel a i hpc
    have hown : (s.act a).owns = some i := by rw [hpc]; rfl
    have h1 := h.act (a := a) (p := .idle) (.inl rfl) (by simp) (by simp) (by simp) (by simp)
    refine ⟨?_, h1.excl, ?_, h1.acq, h1.fresh, h1.rel, h1.noReuse⟩
    · intro b j; show (upd s.act a _ b).owns = some j → upd s.ids i 0 j ≠ 0 ∧ j < s.n
      intro hb
      have hb' := h1.own b j hb
      refine ⟨?_, hb'.2⟩
      unfold upd; split
      · rename_i e; subst e
        exfalso
        unfold upd at hb; split at hb
        · cases hb
        · rename_i hne; exact hne (h.excl b a j hb hown)
      · exact hb'.1
    · intro j; show upd s.ids i 0 j = 0 → s.dirty j = false
      unfold upd; split
      · rename_i e; subst e; exact fun _ => hd
      · exact h.clean j
  · exact h

theorem step_inv {s : St} (h : Inv s) (op : Op) : Inv (step s op) := by
  cases op with
  | register a id =>
    simp only [step]; split
    · rename_i hc
      exact h.act (.inl rfl) (by intro r i id' e; cases e; exact hc.2) (by simp) (by simp) (by simp)
    · exact h
  | go a => exact go_inv h a
  | use a d =>
    simp only [step]; split
    · rename_i i hpc
      have hown : (s.act a).owns = some i := by rw [hpc]; rfl
      refine ⟨h.own, h.excl, ?_, h.acq, ?_, ?_, h.noReuse⟩
      · intro j hj; show upd s.dirty i d j = false
        unfold upd; split
        · rename_i e; subst e; exact absurd hj (h.own a j hown).1
        · exact h.clean j hj
      · intro b j hb; show upd s.dirty i d j = false
        unfold upd; split
        · rename_i e; subst e
          have := h.excl a b j hown (by rw [show s.act b = _ from hb]; rfl)
          subst this; rw [hpc] at hb; cases hb
        · exact h.fresh b j hb
      · intro b j hb; show upd s.dirty i d j = false
        unfold upd; split
        · rename_i e; subst e
          have := h.excl a b j hown (by rw [show s.act b = _ from hb]; rfl)
          subst this; rw [hpc] at hb; cases hb
        · exact h.rel b j hb
    · exact h
  | unregister a =>
    simp only [step]; split
    · rename_i i hpc
      have hown : (s.act a).owns = some i := by rw [hpc]; rfl
      unfold startReset; split
      · exact h.act (.inr (by rw [hpc]; rfl)) (by simp) (by simp) (by simp) (by simp)
      · rename_i hd
        have := h.reset hown (upd s.rb i false)
        rw [upd_false_self (f := s.dirty) (by simpa using hd)] at this
        exact this
    · exact h
  | crash a =>
    simp only [step]; split
    · rename_i i hi
      exact h.act (.inr (by rw [hi]; rfl)) (by simp) (by simp) (by simp) (by simp)
    · exact h.act (.inl rfl) (by simp) (by simp) (by simp) (by simp)
  | recover a =>
    simp only [step]; split
    · rename_i i hpc; exact h.reset (by rw [hpc]; rfl) _
    · rename_i i hpc; exact h.reset (by rw [hpc]; rfl) _
    · rename_i i hpc; exact h.reset (by rw [hpc]; rfl) _
    · exact h

theorem run_inv {s : St} (h : Inv s) (ops : List Op) : Inv (run s ops) := by
  induction ops generalizing s with
  | nil => exact h
  | cons op ops ih => exact ih (step_inv h op)

theorem run_n (s : St) (ops : List Op) : (run s ops).n = s.n := by
  induction ops generalizing s with
  | nil => rfl
  | cons op ops ih =>
    refine (ih (step s op)).trans ?_
    cases op <;> simp only [step, go, startReset] <;> repeat' split
    all_goals rfl

/-- Undisturbed scan within one pass, up to the first free node. -/
theorem scan_run {s : St} {a id r j : Nat} (hr : r < s.n) (hj : j < s.n) (hfree : s.ids j = 0)
    (hbusy : ∀ i, i < j → s.ids i ≠ 0) (hd : s.dirty j = false) :
    ∀ k, k ≤ j → s.act a = .acquire r k id → ∀ N, j - k + 2 ≤ N →
      run s (List.replicate N (.go a)) =
        { s with ids := upd s.ids j id, rb := upd s.rb j false, act := upd s.act a (.registered j) } := by
  intro k hk
  induction hm : j - k generalizing s k with
  | zero =>
    intro hpc N hN
    have hkj : k = j := by omega
    subst hkj
    obtain ⟨N, rfl⟩ : ∃ M, N = M + 2 := ⟨N - 2, by omega⟩
    have e1 : go s a = { s with ids := upd s.ids k id, act := upd s.act a (.mark k) } := by
      simp only [go, hpc, hr, hj, hfree, if_true]
    have e2 : go (go s a) a =
        { s with ids := upd s.ids k id, rb := upd s.rb k false, act := upd s.act a (.registered k) } := by
      rw [e1]; simp only [go, upd_self, hd, Bool.false_eq_true, if_false, upd_upd]
    simp only [run, List.replicate_succ, List.foldl_cons, step, e2]
    clear e1 e2 hN
    induction N with
    | zero => rfl
    | succ N ih =>
      simp only [List.replicate_succ, List.foldl_cons, step, go, upd_self]
      exact ih
  | succ m ih =>
    intro hpc N hN
    obtain ⟨N, rfl⟩ : ∃ M, N = M + 1 := ⟨N - 1, by omega⟩
    have e1 : go s a = { s with act := upd s.act a (.acquire r (k + 1) id) } := by
      simp only [go, hpc, hr, if_true, show k < s.n by omega, hbusy k (by omega), if_false]
    simp only [run, List.replicate_succ, List.foldl_cons, step, e1]
    have := ih (s := { s with act := upd s.act a (.acquire r (k + 1) id) }) hr hj hfree hbusy hd (k + 1) (by omega)
      (by omega) (by simp only [upd_self]) N (by omega)
    simp only [run, upd_upd] at this
    exact this

/-- Undisturbed scan when every node is taken. -/
theorem full_run {s : St} {a id : Nat} (hbusy : ∀ i, i < s.n → s.ids i ≠ 0) :
    ∀ r k, r ≤ s.n → k ≤ s.n → s.act a = .acquire r k id → ∃ N0, ∀ N, N0 ≤ N →
      run s (List.replicate N (.go a)) = { s with act := upd s.act a .full } := by
  intro r
  induction hm : s.n - r generalizing s r with
  | zero =>
    intro k hr hk hpc
    refine ⟨1, fun N hN => ?_⟩
    obtain ⟨N, rfl⟩ : ∃ M, N = M + 1 := ⟨N - 1, by omega⟩
    have e1 : go s a = { s with act := upd s.act a .full } := by
      simp only [go, hpc, show ¬ r < s.n by omega, if_false]
    simp only [run, List.replicate_succ, List.foldl_cons, step, e1]
    clear e1 hN
    induction N with
    | zero => rfl
    | succ N ih =>
      simp only [List.replicate_succ, List.foldl_cons, step, go, upd_self]
      exact ih
  | succ m ih =>
    intro k hr hk
    induction hd : s.n - k generalizing s k with
    | zero =>
      intro hpc
      have e1 : go s a = { s with act := upd s.act a (.acquire (r + 1) 0 id) } := by
        simp only [go, hpc, show r < s.n by omega, if_true, show ¬ k < s.n by omega, if_false]
      obtain ⟨N0, h0⟩ := ih (s := { s with act := upd s.act a (.acquire (r + 1) 0 id) }) hbusy (r + 1)
        (by simp only; omega) 0 (by simp only; omega) (Nat.zero_le _) (by simp only [upd_self])
      refine ⟨N0 + 1, fun N hN => ?_⟩
      obtain ⟨N, rfl⟩ : ∃ M, N = M + 1 := ⟨N - 1, by omega⟩
      have := h0 N (by omega)
      simp only [run, List.replicate_succ, List.foldl_cons, step, e1]
      simp only [run, upd_upd] at this
      exact this
    | succ d ihd =>
      intro hpc
      have e1 : go s a = { s with act := upd s.act a (.acquire r (k + 1) id) } := by
        simp only [go, hpc, show r < s.n by omega, if_true, show k < s.n by omega, hbusy k (by omega), if_false]
      obtain ⟨N0, h0⟩ := ihd (s := { s with act := upd s.act a (.acquire r (k + 1) id) }) hbusy hm (k + 1) hr
        (by simp only; omega) (by simp only; omega) (by simp only [upd_self])
      refine ⟨N0 + 1, fun N hN => ?_⟩
      obtain ⟨N, rfl⟩ : ∃ M, N = M + 1 := ⟨N - 1, by omega⟩
      have := h0 N (by omega)
      simp only [run, List.replicate_succ, List.foldl_cons, step, e1]
      simp only [run, upd_upd] at this
      exact this

/-! Every taken node has an owner. -/

def Held (s : St) : Prop := ∀ i, s.ids i ≠ 0 → ∃ a, (s.act a).owns = some i

theorem init_held (n : Nat) : Held (init n) := fun i h => absurd rfl h

theorem Held.act {s : St} (h : Held s) {a : Nat} {p : Pc} (hp : p.owns = (s.act a).owns) (rb d : Nat → Bool) :
    Held { s with rb := rb, dirty := d, act := upd s.act a p } := by
  intro i hi
  obtain ⟨b, hb⟩ := h i hi
  refine ⟨b, ?_⟩
  show (upd s.act a p b).owns = some i
  unfold upd; split
  · rename_i e; subst e; rw [hp]; exact hb
  · exact hb

theorem go_held {s : St} (hi : Inv s) (h : Held s) (a : Nat) : Held (go s a) := by
  unfold go; split
  · rename_i retry i id hpc
    split
    · split
      · split
        · intro j hj
          by_cases hji : j = i
          · subst hji; exact ⟨a, by show (upd s.act a _ a).owns = _; rw [upd_self]; rfl⟩
          · have hj' : s.ids j ≠ 0 := by
              have : upd s.ids i id j ≠ 0 := hj
              rwa [upd_ne _ _ hji] at this
            obtain ⟨b, hb⟩ := h j hj'
            refine ⟨b, ?_⟩
            show (upd s.act a _ b).owns = _
            rw [upd_ne _ _ (by intro e; subst e; rw [hpc] at hb; cases hb)]; exact hb
        · exact h.act (by rw [hpc]; rfl) _ _
      · exact h.act (by rw [hpc]; rfl) _ _
    · exact h.act (by rw [hpc]; rfl) _ _
  · rename_i i hpc
    split
    · exact h.act (by rw [hpc]; rfl) _ _
    · exact h.act (by rw [hpc]; rfl) _ _
  · rename_i i hpc
    intro j hj
    have hji : j ≠ i := by
      intro e; subst e
      exact hj (upd_self ..)
    have hj' : s.ids j ≠ 0 := by
      have : upd s.ids i 0 j ≠ 0 := hj
      rwa [upd_ne _ _ hji] at this
    obtain ⟨b, hb⟩ := h j hj'
    refine ⟨b, ?_⟩
    show (upd s.act a _ b).owns = _
    rw [upd_ne _ _ (by intro e; subst e; rw [hpc] at hb; cases hb; exact hji rfl)]; exact hb
  · exact h

theorem step_held {s : St} (hi : Inv s) (h : Held s) (op : Op) : Held (step s op) := by
  cases op with
  | register a id =>
    simp only [step]; split
    · rename_i hc
      exact h.act (by rcases hc.1 with e | e <;> rw [e] <;> rfl) _ _
    · exact h
  | go a => exact go_held hi h a
  | use a d => simp only [step]; split <;> exact h
  | unregister a =>
    simp only [step]; split
    · rename_i i hpc
      unfold startReset; split <;> exact h.act (by rw [hpc]; rfl) _ _
    · exact h
  | crash a =>
    simp only [step]; split
    · rename_i i hpc; exact h.act (by rw [hpc]; rfl) _ _
    · rename_i hpc; exact h.act (by rw [hpc]; rfl) _ _
  | recover a =>
    simp only [step]; split
    · rename_i i hpc; exact h.act (by rw [hpc]; rfl) _ _
    · rename_i i hpc; exact h.act (by rw [hpc]; rfl) _ _
    · rename_i i hpc; exact h.act (by rw [hpc]; rfl) _ _
    · exact h

theorem run_held' {s : St} (hi : Inv s) (h : Held s) (ops : List Op) : Held (run s ops) := by
  induction ops generalizing s with
  | nil => exact h
  | cons op ops ih => exact ih (step_inv hi op) (step_held hi h op)

theorem run_held {n : Nat} (h : Held (init n)) (ops : List Op) : Held (run (init n) ops) :=
  run_held' (init_inv n) h ops

end Verif.LogSet
