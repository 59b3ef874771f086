import Verif.Proofs.EventCtrlProps
import Verif.Proofs.EventCtrlSeq
/-! Helpers for the theorems of Props/EventCtrlSeq.lean. -/

namespace Verif.Props.Seq
open Verif Verif.Slot Verif.Ctrl Verif.Props.Ctrl
variable {V : Type}

theorem unseen_iff {n m : Nat} {v0 : V} {ops : List (Op V)} (hm : m < 2 ^ 32 - 1) {c : Nat} (hc : c < m)
    (hidle : AtRest (run (init n m v0) ops) c) (hlen : (run (init n m v0) ops).sent.length < 2 ^ 32 - 1) (i : Nat) :
    NewFor (run (init n m v0) ops) c i ↔
      i < (run (init n m v0) ops).n ∧
      unseen (run (init n m v0) ops).slots ((run (init n m v0) ops).cons c).last i = true := by
  obtain ⟨h, hn, hmm⟩ := Reachable.inv (n := n) (v0 := v0) ⟨ops, rfl⟩ hm
  have hv := visInv_run (init_inv (n := n) v0 hm) (visInv_init n m v0) ops
  have hl := lastInv_run (init_inv (n := n) v0 hm) (lastInv_init n m v0) ops c (by rw [hmm]; exact hc)
  generalize hs : run (init n m v0) ops = s at *
  unfold LastOk at hl
  rw [hidle.1] at hl
  have hle := (h.cons c (by omega)).delivLe
  constructor
  · rintro ⟨h1, h2, h3, h4, h5⟩
    refine ⟨h1, ?_⟩
    rw [unseen, between_iff]
    have hts := hv.vis (by omega) i h1 ((readable_iff _).mpr ⟨h2, h3⟩)
    have hcur := hv.cur (by omega)
    refine ⟨⟨h2, h3⟩, ?_, by unfold tsMax; omega⟩
    rcases hl with hl | ⟨d, hd, hl⟩
    · omega
    · have := h5 d hd; omega
  · rintro ⟨h1, h2⟩
    have := (between_iff _ _ _).mp h2
    refine ⟨h1, this.1.1, this.1.2, by omega, ?_⟩
    intro d hd
    have := hle d hd
    omega

theorem get_result {n m : Nat} {v0 : V} {ops : List (Op V)} (hm : m < 2 ^ 32 - 1) {c : Nat} (hc : c < m)
    (hidle : AtRest (run (init n m v0) ops) c) (hlen : (run (init n m v0) ops).sent.length < 2 ^ 32 - 1) (k : Nat) :
    ∃ (N : Nat) (coll : List Nat), ∀ j, N ≤ j → ∀ s s', s = run (init n m v0) ops → s' = getNewSamples s c k j →
      (s'.cons c).pc = .idle ∧
      (s'.cons c).delivered = coll.map (fun i => (tsN (s.slots i), s.data i)) ++ (s.cons c).delivered ∧
      (∀ i, (s'.cons c).held i = true ↔ ((s.cons c).held i = true ∨ i ∈ coll)) ∧
      coll.Pairwise (fun i j => tsN (s.slots j) < tsN (s.slots i)) ∧
      (∀ i ∈ coll, NewFor s c i) ∧
      coll.length = min k (count (unseen s.slots (s.cons c).last) s.n) ∧
      (∀ i ∈ coll, ∀ j, NewFor s c j → j ∉ coll → tsN (s.slots j) < tsN (s.slots i)) := by
  obtain ⟨h, hn, hmm⟩ := Reachable.inv (n := n) (v0 := v0) ⟨ops, rfl⟩ hm
  have hd := distInv_run (init_inv (n := n) v0 hm) (visInv_init n m v0) (distInv_init n m v0) ops
  have hnew := unseen_iff (n := n) (v0 := v0) (ops := ops) hm hc hidle hlen
  generalize hs : run (init n m v0) ops = s at *
  have hc' : c < s.m := by omega
  have hci := h.cons c hc'
  have hslot := hci.slot (by rw [hidle.1]; rfl)
  have hb := rc_bounds h
  obtain ⟨coll, c', slots', h1, h2, h3, h4, h5, h6, h7, h8, h9, h10, h11, h12⟩ :=
    get_run (n := s.n) (data := s.data) (slots := s.slots) (c := s.cons c)
    (by
      intro i j hi hj hui huj he
      have h1 := (between_iff _ _ _).mp hui
      have h2 := (between_iff _ _ _).mp huj
      exact hd (by omega) i j hi hj ((readable_iff _).mpr h1.1) ((readable_iff _).mpr h2.1) he)
    (by
      intro i hi hu
      have h1 := (between_iff _ _ _).mp hu
      have hr := hidle.2 i
      rcases hslot i with h | h | h | h | h | h
      · rw [hr] at h; cases h.1
      · rw [hr] at h; cases h.1
      · obtain ⟨_, k, hk, _⟩ := h; rw [hidle.1] at hk; cases hk
      · exact ⟨h.2.2.1, h.2.2.2.1⟩
      · have := hci.heldTs i h.2.2.2.2.2.1; omega
      · have := h.2.2.2.2.2.2; rw [hidle.1] at this; simp [pend] at this)
    (by
      intro i hi hu
      exact hb.1 i ((between_iff _ _ _).mp hu).1.1)
    hidle.1 k
  obtain ⟨N, hN⟩ := h1
  refine ⟨N, coll, ?_⟩
  intro j hj s0 s' e0 e'
  subst e0
  have hget : step s0 (.consGet c k) =
      (let x : Cons V := { s0.cons c with pc := collectNext (s0.cons c).last ⟨k, tsMax, []⟩ }
       { s0 with cons := upd s0.cons c x }) := by
    simp only [step, hc', hidle.1, and_self, if_true]
  have hidleSteps : ∀ j, getSteps s0.n s0.data j (c', slots') = (c', slots') := by
    intro j
    induction j with
    | zero => rfl
    | succ j ih =>
      have : getterStep s0.n slots' s0.data c' false = (c', slots') := by simp only [getterStep, h2]
      rw [getSteps, this, ih]
  have hrun : s' = { s0 with cons := upd s0.cons c c', slots := slots' } := by
    subst e'
    show run (step s0 (.consGet c k)) _ = _
    rw [run_getSteps (step s0 (.consGet c k)) (c := c) (by rw [(step_nm _ _).2]; exact hc') j, hget]
    simp only [upd_self, upd_upd]
    obtain ⟨d, rfl⟩ : ∃ d, j = N + d := ⟨j - N, by omega⟩
    rw [getSteps_add, hN, hidleSteps]
  have hcons : s'.cons c = c' := by rw [hrun]; exact upd_self ..
  refine ⟨by rw [hcons]; exact h2, by rw [hcons]; exact h3, ?_, h9, ?_, h11, ?_⟩
  · intro i; rw [hcons, h4]; simp [marks]
  · intro i hi; rw [hnew]; exact h10 i hi
  · intro i hi j hj hnj; rw [hnew] at hj; exact h12 i hi j hj.1 hj.2 hnj

theorem alloc_result (s : St V) (hidle : s.ppc = .idle) (ht : ∀ i, i < s.n → tsN (s.slots i) < tsMax) :
    ∃ N, (∃ i, (∀ j, N ≤ j → allocate s j =
        { s with slots := upd s.slots i inWriting, alloc := upd s.alloc i true }) ∧ Chosen s.n s.slots i) ∨
      ((∀ j, N ≤ j → allocate s j = s) ∧ ∀ i, i < s.n → ¬ Free (s.slots i)) := by
  have e : step s .provAlloc = { s with ppc := .find 0 0 tsMax none } := by simp [step, hidle]
  have hs : s = { s with ppc := .idle } := by cases s; simp_all
  have key : ∀ N j x, N ≤ j → provSteps { s with ppc := .find 0 0 tsMax none } N = x → x.ppc = .idle →
      allocate s j = x := by
    intro N j x hj h1 h2
    obtain ⟨d, rfl⟩ : ∃ d, j = N + d := ⟨j - N, by omega⟩
    show run (step s .provAlloc) _ = _
    rw [e, run_provSteps, provSteps_add, h1, provSteps_idle h2]
  rcases alloc_run ht maxAllocateRetries 0 (by omega) (by omega) with ⟨N, i, h1, h2⟩ | ⟨N, h1, h2⟩
  · refine ⟨N, Or.inl ⟨i, ?_, h2⟩⟩
    intro j hj
    rw [key N j _ hj h1 rfl]
    simp [hidle]
  · refine ⟨N, Or.inr ⟨?_, h2⟩⟩
    intro j hj
    rw [key N j _ hj h1 rfl]
    exact hs.symm

theorem used_le (s : St V) (m : Nat) : count (fun i => decide (∃ c, c < m ∧ (s.cons c).held i = true)) s.n ≤ heldTotal s m := by
  induction m with
  | zero =>
    rw [count_eq_zero.mpr (by intro j _; simp)]
    omega
  | succ m ih =>
    have : ∀ n, count (fun i => decide (∃ c, c < m + 1 ∧ (s.cons c).held i = true)) n ≤
        count (fun i => decide (∃ c, c < m ∧ (s.cons c).held i = true)) n + count (fun i => (s.cons m).held i) n := by
      intro n
      induction n with
      | zero => simp [count]
      | succ n ihn =>
        simp only [count]
        by_cases h1 : (s.cons m).held n = true
        · simp only [h1, if_true]; split <;> split <;> omega
        · by_cases h2 : ∃ c, c < m ∧ (s.cons c).held n = true
          · simp only [h2, decide_true, if_true]; split <;> omega
          · have : ¬ ∃ c, c < m + 1 ∧ (s.cons c).held n = true := by
              rintro ⟨c, hc, hh⟩
              by_cases hcm : c = m
              · subst hcm; exact h1 hh
              · exact h2 ⟨c, by omega, hh⟩
            simp only [this, h2, decide_false]
            omega
    have := this s.n
    simp only [heldTotal]
    omega

end Verif.Props.Seq
