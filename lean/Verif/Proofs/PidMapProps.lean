import Mathlib.Data.List.Induction
import Verif.Proofs.PidMap
import Verif.Proofs.PidMapResult
import Verif.Spec.PidMap
/-! Helpers for the theorems of Props/PidMap.lean. -/

namespace Verif.Props.PidMapSpec
open Verif Verif.PidMap

theorem Reachable.inv {n : Nat} {s : St} (h : Reachable n s) : (∀ a, AppInv s a) ∧ s.n = n := by
  obtain ⟨ops, rfl⟩ := h
  exact ⟨run_inv (init_inv n) ops, run_n _ _⟩

theorem pidsOf_append (a : Nat) (l m : List Op) : pidsOf a (l ++ m) = pidsOf a l ++ pidsOf a m := by
  induction l with
  | nil => rfl
  | cons op l ih =>
    cases op <;> simp only [pidsOf, List.cons_append] <;> (try split) <;> simp [ih]

theorem last_mem (n a : Nat) (ops : List Op) :
    (∀ p, (run (init n) ops).last a = some p → p ∈ pidsOf a ops) ∧
    (∀ p, (run (init n) ops).prev a = some p → p ∈ pidsOf a ops) ∧
    ((run (init n) ops).pc a ≠ .idle → (run (init n) ops).cur a ∈ pidsOf a ops) := by
  induction ops using List.reverseRecOn with
  | nil => simp [run, init]
  | append_singleton ops op ih =>
    have e : run (init n) (ops ++ [op]) = step (run (init n) ops) op := by simp [run]
    rw [e, pidsOf_append]
    generalize run (init n) ops = s at ih
    obtain ⟨h1, h2, h3⟩ := ih
    have h1' : ∀ p, s.last a = some p → p ∈ pidsOf a ops ++ pidsOf a [op] := fun p hp => by simp [h1 p hp]
    have h2' : ∀ p, s.prev a = some p → p ∈ pidsOf a ops ++ pidsOf a [op] := fun p hp => by simp [h2 p hp]
    have h3' : s.pc a ≠ .idle → s.cur a ∈ pidsOf a ops ++ pidsOf a [op] := fun hp => by simp [h3 hp]
    cases op with
    | register b pid =>
      simp only [step]
      have key : (∀ p, s.last a = some p → p ∈ pidsOf a ops ++ pidsOf a [.register b pid]) ∧
          (∀ p, upd s.prev b (s.last b) a = some p → p ∈ pidsOf a ops ++ pidsOf a [.register b pid]) ∧
          (upd s.pc b (.find 0) a ≠ .idle → upd s.cur b pid a ∈ pidsOf a ops ++ pidsOf a [.register b pid]) := by
        refine ⟨h1', ?_, ?_⟩
        · intro p; unfold upd; split
          · rename_i e; subst e; exact h1' p
          · exact h2' p
        · unfold upd; split
          · rename_i e; subst e; simp [pidsOf]
          · exact h3'
      split
      · exact key
      · exact key
      · exact ⟨h1', h2', h3'⟩
    | crash b =>
      refine ⟨h1', h2', ?_⟩
      simp only [step, upd]; split
      · intro h; exact absurd rfl h
      · exact h3'
    | go b sp =>
      simp only [step]
      have hpcs : ∀ q : Pc, (b = a → s.pc a ≠ .idle) → upd s.pc b q a ≠ .idle →
          s.cur a ∈ pidsOf a ops ++ pidsOf a [.go b sp] := by
        intro q hb hq
        by_cases hba : b = a
        · exact h3' (hb hba)
        · rw [upd_ne _ _ (fun e => hba e.symm)] at hq; exact h3' hq
      have hlast : (b = a → s.pc a ≠ .idle) → ∀ p, upd s.last b (some (s.cur b)) a = some p →
          p ∈ pidsOf a ops ++ pidsOf a [.go b sp] := by
        intro hb p
        unfold upd; split
        · rename_i e; subst e
          intro e; cases e; exact h3' (hb rfl)
        · exact h1' p
      unfold go
      split
      all_goals repeat' split
      all_goals first
        | exact ⟨h1', h2', h3'⟩
        | (refine ⟨h1', h2', hpcs _ ?_⟩; intro e; subst e; simp [*])
        | (refine ⟨hlast ?_, h2', hpcs _ ?_⟩ <;> (intro e; subst e; simp [*]))

end Verif.Props.PidMapSpec
