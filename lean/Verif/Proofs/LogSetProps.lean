import Mathlib.Data.List.Perm.Subperm
import Mathlib.Data.List.Nodup
import Verif.Proofs.LogSet
import Verif.Spec.LogSet
/-! Helpers for the theorems of Props/LogSet.lean. -/

namespace Verif.Props.LogSetSpec
open Verif Verif.LogSet

theorem holds_iff (s : St) (a i : Nat) : Holds s a i ↔ (s.act a).owns = some i := by
  unfold Holds
  cases s.act a <;> simp [Pc.owns]

theorem Reachable.inv {n : Nat} {s : St} (h : Reachable n s) : Inv s ∧ s.n = n := by
  obtain ⟨ops, rfl⟩ := h
  exact ⟨run_inv (init_inv n) ops, run_n _ _⟩

theorem nodup_le_length (l : List Nat) (n : Nat) (hn : l.Nodup) (hl : ∀ x ∈ l, x < n) : l.length ≤ n := by
  have : l.length ≤ (List.range n).length :=
    List.Subperm.length_le (List.subperm_of_subset hn (fun x hx => List.mem_range.mpr (hl x hx)))
  simpa using this

end Verif.Props.LogSetSpec
