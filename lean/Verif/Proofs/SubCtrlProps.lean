import Verif.Proofs.SubCtrl
import Verif.Spec.SubCtrl
/-! Helpers for the theorems of Props/SubCtrl.lean. -/

namespace Verif.Props.SubSpec
open Verif Verif.Sub
variable {maxSlots : BitVec 16} {maxSubs : BitVec 8} {enforce : Bool} {m : Nat} {s : St}

theorem Reachable.inv (h : Reachable maxSlots maxSubs enforce m s) :
    Inv s ∧ s.m = m ∧ s.maxSubs = maxSubs ∧ s.maxSlots = maxSlots ∧ s.enforce = enforce := by
  obtain ⟨ops, rfl⟩ := h
  exact ⟨run_inv (init_inv _ _ _ _) ops, run_const _ _⟩

theorem isSub_counted (h : Inv s) {p : Nat} (hp : p < s.m) (hi : isSub s p = true) :
    (s.px p).counted = true ∧ (s.px p).want = some (s.px p).logged := by
  simp only [isSub, Bool.and_eq_true, decide_eq_true_eq] at hi
  have hx := h.px p hp
  unfold PInv at hx
  rw [hi.1] at hx
  cases hw : (s.px p).want with
  | none => simp [hw] at hi
  | some n => simp only [hw] at hx; exact ⟨hx.2.2.1, by rw [hx.2.2.2.1]⟩

theorem idle_counted (h : Inv s) {p : Nat} (hp : p < s.m) (hi : busy s p = false) :
    (s.px p).counted = isSub s p := by
  simp only [busy, Bool.not_eq_false', decide_eq_true_eq] at hi
  have hx := h.px p hp
  unfold PInv at hx
  rw [hi] at hx
  cases hw : (s.px p).want with
  | none => simp only [hw] at hx; simp [isSub, hw, hx.2.2]
  | some n => simp only [hw] at hx; simp [isSub, hi, hw, hx.2.2.1]

theorem numSubs_le (h : Inv s) : numSubs s ≤ subs s :=
  count_le_of_imp (fun _ hj hi => (isSub_counted h hj hi).1)

theorem numSamples_le (h : Inv s) : numSamples s ≤ samples s := by
  apply sumTo_le
  intro j hj
  unfold sampleCount
  split
  · rename_i hi
    obtain ⟨h1, h2⟩ := isSub_counted h hj hi
    simp [h1, h2]
  · exact Nat.zero_le _

end Verif.Props.SubSpec
