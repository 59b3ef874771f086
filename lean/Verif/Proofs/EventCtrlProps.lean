import Verif.Proofs.EventCtrlHeld
/-! Helpers for the theorems of Props/EventCtrl.lean. -/

namespace Verif.Props.Ctrl
open Verif Verif.Slot Verif.Ctrl
variable {V : Type}

theorem Reachable.inv {n m : Nat} {v0 : V} {s : St V} (h : Reachable n m v0 s) (hm : m < 2 ^ 32 - 1) :
    Inv s ∧ s.n = n ∧ s.m = m := by
  obtain ⟨ops, rfl⟩ := h
  have := run_nm (init n m v0) ops
  exact ⟨run_inv (init_inv v0 hm) ops, this.1, this.2⟩

theorem stable_aux {s : St V} (h : Inv s) {c i : Nat} (hc : c < s.m) (ops : List (Op V))
    (hh : HeldDuring s ops c i) :
    (run s ops).data i = s.data i ∧ tsN ((run s ops).slots i) = tsN (s.slots i) := by
  induction ops generalizing s with
  | nil => exact ⟨rfl, rfl⟩
  | cons op ops ih =>
    have h0 : (s.cons c).held i = true := hh 0 (Nat.zero_le _)
    have h1 := step_stable h op (refs_pos hc (held_cnt (h.cons c hc) h0))
    have h2 := ih (s := step s op) (step_inv h op) (by rw [(step_nm s op).2]; exact hc) (by
      intro k hk
      have := hh (k + 1) (by simp; omega)
      simpa [run] using this)
    have : run s (op :: ops) = run (step s op) ops := rfl
    rw [this]
    exact ⟨h2.1.trans h1.1, h2.2.trans h1.2⟩

theorem Ambiguous.amb {n : Nat} {slots : Nat → Word} {c : Cons V} {i : Nat} (hci : CInv n slots c)
    (h : Ambiguous c i) : Amb c i := by
  have hl : c.pc.live = false := by rcases h.1 with h | h | h <;> rw [h] <;> rfl
  refine ⟨hl, h.2, fun j => ((hci.dead hl).1 j).1, ?_⟩
  rcases h.1 with h | h | h <;> simp [h]

end Verif.Props.Ctrl
