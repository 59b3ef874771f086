import Mathlib.Data.List.Induction
import Verif.Proofs.PidMapProps
import Verif.Proofs.PidMapResult
/-!
C20: concurrent pid registrations.

The theorems range over every schedule of registrations, crashes and restarts of any number of applications, on a
mapping of any size.
-/
namespace Verif.Props.PidMapSpec
open Verif Verif.PidMap

end Verif.Props.PidMapSpec

namespace Verif.Props.C20
open Verif Verif.PidMap Verif.Props.PidMapSpec

variable {n : Nat} {s : St}

/-- There are never two entries (in use or in update) for the same application. -/
theorem one_entry (hr : Reachable n s) {i j a : Nat} (hi : (s.key i).1 ≠ .unused) (hj : (s.key j).1 ≠ .unused)
    (hai : (s.key i).2 = a) (haj : (s.key j).2 = a) : i = j :=
  (hr.inv.1 a).uniq i j ⟨hi, hai⟩ ⟨hj, haj⟩

/-- A registration that returns a pid returns the pid it was called with, or a pid with which an earlier process of the
same application called: the one most recently stored before this call. -/
theorem result (ops : List Op) {a r : Nat} (hd : (run (init n) ops).pc a = .done (some r)) :
    (r = (run (init n) ops).cur a ∨ (run (init n) ops).prev a = some r) ∧ r ∈ pidsOf a ops := by
  have h := (run_inv (init_inv n) ops a).pcs
  unfold PcInv at h
  rw [hd] at h
  refine ⟨h.1, ?_⟩
  obtain ⟨-, h2, h3⟩ := last_mem n a ops
  rcases h.1 with e | e
  · rw [e]; exact h3 (by rw [hd]; simp)
  · exact h2 r e

/-- Exactly which of the two it returns: the pid in the application's entry if there was one in use when the call was made - that of
the previous incarnation - and otherwise the pid it was called with. `pre` leads to the call, `post` has no further call and no crash
of the application. -/
theorem which_result (pre post : List Op) {a pid r : Nat}
    (hfree : (run (init n) pre).pc a = .idle ∨ ∃ r, (run (init n) pre).pc a = .done r)
    (hpost : ∀ o ∈ post, (∀ p, o ≠ .register a p) ∧ o ≠ .crash a)
    (hd : (run (init n) (pre ++ .register a pid :: post)).pc a = .done (some r)) :
    (∀ i, (run (init n) pre).key i = (.used, a) → r = (run (init n) pre).pid i) ∧
      ((∀ i, (run (init n) pre).key i ≠ (.used, a)) → r = pid) := by
  have hinv := run_inv (init_inv n) pre
  have hstart : step (run (init n) pre) (.register a pid) = { run (init n) pre with
      cur := upd (run (init n) pre).cur a pid, prev := upd (run (init n) pre).prev a ((run (init n) pre).last a)
      pc := upd (run (init n) pre).pc a (.find 0) } := by
    rcases hfree with h | ⟨r, h⟩ <;> simp only [step, h]
  rw [show run (init n) (pre ++ .register a pid :: post) = run (step (run (init n) pre) (.register a pid)) post by
    simp [run]] at hd
  constructor
  · intro i hk
    have h := withOld_run (a := a) (p := (run (init n) pre).pid i) (step_inv hinv (.register a pid)) hpost
      ⟨i, by rw [hstart]; exact hk, by rw [hstart]; dsimp only; rw [upd_self]⟩
    obtain ⟨j, -, h⟩ := h
    rw [hd] at h
    exact h
  · intro hk
    have h := withoutOld_run (a := a) (p := pid) (step_inv hinv (.register a pid)) hpost
      (by rw [hstart]; unfold WithoutOld; dsimp only; rw [upd_self]; exact ⟨upd_self .., hk⟩)
    unfold WithoutOld at h
    rw [hd] at h
    exact h

/-- Application 5 registers (100), is restarted and registers again (101): it gets 100; and application 6, meanwhile, gets its own. -/
example : let pre : List Op := [.register 5 100] ++ List.replicate 8 (.go 5 false) ++ [.crash 5, .register 6 200]
    let post : List Op := List.replicate 3 (.go 5 false) ++ List.replicate 9 (.go 6 false)
    (run (init 3) pre).pc 5 = .idle ∧ (run (init 3) pre).key 0 = (.used, 5) ∧ (run (init 3) pre).pid 0 = 100 ∧
      (run (init 3) (pre ++ .register 5 101 :: post)).pc 5 = .done (some 100) ∧
      (run (init 3) (pre ++ .register 5 101 :: post)).pc 6 = .done (some 200) := by decide +kernel


/-- After a registration returned a pid, the mapping has exactly one entry for the application, in use, and it holds the
pid of the registering process, whatever the others do. -/
theorem own_entry (hr : Reachable n s) {a r : Nat} (hd : s.pc a = .done (some r)) :
    ∃ i, i < n ∧ s.key i = (.used, a) ∧ s.pid i = s.cur a ∧ ∀ j, (s.key j).1 ≠ .unused → (s.key j).2 = a → j = i := by
  have h := (hr.inv.1 a).pcs
  unfold PcInv at h
  rw [hd] at h
  obtain ⟨-, i, h1, h2, h3⟩ := h
  rw [hr.inv.2] at h1
  exact ⟨i, h1, h2, h3, fun j hj hja => (hr.inv.1 a).uniq j i ⟨hj, hja⟩ (owns_of_key h2 (by simp))⟩

/-- An entry in use holds the pid most recently stored by its own application. -/
theorem entry_pid (hr : Reachable n s) {a i : Nat} (hk : s.key i = (.used, a)) : s.last a = some (s.pid i) :=
  (hr.inv.1 a).lastUsed i hk

/-- The 64 bit key holds the status and the application id without loss, so comparing keys compares both. -/
theorem key_lossless (st : BitVec 16) (id : BitVec 32) :
    keyStatus (createKey st id) = st ∧ keyId (createKey st id) = id := by
  constructor
  · apply BitVec.eq_of_getLsbD_eq
    intro i hi
    have hm : (0x000000000000FFFF#64).getLsbD i = true := by
      have : ∀ i : Fin 16, (0x000000000000FFFF#64).getLsbD i.val = true := by decide
      exact this ⟨i, hi⟩
    have hid : id.getLsbD (32 + i) = false := BitVec.getLsbD_of_ge _ _ (by omega)
    simp only [keyStatus, createKey, BitVec.getLsbD_or, BitVec.getLsbD_and, BitVec.getLsbD_shiftLeft,
      BitVec.getLsbD_setWidth, BitVec.getLsbD_ushiftRight, hm, hid]
    simp [hi, show i < 64 by omega, show 32 + i < 64 by omega, show ¬ (32 + i < 32) by omega]
  · apply BitVec.eq_of_getLsbD_eq
    intro i hi
    have hm : (0x00000000FFFFFFFF#64).getLsbD i = true := by
      have : ∀ i : Fin 32, (0x00000000FFFFFFFF#64).getLsbD i.val = true := by decide
      exact this ⟨i, hi⟩
    simp only [keyId, createKey, BitVec.getLsbD_or, BitVec.getLsbD_and, BitVec.getLsbD_shiftLeft,
      BitVec.getLsbD_setWidth, hm]
    simp [hi, show i < 64 by omega]

/-- Two applications race for the first entry; application 5 crashes while its entry is in update, and is restarted; it is
then registered again by a third process. -/
def demo : List Op :=
  [.register 5 100, .register 6 200] ++ List.replicate 6 (.go 5 false) ++ List.replicate 12 (.go 6 false) ++
    [.crash 5, .register 5 101] ++ List.replicate 3 (.go 5 false)

example : (run (init 3) demo).pc 5 = .done (some 101) ∧ (run (init 3) demo).pc 6 = .done (some 200) ∧
    (run (init 3) demo).key 0 = (.used, 5) ∧ (run (init 3) demo).key 1 = (.used, 6) := by decide +kernel

example : (run (init 3) (demo ++ [.crash 5, .register 5 102] ++ List.replicate 3 (.go 5 false))).pc 5 = .done (some 101)
    := by decide +kernel

end Verif.Props.C20
