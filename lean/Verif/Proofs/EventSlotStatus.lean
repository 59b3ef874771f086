import Verif.Model.EventSlotStatus
/-! Lemmas about the slot status word: everything in terms of `toNat`. -/
namespace Verif.Slot

theorem rc_toNat (w : Word) : (getReferenceCount w).toNat = w.toNat % 2 ^ 32 := by
  simp only [getReferenceCount, BitVec.toNat_setWidth, BitVec.toNat_and, BitVec.toNat_ofNat]
  have : (4294967295 % 2 ^ 64 : Nat) = 2 ^ 32 - 1 := by decide
  rw [this, Nat.and_two_pow_sub_one_eq_mod, Nat.mod_mod]

theorem ts_toNat (w : Word) : (getTimeStamp w).toNat = w.toNat / 2 ^ 32 := by
  simp only [getTimeStamp, BitVec.toNat_setWidth, BitVec.toNat_ushiftRight, Nat.shiftRight_eq_div_pow]
  have := w.isLt
  omega

theorem make_toNat (ts rc : BitVec 32) : (make ts rc).toNat = ts.toNat * 2 ^ 32 + rc.toNat := by
  have h : make ts rc = (ts ++ rc).cast (by rfl) := by
    apply BitVec.eq_of_getLsbD_eq
    intro i hi
    simp only [make, setReferenceCount, setTimeStamp, BitVec.getLsbD_or, BitVec.getLsbD_and,
      BitVec.getLsbD_shiftLeft, BitVec.getLsbD_setWidth, BitVec.getLsbD_cast, BitVec.getLsbD_append]
    by_cases h32 : i < 32
    · simp [h32, hi]
    · have hm : (0xFFFFFFFF00000000#64).getLsbD i = true := by
        have : (∀ i : Fin 64, 32 ≤ i.val → (0xFFFFFFFF00000000#64).getLsbD i.val = true) := by decide
        exact this ⟨i, hi⟩ (by simpa using h32)
      have hr : rc.getLsbD i = false := BitVec.getLsbD_of_ge _ _ (by omega)
      have : i - 32 < 64 := by omega
      simp [h32, hi, hm, hr, this]
  rw [h]
  simp only [BitVec.toNat_cast, BitVec.toNat_append]
  rw [← Nat.shiftLeft_add_eq_or_of_lt rc.isLt, Nat.shiftLeft_eq]

theorem set_rc_eq_make (w : Word) (rc : BitVec 32) :
    setReferenceCount w rc = make (getTimeStamp w) rc := by
  apply BitVec.eq_of_getLsbD_eq
  intro i hi
  simp only [make, setReferenceCount, setTimeStamp, getTimeStamp, BitVec.getLsbD_or, BitVec.getLsbD_and,
      BitVec.getLsbD_shiftLeft, BitVec.getLsbD_setWidth, BitVec.getLsbD_ushiftRight]
  have hm : i < 32 → (0xFFFFFFFF00000000#64).getLsbD i = false := by
    have : (∀ i : Fin 64, i.val < 32 → (0xFFFFFFFF00000000#64).getLsbD i.val = false) := by decide
    exact fun h => this ⟨i, hi⟩ h
  by_cases h32 : i < 32
  · simp [h32, hm h32]
  · have h1 : 32 + (i - 32) = i := by omega
    have h2 : i - 32 < 32 := by omega
    have h3 : i - 32 < 64 := by omega
    simp [h32, hi, h1, h2, h3]

theorem word_ext {w v : Word} (ht : w.toNat / 2 ^ 32 = v.toNat / 2 ^ 32)
    (hr : w.toNat % 2 ^ 32 = v.toNat % 2 ^ 32) : w = v := by
  apply BitVec.eq_of_toNat_eq
  omega

theorem inWriting_toNat : inWriting.toNat = 2 ^ 32 - 1 := by decide

theorem isInWriting_iff (w : Word) : isInWriting w = true ↔ w = inWriting := by simp [isInWriting]
theorem isInvalid_iff (w : Word) : isInvalid w = true ↔ w = invalidEvent := by simp [isInvalid]

end Verif.Slot
