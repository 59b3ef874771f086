import Verif.Proofs.EventSlotStatus
import Verif.Spec.EventSlotStatus
/-!
C01 - the slot status word is lossless.

Specification (independent of the bit manipulation): a word is the pair of its upper and its
lower 32 bits, i.e. quotient and remainder modulo `2^32`.
-/
namespace Verif.Props.C01
open Verif.Slot

/-- C01: what is stored is what is read back, for every timestamp and reference count. -/
theorem store_read (ts rc : BitVec 32) :
    getTimeStamp (make ts rc) = ts ∧ getReferenceCount (make ts rc) = rc := by
  have h := make_toNat ts rc
  have hr := rc.isLt
  constructor
  · apply BitVec.eq_of_toNat_eq
    rw [ts_toNat, h]; omega
  · apply BitVec.eq_of_toNat_eq
    rw [rc_toNat, h]; omega

/-- C01: every word is the pair of its timestamp and reference count, which are the upper and the
lower half of the word. -/
theorem read_store (w : Word) :
    make (getTimeStamp w) (getReferenceCount w) = w ∧
    (getTimeStamp w).toNat = w.toNat / 2 ^ 32 ∧ (getReferenceCount w).toNat = w.toNat % 2 ^ 32 := by
  refine ⟨?_, ts_toNat w, rc_toNat w⟩
  apply BitVec.eq_of_toNat_eq
  rw [make_toNat, ts_toNat, rc_toNat]; omega

/-- C01: changing the reference count keeps the timestamp. -/
theorem set_reference_count (w : Word) (rc : BitVec 32) :
    getTimeStamp (setReferenceCount w rc) = getTimeStamp w ∧
    getReferenceCount (setReferenceCount w rc) = rc := by
  rw [set_rc_eq_make]; exact store_read _ _

/-- C01: setting the timestamp stores the timestamp and clears the reference count. -/
theorem set_timestamp (ts : BitVec 32) :
    getTimeStamp (setTimeStamp ts) = ts ∧ getReferenceCount (setTimeStamp ts) = 0#32 := by
  have h : setTimeStamp ts = make ts 0#32 := by
    have := set_rc_eq_make (setTimeStamp ts) 0#32
    have h0 : setReferenceCount (setTimeStamp ts) 0#32 = make ts 0#32 := rfl
    apply BitVec.eq_of_toNat_eq
    rw [make_toNat]
    simp only [setTimeStamp, BitVec.toNat_shiftLeft, BitVec.toNat_setWidth, Nat.shiftLeft_eq]
    have := ts.isLt
    simp; omega
  rw [h]; exact store_read _ _

/-- C01: the predicates the code uses are these states, and they are mutually exclusive. -/
theorem states (w : Word) :
    (isInvalid w = true ↔ Never w) ∧ (isInWriting w = true ↔ Writing w) ∧ ¬ (Never w ∧ Writing w) := by
  have h1 : isInvalid w = true ↔ Never w := by
    rw [isInvalid_iff]
    constructor
    · intro h; subst h; rfl
    · intro h; exact BitVec.eq_of_toNat_eq h
  have h2 : isInWriting w = true ↔ Writing w := by
    rw [isInWriting_iff]
    constructor
    · intro h; subst h; exact ⟨by decide, by decide⟩
    · intro h
      apply BitVec.eq_of_toNat_eq
      rw [inWriting_toNat]
      have := h.1; have := h.2; omega
  refine ⟨h1, h2, ?_⟩
  rintro ⟨h, h'⟩
  have a := h'.2
  have b : w.toNat = 0 := h
  omega

/-- C01: a sample with a valid timestamp is readable, whatever its reference count. -/
theorem valid_timestamp_readable (ts rc : BitVec 32) (h : ts ≠ 0#32) : Readable (make ts rc) := by
  have hts : ts.toNat ≠ 0 := fun h0 => h (BitVec.eq_of_toNat_eq h0)
  have hm := make_toNat ts rc
  constructor
  · intro hn
    have : (make ts rc).toNat = 0 := hn
    omega
  · intro hw
    have := hw.1
    have := rc.isLt
    omega

example : Readable (make 5#32 0xFFFFFFFF#32) := valid_timestamp_readable _ _ (by decide)

/-- C01: a slot counts as used exactly if somebody references it or it is being written. -/
theorem used (w : Word) :
    isUsed w = true ↔ (w.toNat % 2 ^ 32 ≠ 0 ∨ Writing w) := by
  have h := (states w).2.1
  have hr := rc_toNat w
  simp only [isUsed, Bool.or_eq_true, bne_iff_ne, ne_eq, h]
  constructor
  · rintro (h1 | h1)
    · left; intro h0; apply h1; apply BitVec.eq_of_toNat_eq; rw [hr]; exact h0
    · exact Or.inr h1
  · rintro (h1 | h1)
    · left; intro h0; apply h1; rw [← hr, h0]; rfl
    · exact Or.inr h1

/-- C01: the range test is the strict range test on readable samples. -/
theorem timestamp_between (w : Word) (lo hi : BitVec 32) :
    isTimeStampBetween w lo hi = true ↔
      Readable w ∧ lo.toNat < w.toNat / 2 ^ 32 ∧ w.toNat / 2 ^ 32 < hi.toNat := by
  have h := states w
  simp only [isTimeStampBetween, Bool.and_eq_true, Bool.not_eq_true', decide_eq_true_eq,
    BitVec.lt_def, ts_toNat, Readable]
  rw [← h.1, ← h.2.1]
  simp only [Bool.not_eq_true]
  constructor
  · rintro ⟨⟨⟨a, b⟩, c⟩, d⟩; exact ⟨⟨b, a⟩, c, d⟩
  · rintro ⟨⟨b, a⟩, c, d⟩; exact ⟨⟨⟨a, b⟩, c⟩, d⟩

example : isTimeStampBetween (make 7#32 3#32) 6#32 8#32 = true := by decide

end Verif.Props.C01
