import Verif.Proofs.ArithProps
/-! C46, C47: sizes with alignment, and offsets. -/
namespace Verif.Props.ArithSpec

end Verif.Props.ArithSpec

namespace Verif.Props.C46
open Verif.Arith ArithSpec

/-- Whenever CalculateAlignedSize returns, it returns the smallest multiple of the alignment that is at least the size. -/
theorem result_exact (size align r : Nat) (hs : U64 size) (ha : U64 align) (h : alignedSize size align = some r) :
    IsAlignedSize size align r ∧ U64 r := by
  refine ⟨(alignedSize_some hs h).1, ?_⟩
  unfold U64 at *
  unfold alignedSize at h
  split at h
  · cases h
  · split at h
    · cases h; exact hs
    · split at h
      · split at h
        · cases h; exact Nat.mod_lt _ (by unfold W; omega)
        · cases h
      · cases h; exact ha

/-- For the alignments C++ knows, the powers of two, it aborts exactly if the result is not representable. -/
theorem aborts_iff (size k : Nat) (hs : U64 size) (hk : k < 64) :
    alignedSize size (2 ^ k) = none ↔ ∀ r, IsAlignedSize size (2 ^ k) r → ¬ U64 r := by
  have hpos : 0 < 2 ^ k := Nat.two_pow_pos k
  have hd : 2 ^ k ∣ W := by
    have : W = 2 ^ 64 := by decide
    rw [this]; exact Nat.pow_dvd_pow 2 (by omega)
  have hlt : U64 (2 ^ k) := Nat.pow_lt_pow_right (by omega) hk
  constructor
  · intro h r hr
    have := alignedSize_none hpos hd h hr
    unfold U64 W at *; omega
  · intro h
    cases e : alignedSize size (2 ^ k) with
    | none => rfl
    | some r =>
      have := result_exact size _ r hs hlt e
      exact absurd this.2 (h r this.1)

/-- Alignment 0 aborts. -/
theorem zero_alignment (size : Nat) : alignedSize size 0 = none := by simp [alignedSize]

/-- For other alignments it may abort although the result is representable. -/
theorem aborts_early : alignedSize (2 ^ 64 - 3) 3 = none ∧ IsAlignedSize (2 ^ 64 - 3) 3 (2 ^ 64 - 1) := by
  refine ⟨by decide +kernel, ?_⟩
  have := aligned_next (s := 2 ^ 64 - 3) (a := 3) (by omega) (by decide +kernel)
  have e : (2 ^ 64 - 3 + 3 - (2 ^ 64 - 3) % 3 : Nat) = 2 ^ 64 - 1 := by decide +kernel
  rwa [e] at this

/-- The size of a sequence accommodates every element: there are offsets, one per element, such that each element lies at
an offset allowed by its alignment, after all its predecessors and before the end; the first at offset 0. -/
theorem sequence_fits (l : List (Nat × Nat)) (t : Nat) (hl : ∀ x ∈ l, U64 x.1 ∧ U64 x.2) (h : alignedSequence l = some t) :
    ∃ os : List Nat, os.length = l.length ∧
      (∀ (i : Nat) (x : Nat × Nat) (o : Nat), l[i]? = some x → os[i]? = some o → x.2 ∣ o ∧ o + x.1 ≤ t) ∧
      (∀ (i j : Nat) (x : Nat × Nat) (o o' : Nat), i < j → l[i]? = some x → os[i]? = some o → os[j]? = some o' → o + x.1 ≤ o') ∧ U64 t := by
  obtain ⟨os, hp, ht⟩ := sequence_placed l 0 t (by omega) hl h
  obtain ⟨h1, h2, -, -, h5, h6, h7⟩ := placed_facts l 0 os t hp
  refine ⟨os, h1, fun i x o e1 e2 => ⟨?_, h6 i x o e1 e2⟩, h7, ht⟩
  cases i with
  | succ i => exact h5 _ (by omega) x o e1 e2
  | zero =>
    cases os with
    | nil => simp at e2
    | cons a os =>
      cases l with
      | nil => simp at e1
      | cons b l => simp at h2 e2; subst h2; subst e2; exact Nat.dvd_zero _

/-- It is exactly the end of the tightest such placement, and for power-of-two alignments it aborts only if that end is not
representable. -/
theorem sequence_exact (l : List (Nat × Nat)) (t : Nat) (hl : ∀ x ∈ l, U64 x.1 ∧ ∃ k, k < 64 ∧ x.2 = 2 ^ k) (ht : U64 t) :
    alignedSequence l = some t ↔ ∃ os, Placed 0 l os t := by
  constructor
  · intro h
    obtain ⟨os, hp, -⟩ := sequence_placed l 0 t (by omega) (fun x hx => by
      obtain ⟨h1, k, hk, e⟩ := hl x hx
      refine ⟨h1, ?_⟩
      rw [e]; exact Nat.pow_lt_pow_right (by omega) hk) h
    exact ⟨os, hp⟩
  · rintro ⟨os, hp⟩
    apply placed_complete l 0 os t hp ht
    intro x hx
    obtain ⟨-, k, hk, e⟩ := hl x hx
    have : W = 2 ^ 64 := by decide
    rw [e, this]
    exact ⟨Nat.two_pow_pos k, Nat.pow_dvd_pow 2 (by omega)⟩

example : alignedSize 13 8 = some 16 ∧ alignedSize 16 8 = some 16 ∧ alignedSize 3 8 = some 8 ∧
    alignedSize (2 ^ 64 - 7) 8 = none ∧ alignedSequence [(5, 4), (3, 8), (2, 2)] = some 14 := by decide +kernel

end Verif.Props.C46

namespace Verif.Props.C47
open Verif.Arith ArithSpec

/-- Adding an unsigned offset to an address is exact, or aborts if the sum is not an address. -/
theorem add_exact (p o : Nat) (hp : U64 p) (ho : U64 o) :
    addOffset p o = if U64 (p + o) then some (p + o) else none := by
  unfold addOffset U64 W at *
  split <;> split <;> first | omega | simp_all

/-- Subtracting an unsigned offset is exact, or aborts if the difference is negative. -/
theorem sub_exact (p o : Nat) : subOffset p o = if o ≤ p then some (p - o) else none := rfl

/-- Adding a signed offset is exact, or aborts if the sum is not an address. -/
theorem add_signed_exact (p : Nat) (o : Int) (hp : U64 p) (ho : I64 o) :
    addSigned p o = if 0 ≤ (p : Int) + o ∧ (p : Int) + o < 2 ^ 64 then some ((p : Int) + o).toNat else none := by
  unfold addSigned addOffset subOffset U64 I64 W at *
  split <;> split <;> split <;> first | omega | (congr 1; omega) | rfl

/-- The difference of two addresses is exact, or aborts if it does not fit the signed type. -/
theorem sub_pointers_exact (a b : Nat) (ha : U64 a) (hb : U64 b) :
    subPointers a b = if I64 ((a : Int) - b) then some ((a : Int) - b) else none := by
  unfold subPointers subOffset U64 I64 H at *
  split
  · rw [if_pos (by omega)]; dsimp only
    split <;> split <;> first | omega | (congr 1; omega) | rfl
  · rw [if_pos (by omega)]; dsimp only
    split
    · rw [if_pos (by omega)]; congr 1; omega
    · split <;> split <;> first | omega | (congr 1; omega) | rfl

/-- The absolute value of every signed value is exact and representable. -/
theorem absolute_exact (x : Int) (hx : I64 x) : (absoluteValue x : Int) = if x < 0 then -x else x := by
  unfold absoluteValue I64 H at *
  split <;> split <;> omega

/-- Casting a signed value to the unsigned type and back is the identity. -/
theorem cast_round_trip (x : Int) (hx : I64 x) : undoCast (toUnsigned x) = x := by
  unfold undoCast toUnsigned I64 H W at *
  split <;> omega

/-- Adding an unsigned to a signed value is exact, or aborts exactly if the sum does not fit the signed type. -/
theorem add_mixed_exact (x : Int) (u : Nat) (hx : I64 x) (hu : U64 u) :
    addUnsignedToSigned x u = if I64 (x + u) then some (x + u) else none := by
  unfold addUnsignedToSigned undoCast toUnsigned I64 U64 H W at *
  dsimp only
  split <;> split <;> split <;> first | omega | (congr 1; omega) | rfl

/-- Subtracting an unsigned from a signed value is exact, or aborts exactly if the difference does not fit. -/
theorem sub_mixed_exact (x : Int) (u : Nat) (hx : I64 x) (hu : U64 u) :
    subUnsignedFromSigned x u = if I64 (x - u) then some (x - u) else none := by
  unfold subUnsignedFromSigned undoCast toUnsigned I64 U64 H W at *
  dsimp only
  split <;> split <;> split <;> first | omega | (congr 1; omega) | rfl

example : addOffset (2 ^ 64 - 1) 1 = none ∧ addOffset 16 8 = some 24 ∧ addSigned 16 (-16) = some 0 ∧
    addSigned 16 (-17) = none ∧ subPointers 0 (2 ^ 63) = some (-(2 ^ 63)) ∧ subPointers (2 ^ 63) 0 = none ∧
    addUnsignedToSigned (-(2 ^ 63)) (2 ^ 64 - 1) = some (2 ^ 63 - 1) ∧ addUnsignedToSigned 1 (2 ^ 63 - 1) = none ∧
    subUnsignedFromSigned (2 ^ 63 - 1) (2 ^ 64 - 1) = some (-(2 ^ 63)) := by decide +kernel

end Verif.Props.C47
