import Verif.Proofs.UnixFrame
/-! The names of LoLa message passing channels are distinct, also as socket addresses. -/
namespace Verif.UnixFrame

theorem digits_sep {a b s t : List Char} (ha : ∀ c ∈ a, c.isDigit = true) (hb : ∀ c ∈ b, c.isDigit = true)
    (h : a ++ '_' :: s = b ++ '_' :: t) : a = b ∧ s = t := by
  induction a generalizing b with
  | nil =>
    cases b with
    | nil => simpa using h
    | cons y b =>
      simp at h
      have := hb y (by simp)
      rw [← h.1] at this
      simp [Char.isDigit] at this
  | cons x a ih =>
    cases b with
    | nil =>
      simp at h
      have := ha x (by simp)
      rw [h.1] at this
      simp [Char.isDigit] at this
    | cons y b =>
      simp at h
      obtain ⟨h1, h2⟩ := ih (fun c hc => ha c (by simp [hc])) (fun c hc => hb c (by simp [hc])) h.2
      exact ⟨by rw [h.1, h1], h2⟩

theorem lolaName_inj {a b : Bool} {p q : Nat} (h : lolaName a p = lolaName b q) : a = b ∧ p = q := by
  unfold lolaName at h
  simp only [List.append_assoc, List.append_cancel_left_eq] at h
  have hs : ∀ x : Bool, (if x then "_ASIL_B".toList else "_QM".toList) =
      '_' :: (if x then "ASIL_B".toList else "QM".toList) := by intro x; cases x <;> rfl
  rw [hs a, hs b] at h
  obtain ⟨h1, h2⟩ := digits_sep (fun c hc => Nat.isDigit_of_mem_toDigits (by decide) (by decide) hc)
    (fun c hc => Nat.isDigit_of_mem_toDigits (by decide) (by decide) hc) h
  constructor
  · clear h h1 hs
    cases a <;> cases b
    · rfl
    · exact absurd h2 (by decide)
    · exact absurd h2 (by decide)
    · rfl
  · have := congrArg (fun l => Nat.ofDigitChars 10 l 0) h1
    simpa [Nat.ofDigitChars_ten_toDigits] using this

theorem lolaName_ascii (a : Bool) (p : Nat) : ∀ c ∈ lolaName a p, 0 < c.toNat ∧ c.toNat < 128 := by
  intro c hc
  unfold lolaName at hc
  simp only [List.mem_append] at hc
  rcases hc with (hc | hc) | hc
  · revert c; decide
  · have := Nat.isDigit_of_mem_toDigits (by decide) (by decide) hc
    simp [Char.isDigit, UInt32.le_iff_toNat_le] at this
    omega
  · cases a
    · revert c; decide
    · revert c; decide

theorem lolaName_length (a : Bool) (p : Nat) (hp : p < 10 ^ 10) : (lolaName a p).length ≤ 106 := by
  have h : (Nat.toDigits 10 p).length ≤ 10 := (Nat.length_toDigits_le_iff (by decide) (by decide)).mpr hp
  unfold lolaName
  simp only [List.length_append]
  cases a
  · have : ("LoLa_2_".toList).length = 7 := by decide
    have : ("_QM".toList).length = 3 := by decide
    simp only [Bool.false_eq_true, if_false]
    omega
  · have : ("LoLa_2_".toList).length = 7 := by decide
    have : ("_ASIL_B".toList).length = 7 := by decide
    simp only [if_true]
    omega

theorem bytes_inj {s t : List Char} (hs : ∀ c ∈ s, c.toNat < 128) (ht : ∀ c ∈ t, c.toNat < 128)
    (h : bytes s = bytes t) : s = t := by
  unfold bytes at h
  induction s generalizing t with
  | nil => cases t <;> simp_all
  | cons x s ih =>
    cases t with
    | nil => simp at h
    | cons y t =>
      simp only [List.map_cons, List.cons.injEq] at h
      have hx := hs x (by simp)
      have hy := ht y (by simp)
      have h1 := congrArg UInt8.toNat h.1
      simp only [UInt8.toNat_ofNat'] at h1
      have hxy : x = y := by
        apply Char.toNat_inj.mp
        omega
      rw [hxy, ih (fun c hc => hs c (by simp [hc])) (fun c hc => ht c (by simp [hc])) h.2]

theorem bytes_no_zero {s : List Char} (hs : ∀ c ∈ s, 0 < c.toNat ∧ c.toNat < 128) : 0 ∉ bytes s := by
  intro h
  unfold bytes at h
  simp only [List.mem_map] at h
  obtain ⟨c, hc, h⟩ := h
  have := hs c hc
  have h1 := congrArg UInt8.toNat h
  simp only [UInt8.toNat_ofNat', UInt8.toNat_zero] at h1
  omega

end Verif.UnixFrame
