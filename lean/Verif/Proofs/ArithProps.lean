import Verif.Spec.Arith
/-! Helpers for the theorems of Props/Arith.lean. -/

namespace Verif.Props.ArithSpec

theorem aligned_unique {s a r r' : Nat} (h : IsAlignedSize s a r) (h' : IsAlignedSize s a r') : r = r' :=
  Nat.le_antisymm (h.2.2 r' h'.1 h'.2.1) (h'.2.2 r h.1 h.2.1)

theorem aligned_next {s a : Nat} (ha : 0 < a) (hm : s % a ≠ 0) : IsAlignedSize s a (s + a - s % a) := by
  have hlt := Nat.mod_lt s ha
  have hd := Nat.div_add_mod s a
  refine ⟨⟨s / a + 1, ?_⟩, by omega, ?_⟩
  · rw [Nat.mul_add]; omega
  · rintro k ⟨q, rfl⟩ hk
    have : s / a < q := by
      apply Nat.lt_of_not_le
      intro hq
      have := Nat.mul_le_mul_left a hq
      omega
    have h2 := Nat.mul_le_mul_left a (show s / a + 1 ≤ q from this)
    rw [Nat.mul_add] at h2
    omega

theorem aligned_self {s a : Nat} (hm : s % a = 0) : IsAlignedSize s a s :=
  ⟨Nat.dvd_of_mod_eq_zero hm, Nat.le_refl _, fun _ _ h => h⟩

open Verif.Arith in
theorem alignedSize_some {s a r : Nat} (hs : s < 2 ^ 64) (h : alignedSize s a = some r) :
    IsAlignedSize s a r ∧ 0 < a := by
  unfold alignedSize at h
  split at h
  · cases h
  · rename_i ha
    have ha : 0 < a := by omega
    refine ⟨?_, ha⟩
    split at h
    · rename_i hm; cases h; exact aligned_self hm
    · rename_i hm
      have hlt := Nat.mod_lt s ha
      have hle := Nat.mod_le s a
      split at h
      · split at h
        · cases h
          rw [Nat.mod_eq_of_lt (by simp only [W] at *; omega)]
          exact aligned_next ha hm
        · cases h
      · cases h
        have hsa : s < a := by
          rename_i h1
          apply Nat.lt_of_le_of_ne (by omega)
          rintro rfl; simp at hm
        have := aligned_next ha hm
        rw [Nat.mod_eq_of_lt hsa] at this
        rwa [Nat.add_sub_cancel_left] at this

/-- For alignments that divide 2^64 the assertion fails only if the result is not representable. -/
theorem le_of_dvd_gt {a q b : Nat} (ha : 0 < a) (hb : a ∣ b) (h : b - a < q) (hq : a ∣ q) : b ≤ q := by
  obtain ⟨x, rfl⟩ := hb
  obtain ⟨y, rfl⟩ := hq
  apply Nat.mul_le_mul_left
  apply Nat.le_of_not_lt
  intro hlt
  have := Nat.mul_le_mul_left a (show y + 1 ≤ x from hlt)
  rw [Nat.mul_add] at this
  omega

open Verif.Arith in
theorem alignedSize_none {s a r : Nat} (ha : 0 < a) (hd : a ∣ W) (h : alignedSize s a = none)
    (hr : IsAlignedSize s a r) : W ≤ r := by
  unfold alignedSize at h
  rw [if_neg (by omega)] at h
  split at h
  · cases h
  · rename_i hm
    split at h
    · split at h
      · cases h
      · rename_i h1 h2
        have hne : s ≠ W - a := by
          rintro rfl
          apply hm
          exact Nat.mod_eq_zero_of_dvd (Nat.dvd_sub hd (Nat.dvd_refl a))
        have h3 := Nat.le_of_dvd (by unfold W; omega) hd
        exact le_of_dvd_gt ha hd (by have := hr.2.1; unfold W at *; omega) hr.1
    · cases h

open Verif.Arith in
theorem sequence_placed (l : List (Nat × Nat)) : ∀ start t, start < 2 ^ 64 → (∀ x ∈ l, x.1 < 2 ^ 64 ∧ x.2 < 2 ^ 64) →
    alignedSequenceFrom start l = some t →
    ∃ os, Placed start l os t ∧ t < 2 ^ 64 := by
  induction l with
  | nil => intro start t h0 _ h; simp only [alignedSequenceFrom] at h; cases h; exact ⟨[], ⟨rfl, rfl⟩, h0⟩
  | cons x l ih =>
    intro start t h0 hl h
    obtain ⟨size, align⟩ := x
    have hsz : size < 2 ^ 64 := (hl (size, align) (by simp)).1
    cases l with
    | nil =>
      simp only [alignedSequenceFrom] at h
      split at h
      · cases h
      · split at h
        · rename_i hle
          simp only [Option.some.injEq] at h; subst h
          exact ⟨[start], ⟨rfl, rfl⟩, by unfold W at hle; omega⟩
        · cases h
    | cons y l =>
      obtain ⟨size', align'⟩ := y
      simp only [alignedSequenceFrom] at h
      split at h
      · cases h
      · split at h
        · rename_i hle
          split at h
          · cases h
          · split at h
            · cases h
            · rename_i o ho
              have hlt : start + size < 2 ^ 64 := by unfold W at hle; omega
              have ha := alignedSize_some hlt ho
              have ho2 : o < 2 ^ 64 := by
                have hal : align' < 2 ^ 64 := (hl (size', align') (by simp)).2
                unfold alignedSize at ho
                split at ho
                · cases ho
                · split at ho
                  · cases ho; exact hlt
                  · split at ho
                    · split at ho
                      · cases ho; exact Nat.mod_lt _ (by unfold W; omega)
                      · cases ho
                    · cases ho; exact hal
              obtain ⟨os, hos, ht⟩ := ih o t ho2 (fun z hz => hl z (List.mem_cons_of_mem _ hz)) h
              cases os with
              | nil =>
                cases l with
                | nil => simp [Placed] at hos
                | cons z l => obtain ⟨_, _, e, _⟩ := hos; cases e
              | cons o' os' =>
                have : o' = o := by
                  cases l with
                  | nil => simp [Placed] at hos; exact hos.1.1
                  | cons z l => obtain ⟨_, _, e, _⟩ := hos; cases e; rfl
                subst this
                exact ⟨start :: o' :: os', ⟨o', os', rfl, ha.1, hos⟩, ht⟩
        · cases h

theorem placed_facts (l : List (Nat × Nat)) : ∀ start os t, Placed start l os t →
    os.length = l.length ∧ os.head? = (if l = [] then none else some start) ∧ start ≤ t ∧
    (∀ o ∈ os, start ≤ o) ∧
    (∀ (i : Nat) (_ : 0 < i) (x : Nat × Nat) (o : Nat), l[i]? = some x → os[i]? = some o → x.2 ∣ o) ∧
    (∀ (i : Nat) (x : Nat × Nat) (o : Nat), l[i]? = some x → os[i]? = some o → o + x.1 ≤ t) ∧
    (∀ (i j : Nat) (x : Nat × Nat) (o o' : Nat), i < j → l[i]? = some x → os[i]? = some o → os[j]? = some o' → o + x.1 ≤ o') := by
  induction l with
  | nil => intro start os t h; obtain ⟨rfl, rfl⟩ := h; simp
  | cons x l ih =>
    intro start os t h
    obtain ⟨size, align⟩ := x
    cases l with
    | nil =>
      obtain ⟨rfl, rfl⟩ := h
      refine ⟨rfl, rfl, by omega, by simp, ?_, ?_, ?_⟩
      · intro i hi x o h1 h2; cases i with
        | zero => omega
        | succ i => simp at h1
      · intro i x o h1 h2; cases i with
        | zero => simp at h1 h2; subst h1 h2; exact Nat.le_refl _
        | succ i => simp at h1
      · intro i j x o o' hij h1 h2 h3; cases j with
        | zero => omega
        | succ j => simp at h3
    | cons y l =>
      obtain ⟨size', align'⟩ := y
      obtain ⟨o, os', rfl, ha, hp⟩ := h
      obtain ⟨h1, h2, h3, h4, h5, h6, h7⟩ := ih o _ t hp
      have hso : start + size ≤ o := ha.2.1
      refine ⟨by simp at h1 ⊢; omega, rfl, by omega, ?_, ?_, ?_, ?_⟩
      · intro z hz
        rcases List.mem_cons.mp hz with rfl | hz
        · exact Nat.le_refl _
        · have := h4 z hz; omega
      · intro i hi x z e1 e2
        cases i with
        | zero => omega
        | succ i =>
          cases i with
          | zero => simp at e1 e2; subst e1 e2; exact ha.1
          | succ i => exact h5 (i + 1) (by omega) x z e1 e2
      · intro i x z e1 e2
        cases i with
        | zero => simp at e1 e2; subst e1 e2; dsimp only; omega
        | succ i => exact h6 i x z e1 e2
      · intro i j x z z' hij e1 e2 e3
        cases j with
        | zero => omega
        | succ j =>
          cases i with
          | zero =>
            simp at e1 e2; subst e1 e2
            have : z' ∈ o :: os' := List.mem_of_getElem? (by simpa using e3)
            have := h4 z' this
            dsimp only; omega
          | succ i => exact h7 i j x z z' (by omega) e1 e2 e3

open Verif.Arith in
theorem placed_complete (l : List (Nat × Nat)) : ∀ start os t, Placed start l os t → t < 2 ^ 64 →
    (∀ x ∈ l, 0 < x.2 ∧ x.2 ∣ W) → alignedSequenceFrom start l = some t := by
  induction l with
  | nil => intro start os t h _ _; obtain ⟨rfl, rfl⟩ := h; rfl
  | cons x l ih =>
    intro start os t h ht hl
    obtain ⟨size, align⟩ := x
    have hx := hl (size, align) (by simp)
    dsimp only at hx
    cases l with
    | nil =>
      obtain ⟨rfl, rfl⟩ := h
      simp only [alignedSequenceFrom]
      rw [if_neg (by omega), if_pos (by unfold W; omega)]
    | cons y l =>
      obtain ⟨size', align'⟩ := y
      have hy := hl (size', align') (by simp)
      obtain ⟨o, os', rfl, ha, hp⟩ := h
      have ho := (placed_facts _ o _ t hp).2.2.1
      have hso : start + size ≤ o := ha.2.1
      simp only [alignedSequenceFrom]
      dsimp only at hy
      rw [if_neg (by omega), if_pos (by unfold W; omega), if_neg (by omega)]
      cases e : alignedSize (start + size) align' with
      | none =>
        have := alignedSize_none hy.1 hy.2 e ha
        unfold W at this; omega
      | some r =>
        have h1 := alignedSize_some (by omega) e
        have := aligned_unique h1.1 ha
        subst this
        exact ih _ _ _ hp ht (fun z hz => hl z (List.mem_cons_of_mem _ hz))

end Verif.Props.ArithSpec
