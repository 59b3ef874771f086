import Verif.Spec.Small
import Mathlib.Data.List.Induction
/-! Helpers for the theorems of Props/Small.lean. -/

namespace Verif.Props.SmallSpec

theorem hasDoubleSlash_iff (s : List UInt8) :
    InstanceSpecifier.hasDoubleSlash s = true ↔ ∃ p q, s = p ++ [47, 47] ++ q := by
  induction s with
  | nil => simp [InstanceSpecifier.hasDoubleSlash]
  | cons a l ih =>
    cases l with
    | nil =>
      simp only [InstanceSpecifier.hasDoubleSlash, Bool.false_eq_true, false_iff]
      rintro ⟨p, q, h⟩
      have := congrArg List.length h
      simp at this
      omega
    | cons b l =>
      simp only [InstanceSpecifier.hasDoubleSlash, Bool.or_eq_true, Bool.and_eq_true, beq_iff_eq,
        InstanceSpecifier.slash, ih]
      constructor
      · rintro (⟨rfl, rfl⟩ | ⟨p, q, h⟩)
        · exact ⟨[], l, rfl⟩
        · exact ⟨a :: p, q, by rw [h]; rfl⟩
      · rintro ⟨p, q, h⟩
        cases p with
        | nil => simp at h; exact .inl ⟨h.1, h.2.1⟩
        | cons c p => simp at h; exact .inr ⟨p, q, by simpa using h.2⟩

theorem isalpha_iff (c : UInt8) : InstanceSpecifier.isalpha c = true ↔ Letter c := by
  have h1 : 'A'.toUInt8 = 65 := rfl
  have h2 : 'Z'.toUInt8 = 90 := rfl
  have h3 : 'a'.toUInt8 = 97 := rfl
  have h4 : 'z'.toUInt8 = 122 := rfl
  simp [InstanceSpecifier.isalpha, Letter, h1, h2, h3, h4]

theorem isalnum_iff (c : UInt8) : InstanceSpecifier.isalnum c = true ↔ Letter c ∨ Digit c := by
  have h1 : '0'.toUInt8 = 48 := rfl
  have h2 : '9'.toUInt8 = 57 := rfl
  simp [InstanceSpecifier.isalnum, isalpha_iff, Digit, h1, h2]

theorem letter_not_digit {c : UInt8} (h : Letter c) : ¬ Digit c := by
  have h1 : 'A'.toUInt8 = 65 := rfl
  have h2 : 'Z'.toUInt8 = 90 := rfl
  have h3 : 'a'.toUInt8 = 97 := rfl
  have h4 : 'z'.toUInt8 = 122 := rfl
  have h5 : '0'.toUInt8 = 48 := rfl
  have h6 : '9'.toUInt8 = 57 := rfl
  simp only [Letter, Digit, h1, h2, h3, h4, h5, h6, UInt8.le_iff_toNat_le] at *
  simp at *
  omega

open Verif.OfferedState in
theorem run_snoc (h : List Op) (o : Op) : run (h ++ [o]) = (run h).bind (step · o) := by
  simp [run]

open Verif.OfferedState in
/-- State of a history without repetitions. -/
def expected (h : List Op) : State :=
  if .stopOffer ∈ h then if h.getLast? = some .stopOffer then .stopOffered else .reOffered else .offered

open Verif.OfferedState in
theorem repeats_snoc (h : List Op) (o : Op) : Repeats (h ++ [o]) ↔
    Repeats h ∨ (h.getLast? = some .stopOffer ∧ o = .stopOffer) ∨
      (h.getLast? = some .offer ∧ o = .offer ∧ .stopOffer ∈ h) := by
  constructor
  · rintro ⟨p, q, hpq⟩
    rcases List.eq_nil_or_concat q with rfl | ⟨q', x, rfl⟩
    · rcases hpq with e | ⟨e, hp⟩
      · have e' : h ++ [o] = (p ++ [.stopOffer]) ++ [.stopOffer] := by simpa using e
        have := List.append_inj' e' rfl
        refine .inr (.inl ⟨by rw [this.1]; simp, ?_⟩)
        simpa using this.2
      · have e' : h ++ [o] = (p ++ [.offer]) ++ [.offer] := by simpa using e
        have := List.append_inj' e' rfl
        refine .inr (.inr ⟨by rw [this.1]; simp, by simpa using this.2, ?_⟩)
        rw [this.1]; simp [hp]
    · left
      rcases hpq with e | ⟨e, hp⟩
      · have e' : h ++ [o] = (p ++ [.stopOffer, .stopOffer] ++ q') ++ [x] := by simpa [List.append_assoc] using e
        exact ⟨p, q', .inl (List.append_inj' e' rfl).1⟩
      · have e' : h ++ [o] = (p ++ [.offer, .offer] ++ q') ++ [x] := by simpa [List.append_assoc] using e
        exact ⟨p, q', .inr ⟨(List.append_inj' e' rfl).1, hp⟩⟩
  · rintro (⟨p, q, hpq⟩ | ⟨h1, rfl⟩ | ⟨h1, rfl, h3⟩)
    · refine ⟨p, q ++ [o], ?_⟩
      rcases hpq with rfl | ⟨rfl, hp⟩
      · left; simp
      · right; exact ⟨by simp, hp⟩
    · obtain ⟨ys, rfl⟩ := List.getLast?_eq_some_iff.mp h1
      exact ⟨ys, [], .inl (by simp)⟩
    · obtain ⟨ys, rfl⟩ := List.getLast?_eq_some_iff.mp h1
      exact ⟨ys, [], .inr ⟨by simp, by simpa using h3⟩⟩

open Verif.OfferedState in
theorem run_spec (h : List Op) : (Repeats h → run h = none) ∧ (¬ Repeats h → run h = some (expected h)) := by
  induction h using List.reverseRecOn with
  | nil => exact ⟨by rintro ⟨p, q, e⟩; simp at e, fun _ => rfl⟩
  | append_singleton h o ih =>
    rw [run_snoc]
    by_cases hr : Repeats h
    · rw [ih.1 hr]
      exact ⟨fun _ => rfl, fun hn => absurd ((repeats_snoc h o).mpr (.inl hr)) hn⟩
    · rw [ih.2 hr, repeats_snoc]
      rcases List.eq_nil_or_concat h with rfl | ⟨ys, y, rfl⟩
      · cases o <;> simp [expected, step, hr]
      · simp only [List.concat_eq_append] at hr ih ⊢
        have hx : ((ys ++ [y]) ++ [o]).getLast? = some o := by simp
        have hy : (ys ++ [y]).getLast? = some y := by simp
        cases y <;> cases o <;> by_cases hm : Op.stopOffer ∈ ys <;> simp [expected, step, hr, hm]

end Verif.Props.SmallSpec
