import Verif.Proofs.SmallProps
import Mathlib.Data.List.Induction
/-! C63, C64, C67: small decision functions. -/
namespace Verif.Props.SmallSpec

end Verif.Props.SmallSpec

namespace Verif.Props.C63
open Verif.InstanceSpecifier SmallSpec

/-- Create accepts exactly the names that follow the documented rules. -/
theorem accepted_iff (s : List UInt8) : (create s).isSome = true ↔ ValidName s := by
  have hs : '/'.toUInt8 = slash := rfl
  have hu : '_'.toUInt8 = underscore := rfl
  have hnd : ¬ Digit slash := by unfold Digit slash; decide
  have hnu : ¬ Digit underscore := by unfold Digit underscore; decide
  unfold create isShortNameValid
  cases s with
  | nil => simp; intro h; exact h.nonempty rfl
  | cons a l =>
    simp only [List.isEmpty_cons, Bool.false_or, List.take_succ_cons, List.take_zero, List.drop_succ_cons, List.drop_zero]
    have hd := hasDoubleSlash_iff (a :: l)
    have hc1 : validateChars [a] true = true ↔ (Letter a ∨ a = underscore ∨ a = slash) := by
      simp [validateChars, isalpha_iff, or_assoc]
    have hc2 : validateChars l false = true ↔ ∀ c ∈ l, Letter c ∨ Digit c ∨ c = underscore ∨ c = slash := by
      simp [validateChars, isalnum_iff, or_assoc]
    constructor
    · intro h
      by_cases h1 : (a :: l).getLast? = some slash
      · simp [h1] at h
      cases h2 : validateChars [a] true with
      | false => simp [h2] at h
      | true =>
        cases h3 : validateChars l false with
        | false => simp [h3] at h
        | true =>
          cases h4 : hasDoubleSlash (a :: l) with
          | true => simp [h4] at h
          | false =>
            have h2' := hc1.mp h2
            refine ⟨by simp, ?_, ?_, by rwa [hs], ?_⟩
            · intro c hc
              rw [hs, hu]
              rcases List.mem_cons.mp hc with rfl | hc
              · rcases h2' with h | h | h <;> simp [h]
              · exact hc2.mp h3 c hc
            · intro c hc
              simp at hc; subst hc
              rcases h2' with h | h | h
              · exact letter_not_digit h
              · rw [h]; exact hnu
              · rw [h]; exact hnd
            · rintro ⟨p, q, e⟩
              have := hd.mpr ⟨p, q, e⟩
              rw [h4] at this; cases this
    · intro h
      have h1 : (a :: l).getLast? ≠ some slash := by have := h.last; rwa [hs] at this
      have h2 : validateChars [a] true = true := by
        rw [hc1]
        have := h.chars a (by simp)
        have hnf := h.first a rfl
        rw [hs, hu] at this
        rcases this with h | h | h | h
        · exact .inl h
        · exact absurd h hnf
        · exact .inr (.inl h)
        · exact .inr (.inr h)
      have h3 : validateChars l false = true := by
        rw [hc2]; intro c hc
        have := h.chars c (by simp [hc])
        rwa [hs, hu] at this
      have h4 : hasDoubleSlash (a :: l) = false := by
        cases e : hasDoubleSlash (a :: l) with
        | false => rfl
        | true => exact absurd (hd.mp e) h.single
      simp [h1, h2, h3, h4]

/-- An accepted instance specifier keeps its text. -/
theorem keeps_text (s t : List UInt8) (h : create s = some t) : t = s := by
  unfold create at h; split at h
  · simpa using h.symm
  · cases h

example : (create "/vehicle_1/2speed".toUTF8.toList).isSome = true ∧ (create "1vehicle".toUTF8.toList) = none ∧
    create "a//b".toUTF8.toList = none ∧ create "a/".toUTF8.toList = none ∧ create "a-b".toUTF8.toList = none := by
  decide +kernel

end Verif.Props.C63

namespace Verif.Props.C64
open Verif.ElementFqId

/-- operator< is a strict weak ordering: irreflexive, transitive, and incomparability is transitive. -/
theorem strict_weak (a b c : Id) :
    lt a a = false ∧ (lt a b = true → lt b c = true → lt a c = true) ∧
    (lt a b = false → lt b a = false → lt b c = false → lt c b = false → lt a c = false ∧ lt c a = false) := by
  obtain ⟨s1, e1, i1, t1⟩ := a
  obtain ⟨s2, e2, i2, t2⟩ := b
  obtain ⟨s3, e3, i3, t3⟩ := c
  simp only [lt, UInt16.lt_iff_toNat_lt, ← UInt16.toNat_inj]
  refine ⟨by simp, ?_, ?_⟩
  · grind
  · grind

/-- Two ids are incomparable exactly if operator== calls them equal, that is if service, instance and element ids are
equal. -/
theorem incomparable_iff_equal (a b : Id) :
    ((lt a b = false ∧ lt b a = false) ↔ eq a b = true) ∧
    (eq a b = true ↔ a.service = b.service ∧ a.inst = b.inst ∧ a.element = b.element) := by
  obtain ⟨s1, e1, i1, t1⟩ := a
  obtain ⟨s2, e2, i2, t2⟩ := b
  simp only [lt, eq, UInt16.lt_iff_toNat_lt, ← UInt16.toNat_inj, Bool.and_eq_true, beq_iff_eq]
  constructor
  · grind
  · grind

/-- Distinct ids are always ordered one way or the other. -/
theorem total (a b : Id) (h : eq a b = false) : lt a b = true ∨ lt b a = true := by
  have := (incomparable_iff_equal a b).1
  cases h1 : lt a b <;> cases h2 : lt b a <;> simp_all

/-- The element type is not part of the key: an event and a field with the same number are the same key. -/
theorem type_ignored : ∃ a b : Id, isEvent a = true ∧ isField b = true ∧ eq a b = true ∧ a ≠ b :=
  ⟨⟨1, 2, 3, .event⟩, ⟨1, 2, 3, .field⟩, by decide⟩

/-- The constructor from a raw type terminates exactly for values above FIELD. -/
theorem raw_type (s e i : UInt16) (t : UInt8) : ofRaw s e i t = none ↔ 2 < t := by
  unfold ofRaw
  split
  · rename_i h; exact ⟨fun _ => h, fun _ => rfl⟩
  · rename_i h
    refine ⟨fun e => ?_, fun h' => absurd h' h⟩
    split at e
    · cases e
    · split at e <;> cases e

example : lt ⟨1, 9, 3, .event⟩ ⟨1, 2, 4, .field⟩ = true ∧ lt ⟨1, 2, 4, .field⟩ ⟨2, 0, 0, .event⟩ = true ∧
    eq ⟨1, 2, 4, .field⟩ ⟨1, 2, 4, .field⟩ = true ∧ eq ⟨1, 2, 4, .field⟩ ⟨1, 3, 4, .field⟩ = false := by decide

end Verif.Props.C64

namespace Verif.Props.C67
open Verif.OfferedState SmallSpec

/-- An assertion fails exactly for histories with a repeated stop, or with a repeated offer after a stop. -/
theorem rejected_iff (h : List Op) : run h = none ↔ Repeats h := by
  refine ⟨fun e => ?_, (run_spec h).1⟩
  apply Classical.byContradiction
  intro hn
  rw [(run_spec h).2 hn] at e
  cases e

/-- In accepted histories the state is "re-offered" exactly if the last event is an offer and there was a stop before it,
"stop-offered" exactly if the last event is a stop, and "offered" exactly if there was no stop. -/
theorem state_iff (h : List Op) (s : State) (e : run h = some s) :
    (s = .reOffered ↔ .stopOffer ∈ h ∧ h.getLast? = some .offer) ∧
    (s = .stopOffered ↔ h.getLast? = some .stopOffer) ∧
    (s = .offered ↔ .stopOffer ∉ h) := by
  have hn : ¬ Repeats h := by rw [← rejected_iff]; simp [e]
  have e2 := (run_spec h).2 hn
  rw [e] at e2
  cases e2
  have hmem : h.getLast? = some .stopOffer → .stopOffer ∈ h := fun x => List.mem_of_getLast? x
  have hlast : .stopOffer ∈ h → h.getLast? ≠ some .stopOffer → h.getLast? = some .offer := by
    intro h1 h2
    cases e : h.getLast? with
    | none => rw [List.getLast?_eq_none_iff] at e; subst e; simp at h1
    | some o => cases o with
      | offer => rfl
      | stopOffer => exact absurd e h2
  unfold expected
  by_cases h1 : .stopOffer ∈ h
  · by_cases h2 : h.getLast? = some .stopOffer
    · simp [h1, h2]
    · simp [h1, h2, hlast h1 h2]
  · have h2 : h.getLast? ≠ some .stopOffer := fun x => h1 (hmem x)
    simp [h1, h2]

example : run [.offer, .offer, .stopOffer, .offer, .stopOffer, .offer] = some .reOffered ∧
    run [.offer, .stopOffer, .offer, .offer] = none := by decide

end Verif.Props.C67
