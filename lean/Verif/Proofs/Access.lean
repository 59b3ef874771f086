import Verif.Spec.Access
import Verif.Proofs.Ident

namespace Verif.Access
open Verif.Json Verif.Ident Verif.Spec.Ident Verif.Spec.Access

/-- Access to an object that is made for a list of users. -/
theorem users_read (o : Uid) (r w : List Uid) (u : Uid) :
    (createShm o (.users r w)).canRead u = true ↔ u = o ∨ u ∈ r := by
  unfold createShm Shm.canRead Shm.hasEntry
  by_cases hr : u ∈ r <;> by_cases hw : u ∈ w <;> simp [hr, hw]

theorem users_write (o : Uid) (r w : List Uid) (u : Uid) :
    (createShm o (.users r w)).canWrite u = true ↔ u = o ∨ u ∈ w := by
  unfold createShm Shm.canWrite Shm.hasEntry
  by_cases hr : u ∈ r <;> by_cases hw : u ∈ w <;> simp [hr, hw]

theorem owner_createShm (o : Uid) (p : Permissions) : (createShm o p).owner = o := by
  cases p <;> rfl

theorem consumer_nil {d : Lola} {q : Quality} {u : Uid} (h : listOf d.consumers q = []) :
    Consumer d q u ↔ d.strict = false := by
  unfold listOf at h
  unfold Consumer Allowed
  cases hf : find d.consumers q with
  | none => rfl
  | some l =>
    rw [hf] at h
    have h : l = [] := h
    subst h
    rfl

theorem consumer_cons {d : Lola} {q : Quality} {u : Uid} (h : listOf d.consumers q ≠ []) :
    Consumer d q u ↔ u ∈ listOf d.consumers q := by
  unfold listOf at h ⊢
  unfold Consumer Allowed
  cases hf : find d.consumers q with
  | none => rw [hf] at h; exact absurd rfl h
  | some l =>
    rw [hf] at h
    cases l with
    | nil => exact absurd rfl h
    | cons v l => exact Iff.rfl

theorem control_access (d : Lola) (o : Uid) (q : Quality) (u : Uid) :
    ((createShm o (controlPermissions d q)).canRead u = true ↔ u = o ∨ Consumer d q u) ∧
    ((createShm o (controlPermissions d q)).canWrite u = true ↔ u = o ∨ Consumer d q u) := by
  unfold controlPermissions
  dsimp only
  by_cases h : listOf d.consumers q = []
  · rw [consumer_nil h, h]
    cases hs : d.strict with
    | false =>
      simp only [List.isEmpty_nil, Bool.not_false, Bool.and_self, if_true]
      simp [createShm, Shm.canRead, Shm.canWrite, Shm.hasEntry]
    | true =>
      simp only [List.isEmpty_nil, Bool.not_true, Bool.and_false, Bool.false_eq_true, if_false]
      rw [users_read, users_write]
      simp
  · rw [consumer_cons h]
    have : (listOf d.consumers q).isEmpty = false := by
      cases hl : listOf d.consumers q with
      | nil => exact absurd hl h
      | cons a l => rfl
    rw [this]
    simp only [Bool.false_and, Bool.false_eq_true, if_false]
    exact ⟨users_read _ _ _ _, users_write _ _ _ _⟩

theorem data_read (d : Lola) (o : Uid) (u : Uid) :
    (createShm o (dataPermissions d)).canRead u = true ↔
      u = o ∨ (∃ p ∈ d.consumers, u ∈ p.2) ∨ (d.strict = false ∧ ∀ p ∈ d.consumers, p.2 = []) := by
  unfold dataPermissions
  dsimp only
  by_cases h : d.consumers.flatMap (·.2) = []
  · have h2 : ∀ p ∈ d.consumers, p.2 = [] := fun p hp => List.flatMap_eq_nil_iff.mp h p hp
    have h3 : ¬ ∃ p ∈ d.consumers, u ∈ p.2 := by
      rintro ⟨p, hp, hu⟩; rw [h2 p hp] at hu; cases hu
    rw [h]
    cases hs : d.strict with
    | false =>
      simp only [List.isEmpty_nil, Bool.not_false, Bool.and_self, if_true]
      constructor
      · intro _; exact Or.inr (Or.inr ⟨trivial, h2⟩)
      · intro _; simp [createShm, Shm.canRead, Shm.hasEntry]
    | true =>
      simp only [List.isEmpty_nil, Bool.not_true, Bool.and_false, Bool.false_eq_true, if_false]
      rw [users_read]
      simp [h3]
  · have he : (d.consumers.flatMap (·.2)).isEmpty = false := by
      cases hl : d.consumers.flatMap (·.2) with
      | nil => exact absurd hl h
      | cons a l => rfl
    rw [he]
    simp only [Bool.false_and, Bool.false_eq_true, if_false]
    rw [users_read, List.mem_flatMap]
    constructor
    · rintro (h1 | h1)
      · exact Or.inl h1
      · exact Or.inr (Or.inl h1)
    · rintro (h1 | h1 | ⟨-, h1⟩)
      · exact Or.inl h1
      · exact Or.inr h1
      · exact absurd (List.flatMap_eq_nil_iff.mpr h1) h

theorem data_write (d : Lola) (o : Uid) (u : Uid) :
    (createShm o (dataPermissions d)).canWrite u = true ↔ u = o := by
  unfold dataPermissions
  dsimp only
  split
  · simp [createShm, Shm.canWrite, Shm.hasEntry]
  · rw [users_write]; simp

theorem ownerOk_iff (c : Lola) (q : Quality) (cu pu : Uid) :
    ownerOk cu pu (providersFor c q) = true ↔
      pu = cu ∨ (Provider c q pu ∧ find c.providers q ≠ some []) := by
  unfold providersFor Provider Allowed
  cases hf : find c.providers q with
  | none =>
    cases hs : c.strict with
    | false => simp [ownerOk]
    | true => simp [ownerOk, uidMatches]
  | some l =>
    cases l with
    | nil => simp [ownerOk, uidMatches]
    | cons v l => simp [ownerOk, uidMatches]

theorem connects_iff (p : Lola) (pu : Uid) (c : Lola) (cu : Uid) (q : Quality) :
    connects p pu c cu q = true ↔
      (cu = pu ∨ (Consumer p q cu ∧
        ((∃ e ∈ p.consumers, cu ∈ e.2) ∨ (p.strict = false ∧ ∀ e ∈ p.consumers, e.2 = [])))) ∧
      (pu = cu ∨ (Provider c q pu ∧ find c.providers q ≠ some [])) := by
  unfold connects openShm
  simp only [Bool.and_eq_true, Bool.not_true, Bool.false_or, Bool.not_false, Bool.true_or, and_true,
    owner_createShm]
  rw [(control_access p pu q cu).1, (control_access p pu q cu).2, data_read, ownerOk_iff]
  constructor
  · rintro ⟨⟨⟨h1, -⟩, h2⟩, h3, -⟩
    refine ⟨?_, h2⟩
    rcases h1 with h1 | h1
    · exact Or.inl h1
    · rcases h3 with h3 | h3
      · exact Or.inl h3
      · exact Or.inr ⟨h1, h3⟩
  · rintro ⟨h1, h2⟩
    rcases h1 with h1 | ⟨h1, h3⟩
    · exact ⟨⟨⟨Or.inl h1, Or.inl h1⟩, h2⟩, Or.inl h1, h2⟩
    · exact ⟨⟨⟨Or.inr h1, Or.inr h1⟩, h2⟩, Or.inr h3, h2⟩

end Verif.Access
