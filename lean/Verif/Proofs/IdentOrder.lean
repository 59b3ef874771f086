import Verif.Proofs.Ident
/-! # Lemmas: comparison of identifiers -/
namespace Verif.Ident
open Verif.Json hiding get
open Verif.Spec.Ident

section maps
variable {κ α : Type} [DecidableEq κ]

theorem keys_of_find {l r : List (κ × α)} (h : ∀ k, find l k = find r k) :
    ∀ k ∈ l.map Prod.fst, k ∈ r.map Prod.fst := by
  intro k hk
  refine Classical.byContradiction fun hn => ?_
  have h1 := (find_none_iff r k).mpr hn
  rw [← h k] at h1
  exact (find_none_iff l k).mp h1 hk

theorem mapEq_iff (eq : α → α → Bool) (heq : ∀ a b, eq a b = true ↔ a = b) (l r : List (κ × α))
    (hl : IsMap l) (hr : IsMap r) : mapEq eq l r = true ↔ ∀ k, find l k = find r k := by
  simp only [mapEq, Bool.and_eq_true, beq_iff_eq, List.all_eq_true]
  constructor
  · rintro ⟨hlen, hall⟩ k
    have sub : ∀ k v, (k, v) ∈ l → find r k = some v := by
      intro k v hm
      have := hall _ hm
      simp only at this
      split at this
      · rename_i v' hv
        rw [hv, (heq _ _).mp this]
      · simp at this
    cases hk : find l k with
    | some v => exact (sub k v (find_mem hk)).symm
    | none =>
      symm
      rw [find_none_iff]
      intro hkr
      have hnl := (find_none_iff l k).mp hk
      have hle := List.Nodup.length_le_of_subset (l₁ := k :: l.map Prod.fst) (l₂ := r.map Prod.fst)
        (List.nodup_cons.mpr ⟨hnl, hl⟩) (by
          intro x hx
          rcases List.mem_cons.mp hx with rfl | hx
          · exact hkr
          · obtain ⟨⟨k0, v0⟩, hp, rfl⟩ := List.mem_map.mp hx
            have := find_mem (sub k0 v0 hp)
            exact List.mem_map_of_mem (f := Prod.fst) this)
      simp at hle
      omega
  · intro h
    constructor
    · have h1 := List.Nodup.length_le_of_subset hl (keys_of_find h)
      have h2 := List.Nodup.length_le_of_subset hr (keys_of_find (fun k => (h k).symm))
      simp at h1 h2
      omega
    · rintro ⟨k, v⟩ hp
      simp only
      rw [← h k, find_of_mem hl hp]
      exact (heq v v).mpr rfl

end maps

theorem eventEq_iff (a b : EventDep) : a.eq b = true ↔ a = b := by
  obtain ⟨a1, a2, a3, a4, a5⟩ := a
  obtain ⟨b1, b2, b3, b4, b5⟩ := b
  simp only [EventDep.eq, Bool.and_eq_true, beq_iff_eq, EventDep.mk.injEq]
  constructor
  · rintro ⟨⟨⟨⟨h1, h2⟩, h3⟩, h4⟩, h5⟩
    exact ⟨h1, h3, h4, h5, h2⟩
  · rintro ⟨h1, h3, h4, h5, h2⟩
    exact ⟨⟨⟨⟨h1, h2⟩, h3⟩, h4⟩, h5⟩

theorem fieldEq_iff (a b : FieldDep) : a.eq b = true ↔ a = b := by
  obtain ⟨a1, a2, a3⟩ := a
  obtain ⟨b1, b2, b3⟩ := b
  simp only [FieldDep.eq, Bool.and_eq_true, beq_iff_eq, FieldDep.mk.injEq, eventEq_iff, and_assoc]

theorem methodEq_iff (a b : MethodDep) : a.eq b = true ↔ a = b := by
  obtain ⟨a1, a2⟩ := a
  obtain ⟨b1, b2⟩ := b
  simp only [MethodDep.eq, Bool.and_eq_true, beq_iff_eq, MethodDep.mk.injEq]

/-- The maps of a binding are maps. -/
def ProperBinding (x : Binding) : Prop :=
  ∀ l, x = .lola l →
    IsMap l.events ∧ IsMap l.fields ∧ IsMap l.methods ∧ IsMap l.consumers ∧ IsMap l.providers

theorem proper_binding {i : InstDep} (h : Proper i) : ProperBinding i.binding := h.2

theorem bindingEq_iff (a b : Binding) (ha : ProperBinding a) (hb : ProperBinding b) :
    a.eq b = true ↔ SameBinding a b := by
  cases a with
  | blank => cases b <;> simp [Binding.eq, SameBinding]
  | lola l =>
    cases b with
    | blank => simp [Binding.eq, SameBinding]
    | lola r =>
      obtain ⟨a1, a2, a3, a4, a5⟩ := ha l rfl
      obtain ⟨b1, b2, b3, b4, b5⟩ := hb r rfl
      have hu : ∀ a b : List UInt32, (a == b) = true ↔ a = b := fun a b => beq_iff_eq
      simp only [Binding.eq, Lola.eq, SameBinding, Bool.and_eq_true, beq_iff_eq,
        mapEq_iff _ eventEq_iff _ _ a1 b1, mapEq_iff _ fieldEq_iff _ _ a2 b2,
        mapEq_iff _ methodEq_iff _ _ a3 b3, mapEq_iff _ hu _ _ a4 b4, mapEq_iff _ hu _ _ a5 b5]
      constructor
      · rintro ⟨⟨⟨⟨⟨⟨⟨⟨⟨h1, h2⟩, h3⟩, h4⟩, h5⟩, h6⟩, h7⟩, h8⟩, h9⟩, h10⟩
        exact ⟨h1, h2, h3, h4, h5, h6, h7, h8, h9, h10⟩
      · rintro ⟨h1, h2, h3, h4, h5, h6, h7, h8, h9, h10⟩
        exact ⟨⟨⟨⟨⟨⟨⟨⟨⟨h1, h2⟩, h3⟩, h4⟩, h5⟩, h6⟩, h7⟩, h8⟩, h9⟩, h10⟩

theorem SameBinding.refl (a : Binding) : SameBinding a a := by
  cases a with
  | blank => trivial
  | lola l => exact ⟨rfl, rfl, rfl, rfl, fun _ => rfl, fun _ => rfl, fun _ => rfl, rfl,
      fun _ => rfl, fun _ => rfl⟩

theorem SameBinding.symm {a b : Binding} (h : SameBinding a b) : SameBinding b a := by
  cases a with
  | blank => cases b with
    | blank => trivial
    | lola r => exact h
  | lola l => cases b with
    | blank => exact h
    | lola r =>
      obtain ⟨h1, h2, h3, h4, h5, h6, h7, h8, h9, h10⟩ := h
      exact ⟨h1.symm, h2.symm, h3.symm, h4.symm, fun n => (h5 n).symm, fun n => (h6 n).symm,
        fun n => (h7 n).symm, h8.symm, fun n => (h9 n).symm, fun n => (h10 n).symm⟩

theorem SameBinding.trans {a b c : Binding} (h : SameBinding a b) (g : SameBinding b c) :
    SameBinding a c := by
  cases a with
  | blank => cases b with
    | blank => exact g
    | lola r => exact h.elim
  | lola l => cases b with
    | blank => exact h.elim
    | lola r => cases c with
      | blank => exact g
      | lola s =>
        obtain ⟨h1, h2, h3, h4, h5, h6, h7, h8, h9, h10⟩ := h
        obtain ⟨g1, g2, g3, g4, g5, g6, g7, g8, g9, g10⟩ := g
        exact ⟨h1.trans g1, h2.trans g2, h3.trans g3, h4.trans g4, fun n => (h5 n).trans (g5 n),
          fun n => (h6 n).trans (g6 n), fun n => (h7 n).trans (g7 n), h8.trans g8,
          fun n => (h9 n).trans (g9 n), fun n => (h10 n).trans (g10 n)⟩

theorem serviceEq_iff (a b : Service) : a.eq b = true ↔ a = b := by
  obtain ⟨n, ⟨x, y⟩⟩ := a
  obtain ⟨m, ⟨u, v⟩⟩ := b
  simp [Service.eq]

theorem identEq_iff (a b : Ident) (ha : Proper a.inst) (hb : Proper b.inst) :
    a.eq b = true ↔ Same a.inst b.inst := by
  simp only [Ident.eq, InstDep.eq, Bool.and_eq_true, serviceEq_iff, beq_iff_eq,
    bindingEq_iff _ _ (proper_binding ha) (proper_binding hb), Same]

theorem idLt_iff (a b : Option UInt16) : idLt a b = true ↔ IdBefore a b := by
  cases a <;> cases b <;> simp [idLt, IdBefore]

theorem bindingLt_iff (a b : Binding) : a.lt b = true ↔ BindingBefore a b := by
  cases a <;> cases b <;> simp [Binding.lt, BindingBefore, Lola.lt, idLt_iff]

theorem serviceLt_iff (a b : Service) : a.lt b = true ↔ ServiceBefore a b := by
  obtain ⟨n, ⟨x, y⟩⟩ := a
  obtain ⟨m, ⟨u, v⟩⟩ := b
  simp only [Service.lt, Version.lt, ServiceBefore]
  by_cases h : n = m
  · subst h
    simp only [beq_self_eq_true, if_true, String.lt_irrefl, true_and, false_or]
    by_cases g : x = u
    · subst g
      simp
    · simp [g]
  · simp [h]

theorem instLt_iff (a b : InstDep) (ha : Proper a) (hb : Proper b) :
    a.lt b = true ↔ (SameBinding a.binding b.binding ∧ a.asil.num < b.asil.num) ∨
      (¬ SameBinding a.binding b.binding ∧ BindingBefore a.binding b.binding) := by
  simp only [InstDep.lt]
  by_cases h : SameBinding a.binding b.binding
  · rw [if_pos ((bindingEq_iff _ _ (proper_binding ha) (proper_binding hb)).mpr h)]
    simp [h]
  · rw [if_neg (fun e => h ((bindingEq_iff _ _ (proper_binding ha) (proper_binding hb)).mp e))]
    simp [h, bindingLt_iff]

theorem ServiceBefore.irrefl (a : Service) : ¬ ServiceBefore a a := by
  rintro (h | ⟨_, h | ⟨_, h⟩⟩)
  · exact String.lt_irrefl _ h
  · exact UInt32.lt_irrefl _ h
  · exact UInt32.lt_irrefl _ h

theorem ServiceBefore.trans {a b c : Service} (h : ServiceBefore a b) (g : ServiceBefore b c) :
    ServiceBefore a c := by
  rcases h with h | ⟨h0, h⟩
  · rcases g with g | ⟨g0, g⟩
    · exact Or.inl (String.lt_trans h g)
    · exact Or.inl (g0 ▸ h)
  · rcases g with g | ⟨g0, g⟩
    · exact Or.inl (h0 ▸ g)
    · refine Or.inr ⟨h0.trans g0, ?_⟩
      rcases h with h | ⟨h1, h⟩
      · rcases g with g | ⟨g1, g⟩
        · exact Or.inl (UInt32.lt_trans h g)
        · exact Or.inl (g1 ▸ h)
      · rcases g with g | ⟨g1, g⟩
        · exact Or.inl (h1 ▸ g)
        · exact Or.inr ⟨h1.trans g1, UInt32.lt_trans h g⟩

theorem ServiceBefore.total (a b : Service) : ServiceBefore a b ∨ a = b ∨ ServiceBefore b a := by
  obtain ⟨n, ⟨x, y⟩⟩ := a
  obtain ⟨m, ⟨u, v⟩⟩ := b
  by_cases h1 : n < m
  · exact Or.inl (Or.inl h1)
  · by_cases h2 : m < n
    · exact Or.inr (Or.inr (Or.inl h2))
    · have e : n = m := String.le_antisymm (String.not_lt.mp h2) (String.not_lt.mp h1)
      subst e
      by_cases h3 : x < u
      · exact Or.inl (Or.inr ⟨rfl, Or.inl h3⟩)
      · by_cases h4 : u < x
        · exact Or.inr (Or.inr (Or.inr ⟨rfl, Or.inl h4⟩))
        · have e : x = u := UInt32.le_antisymm (UInt32.not_lt.mp h4) (UInt32.not_lt.mp h3)
          subst e
          by_cases h5 : y < v
          · exact Or.inl (Or.inr ⟨rfl, Or.inr ⟨rfl, h5⟩⟩)
          · by_cases h6 : v < y
            · exact Or.inr (Or.inr (Or.inr ⟨rfl, Or.inr ⟨rfl, h6⟩⟩))
            · have e : y = v := UInt32.le_antisymm (UInt32.not_lt.mp h6) (UInt32.not_lt.mp h5)
              subst e
              exact Or.inr (Or.inl rfl)

theorem IdBefore.irrefl (a : Option UInt16) : ¬ IdBefore a a := by
  cases a with
  | none => exact fun h => h
  | some a => exact UInt16.lt_irrefl a

theorem IdBefore.trans {a b c : Option UInt16} (h : IdBefore a b) (g : IdBefore b c) : IdBefore a c := by
  cases a <;> cases b <;> cases c <;> simp only [IdBefore] at *
  exact UInt16.lt_trans h g

theorem IdBefore.total (a b : Option UInt16) : IdBefore a b ∨ a = b ∨ IdBefore b a := by
  cases a with
  | none => cases b with
    | none => exact Or.inr (Or.inl rfl)
    | some b => exact Or.inl trivial
  | some a => cases b with
    | none => exact Or.inr (Or.inr trivial)
    | some b =>
      by_cases h1 : a < b
      · exact Or.inl h1
      · by_cases h2 : b < a
        · exact Or.inr (Or.inr h2)
        · have e : a = b := UInt16.le_antisymm (UInt16.not_lt.mp h2) (UInt16.not_lt.mp h1)
          exact Or.inr (Or.inl (by rw [e]))

theorem BindingBefore.irrefl (a : Binding) : ¬ BindingBefore a a := by
  cases a with
  | blank => exact fun h => h
  | lola l => exact IdBefore.irrefl l.id

theorem BindingBefore.trans {a b c : Binding} (h : BindingBefore a b) (g : BindingBefore b c) :
    BindingBefore a c := by
  cases a <;> cases b <;> cases c <;> simp only [BindingBefore] at *
  exact IdBefore.trans h g

theorem BindingBefore.same_left {a a' b : Binding} (e : SameBinding a a') (h : BindingBefore a b) :
    BindingBefore a' b := by
  cases a <;> cases a' <;> cases b <;> simp only [BindingBefore, SameBinding] at *
  rw [← e.id]
  exact h

theorem BindingBefore.same_right {a b b' : Binding} (e : SameBinding b b') (h : BindingBefore a b) :
    BindingBefore a b' := by
  cases a <;> cases b <;> cases b' <;> simp only [BindingBefore, SameBinding] at *
  rw [← e.id]
  exact h

theorem BindingBefore.not_same {a b : Binding} (h : BindingBefore a b) : ¬ SameBinding a b :=
  fun e => BindingBefore.irrefl b (BindingBefore.same_left e h)

theorem identLt_iff (a b : Ident) (ha : Proper a.inst) (hb : Proper b.inst) :
    a.lt b = true ↔ ServiceBefore a.inst.service b.inst.service ∨
      (a.inst.service = b.inst.service ∧
        ((SameBinding a.inst.binding b.inst.binding ∧ a.inst.asil.num < b.inst.asil.num) ∨
          BindingBefore a.inst.binding b.inst.binding)) := by
  simp only [Ident.lt, Bool.or_eq_true, Bool.and_eq_true, Bool.not_eq_true', serviceLt_iff,
    instLt_iff _ _ ha hb]
  constructor
  · rintro (h | ⟨h1, h2⟩)
    · exact Or.inl h
    · have h1' : ¬ ServiceBefore b.inst.service a.inst.service := by
        intro e
        rw [(serviceLt_iff _ _).mpr e] at h1
        simp at h1
      rcases ServiceBefore.total a.inst.service b.inst.service with h | h | h
      · exact Or.inl h
      · refine Or.inr ⟨h, ?_⟩
        rcases h2 with h2 | ⟨_, h2⟩
        · exact Or.inl h2
        · exact Or.inr h2
      · exact absurd h h1'
  · rintro (h | ⟨h1, h2⟩)
    · exact Or.inl h
    · right
      constructor
      · cases hl : b.inst.service.lt a.inst.service with
        | false => rfl
        | true =>
          rw [serviceLt_iff, h1] at hl
          exact absurd hl (ServiceBefore.irrefl _)
      · rcases h2 with h2 | h2
        · exact Or.inl h2
        · exact Or.inr ⟨BindingBefore.not_same h2, h2⟩

theorem quality_num_inj {a b : Quality} (h : a.num = b.num) : a = b := by
  cases a <;> cases b <;> simp [Quality.num] at h <;> rfl

end Verif.Ident
