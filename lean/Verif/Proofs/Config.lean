import Verif.Spec.Config
import Verif.Proofs.IdentCreate

namespace Verif.Config
open Verif.Json Verif.Ident Verif.Spec.Ident Verif.Spec.Config

/-! ### Maps -/

section
variable {κ α : Type} [DecidableEq κ]

theorem find_emplace (m : List (κ × α)) (k : κ) (v : α) (k' : κ) :
    find (emplace m k v) k' = (find m k').or (if k' = k then some v else none) := by
  unfold emplace
  split
  · rename_i x hx
    by_cases h : k' = k
    · subst h; simp [hx]
    · simp [h]
  · rw [find_append]
    congr 1
    by_cases h : k' = k
    · simp [find, h]
    · simp [find, h, Ne.symm h]

theorem find_emplaceAll (l : List (κ × α)) : ∀ (m : List (κ × α)) (k : κ),
    find (emplaceAll m l) k = (find m k).or (find l k) := by
  induction l with
  | nil => intro m k; simp [emplaceAll, find]
  | cons p l ih =>
    intro m k
    obtain ⟨a, v⟩ := p
    rw [emplaceAll, ih, find_emplace, Option.or_assoc]
    congr 1
    by_cases h : a = k
    · simp [find, h]
    · simp [find, h, Ne.symm h]

theorem find_flattenTo (l : List (List (κ × α))) : ∀ (m : List (κ × α)) (k : κ),
    find (flattenTo m l) k = (find m k).or (lookup l k) := by
  induction l with
  | nil => intro m k; simp [flattenTo, lookup]
  | cons g l ih =>
    intro m k
    rw [flattenTo, ih, find_emplaceAll, Option.or_assoc]
    congr 1
    rw [lookup]
    cases find g k <;> rfl

/-- The map of all entries has what a lookup finds. -/
theorem find_flatten (l : List (List (κ × α))) (k : κ) : find (flatten l) k = lookup l k := by
  rw [flatten, find_flattenTo]; rfl

theorem isMap_emplace {m : List (κ × α)} (h : IsMap m) (k : κ) (v : α) : IsMap (emplace m k v) := by
  unfold emplace
  split
  · exact h
  · rename_i hn
    unfold IsMap at h ⊢
    rw [List.map_append, List.nodup_append]
    refine ⟨h, by simp, ?_⟩
    intro a ha b hb
    simp only [List.map_cons, List.map_nil, List.mem_singleton] at hb
    subst hb
    intro e
    subst e
    exact (find_none_iff m _).mp hn ha

theorem isMap_emplaceAll (l : List (κ × α)) : ∀ m : List (κ × α), IsMap m → IsMap (emplaceAll m l) := by
  induction l with
  | nil => intro m h; exact h
  | cons p l ih => intro m h; exact ih _ (isMap_emplace h p.1 p.2)

theorem isMap_flattenTo (l : List (List (κ × α))) : ∀ m : List (κ × α), IsMap m → IsMap (flattenTo m l) := by
  induction l with
  | nil => intro m h; exact h
  | cons g l ih => intro m h; exact ih _ (isMap_emplaceAll g m h)

theorem isMap_flatten (l : List (List (κ × α))) : IsMap (flatten l) :=
  isMap_flattenTo l [] (by simp [IsMap])

/-- The entries of the map are those that a lookup finds. -/
theorem mem_flatten (l : List (List (κ × α))) (k : κ) (v : α) :
    (k, v) ∈ flatten l ↔ lookup l k = some v := by
  rw [← find_flatten]
  exact ⟨fun h => find_of_mem (isMap_flatten l) h, fun h => find_mem h⟩

/-! ### Merging -/

theorem collectNew_none (current : List (List (κ × α))) (l : List (κ × α)) : ∀ new,
    collectNew current new l = none ↔ ∃ k v, (k, v) ∈ l ∧ lookup current k ≠ none := by
  induction l with
  | nil => intro new; simp [collectNew]
  | cons p l ih =>
    intro new
    obtain ⟨a, v⟩ := p
    rw [collectNew]
    by_cases h : known current a = true
    · rw [if_pos h]
      rw [known_eq] at h
      refine ⟨fun _ => ⟨a, v, by simp, fun e => by simp [e] at h⟩, fun _ => rfl⟩
    · rw [if_neg h, ih]
      rw [known_eq] at h
      have h' : lookup current a = none := by
        cases hl : lookup current a with
        | none => rfl
        | some x => simp [hl] at h
      constructor
      · rintro ⟨k, w, hm, hk⟩; exact ⟨k, w, by simp [hm], hk⟩
      · rintro ⟨k, w, hm, hk⟩
        rcases List.mem_cons.mp hm with e | hm
        · injection e with e1 _; subst e1; exact absurd h' hk
        · exact ⟨k, w, hm, hk⟩

theorem find_collectNew (current : List (List (κ × α))) (l : List (κ × α)) : ∀ new new',
    collectNew current new l = some new' → ∀ k, find new' k = (find new k).or (find l k) := by
  induction l with
  | nil =>
    intro new new' h k
    simp only [collectNew, Option.some.injEq] at h
    subst h
    simp [find]
  | cons p l ih =>
    intro new new' h k
    obtain ⟨a, v⟩ := p
    rw [collectNew] at h
    split at h
    · cases h
    · rw [ih _ _ h k, find_emplace, Option.or_assoc]
      congr 1
      by_cases e : a = k
      · simp [find, e]
      · simp [find, e, Ne.symm e]

theorem lookup_publish (current : List (List (κ × α))) (new : List (κ × α)) (k : κ) :
    lookup (publish current new) k = (find new k).or (lookup current k) := by
  unfold publish
  split
  · rename_i h
    rw [List.isEmpty_iff] at h
    subst h; simp [find]
  · rw [lookup]
    cases find new k <;> rfl

theorem mergeMaps_none (current additional : List (List (κ × α))) :
    mergeMaps current additional = none ↔ ∃ k, lookup additional k ≠ none ∧ lookup current k ≠ none := by
  unfold mergeMaps
  constructor
  · intro h
    split at h
    · rename_i hn
      obtain ⟨k, v, hm, hk⟩ := (collectNew_none _ _ _).mp hn
      exact ⟨k, by rw [(mem_flatten _ _ _).mp hm]; simp, hk⟩
    · cases h
  · rintro ⟨k, ha, hc⟩
    obtain ⟨v, hv⟩ := Option.ne_none_iff_exists'.mp ha
    have : collectNew current [] (flatten additional) = none :=
      (collectNew_none _ _ _).mpr ⟨k, v, (mem_flatten _ _ _).mpr hv, hc⟩
    rw [this]

theorem mergeMaps_some {current additional l : List (List (κ × α))}
    (h : mergeMaps current additional = some l) (k : κ) :
    lookup l k = (lookup current k).or (lookup additional k) := by
  have hn : ¬ ∃ k, lookup additional k ≠ none ∧ lookup current k ≠ none := by
    rw [← mergeMaps_none, h]; simp
  unfold mergeMaps at h
  split at h
  · cases h
  · rename_i new hnew
    injection h with h
    subst h
    rw [lookup_publish, find_collectNew _ _ _ _ hnew]
    simp only [find, Option.none_or, find_flatten]
    cases ha : lookup additional k with
    | none => simp
    | some v =>
      have hc : lookup current k = none := by
        cases hc : lookup current k with
        | none => rfl
        | some w => exact absurd ⟨k, by simp [ha], by simp [hc]⟩ hn
      simp [hc]

theorem mergeMaps_ne_nil {current additional l : List (List (κ × α))} (hc : current ≠ [])
    (h : mergeMaps current additional = some l) : l ≠ [] := by
  unfold mergeMaps at h
  split at h
  · cases h
  · injection h with h
    subst h
    unfold publish
    split
    · exact hc
    · simp

end

/-! ### Validating -/

theorem find_names {α : Type} (l : List (String × α)) (n : String) :
    (find l n).isSome = true ↔ n ∈ l.map Prod.fst := by
  cases h : find l n with
  | none => simp only [Option.isSome_none, Bool.false_eq_true, false_iff]; exact (find_none_iff l n).mp h
  | some v =>
    simp only [Option.isSome_some, true_iff]
    exact List.mem_map.mpr ⟨(n, v), find_mem h, rfl⟩

theorem allIn_iff {α : Type} (l : List (String × α)) (t : List (String × UInt16)) :
    allIn l t = true ↔ NamesIn l t := by
  unfold allIn NamesIn
  rw [List.all_eq_true]
  constructor
  · intro h n hn
    obtain ⟨p, hp, e⟩ := List.mem_map.mp hn
    subst e
    exact (find_names t p.1).mp (h p hp)
  · intro h p hp
    exact (find_names t p.1).mpr (h p.1 (List.mem_map.mpr ⟨p, hp, rfl⟩))

theorem checkAsil_none (q : Quality) (i : InstDep) : checkAsil q i = none ↔ (i.asil = .b → q = .b) := by
  unfold checkAsil
  cases i.asil <;> cases q <;> simp (decide := true)

theorem checkType_none (types : List (Service × TypeDep)) (i : InstDep) :
    checkType types i = none ↔ ∃ t, find types i.service = some t ∧ Fits i t := by
  unfold checkType Fits
  cases hf : find types i.service with
  | none => simp
  | some t =>
    cases hb : i.binding with
    | blank => simp
    | lola d =>
      cases t with
      | blank => simp
      | lola l =>
        simp only [Option.some.injEq, Binding.lola.injEq]
        by_cases he : allIn d.events l.events = true
        · by_cases hf : allIn d.fields l.fields = true
          · simp only [he, hf]
            refine ⟨fun _ => ⟨.lola l, rfl, d, l, rfl, rfl, (allIn_iff _ _).mp he, (allIn_iff _ _).mp hf⟩, fun _ => rfl⟩
          · simp only [he, hf]
            refine ⟨fun h => by simp at h, ?_⟩
            rintro ⟨t, e, d', l', e1, e2, -, h⟩
            subst e; subst e1; injection e2 with e2; subst e2
            exact absurd ((allIn_iff _ _).mpr h) hf
        · simp only [he]
          refine ⟨fun h => by simp at h, ?_⟩
          rintro ⟨t, e, d', l', e1, e2, h, -⟩
          subst e; subst e1; injection e2 with e2; subst e2
          exact absurd ((allIn_iff _ _).mpr h) he

theorem validate_none (c : Config) : validate c = none ↔ Consistent c := by
  unfold validate Consistent InOrder
  have h1 : (flatten c.insts).findSome? (fun p => checkAsil c.asil p.2) = none ↔
      ∀ name i, instanceOf c name = some i → (i.asil = .b → c.asil = .b) := by
    rw [List.findSome?_eq_none_iff]
    constructor
    · intro h name i hi
      exact (checkAsil_none _ _).mp (h (name, i) ((mem_flatten _ _ _).mpr hi))
    · rintro h ⟨name, i⟩ hm
      exact (checkAsil_none _ _).mpr (h name i ((mem_flatten _ _ _).mp hm))
  have h2 : (flatten c.insts).findSome? (fun p => checkType (flatten c.types) p.2) = none ↔
      ∀ name i, instanceOf c name = some i → ∃ t, typeOf c i.service = some t ∧ Fits i t := by
    rw [List.findSome?_eq_none_iff]
    constructor
    · intro h name i hi
      have := (checkType_none _ _).mp (h (name, i) ((mem_flatten _ _ _).mpr hi))
      rw [find_flatten] at this
      exact this
    · rintro h ⟨name, i⟩ hm
      refine (checkType_none _ _).mpr ?_
      rw [find_flatten]
      exact h name i ((mem_flatten _ _ _).mp hm)
  split
  · rename_i e he
    constructor
    · intro h; cases h
    · intro h
      rw [h1.mpr (fun n i hi => (h n i hi).1)] at he; cases he
  · rename_i he
    have h1 := h1.mp he
    rw [h2]
    exact ⟨fun h n i hi => ⟨h1 n i hi, h n i hi⟩, fun h n i hi => (h n i hi).2⟩

/-! ### Merging two configurations -/

theorem merge_ok_iff (c add : Config) : (merge c add).1 = .ok ↔ NoClash c add := by
  have key : ∀ {κ α : Type} [DecidableEq κ] (a b : List (List (κ × α))),
      mergeMaps a b = none ↔ ¬ ∀ k, lookup b k ≠ none → lookup a k = none := by
    intro κ α _ a b
    rw [mergeMaps_none]
    constructor
    · rintro ⟨k, h1, h2⟩ h; exact h2 (h k h1)
    · intro h
      apply Classical.byContradiction
      intro hn
      apply h
      intro k hk
      apply Classical.byContradiction
      intro h2
      exact hn ⟨k, hk, h2⟩
  unfold merge NoClash typeOf instanceOf
  split
  · rename_i h
    have := (key _ _).mp h
    constructor
    · intro h; cases h
    · intro h; exact absurd h.1 this
  · rename_i types h
    have h1 : ∀ k, lookup add.types k ≠ none → lookup c.types k = none := by
      apply Classical.byContradiction
      intro hn
      rw [(key _ _).mpr hn] at h; cases h
    split
    · rename_i h2
      have := (key _ _).mp h2
      constructor
      · intro h; cases h
      · intro h; exact absurd h.2 this
    · rename_i insts h2
      refine ⟨fun _ => ⟨h1, ?_⟩, fun _ => rfl⟩
      apply Classical.byContradiction
      intro hn
      rw [(key _ _).mpr hn] at h2; cases h2

theorem merge_union {c add : Config} (h : (merge c add).1 = .ok) : IsUnion c add (merge c add).2 := by
  unfold merge at h ⊢
  split at h
  · cases h
  · rename_i types ht
    split at h
    · cases h
    · rename_i insts hi
      exact ⟨rfl, fun s => mergeMaps_some ht s, fun n => mergeMaps_some hi n⟩

theorem merge_keeps (c add : Config) : Keeps c (merge c add).2 := by
  have key : ∀ {κ α : Type} [DecidableEq κ] {a b l : List (List (κ × α))}, mergeMaps a b = some l →
      ∀ k v, lookup a k = some v → lookup l k = some v := by
    intro κ α _ a b l h k v hv
    rw [mergeMaps_some h, hv]; rfl
  unfold merge
  split
  · exact ⟨fun _ _ h => h, fun _ _ h => h⟩
  · rename_i types ht
    split
    · exact ⟨fun s t h => key ht s t h, fun _ _ h => h⟩
    · rename_i insts hi
      exact ⟨fun s t h => key ht s t h, fun n i h => key hi n i h⟩

theorem Keeps.refl (c : Config) : Keeps c c := ⟨fun _ _ h => h, fun _ _ h => h⟩

theorem Keeps.trans {a b c : Config} (h : Keeps a b) (k : Keeps b c) : Keeps a c :=
  ⟨fun s t e => k.1 s t (h.1 s t e), fun n i e => k.2 n i (h.2 n i e)⟩

theorem IsUnion.consistent_iff {c add c' : Config} (h : IsUnion c add c') (hn : NoClash c add)
    (hc : Consistent c) : Consistent c' ↔ ∀ name i, instanceOf add name = some i → InOrder (typesOfBoth c add) c.asil i := by
  obtain ⟨ha, ht, hi⟩ := h
  have hty : typeOf c' = typesOfBoth c add := funext ht
  unfold Consistent
  rw [hty, ha]
  constructor
  · intro h name i hadd
    have hcn := hn.2 name (by rw [hadd]; simp)
    exact h name i (by rw [hi, hcn, hadd]; rfl)
  · intro h name i hex
    rw [hi] at hex
    cases hcn : instanceOf c name with
    | none => rw [hcn] at hex; exact h name i (by simpa using hex)
    | some j =>
      rw [hcn] at hex
      simp only [Option.some_or, Option.some.injEq] at hex
      subst hex
      obtain ⟨h1, t, h2, h3⟩ := hc name j hcn
      exact ⟨h1, t, by unfold typesOfBoth; rw [h2]; rfl, h3⟩

theorem addon_some {c add c' : Config} : addon c add = some c' ↔
    NoClash c add ∧ c' = (merge c add).2 ∧ Consistent c' := by
  unfold addon
  rw [← merge_ok_iff]
  split
  · rename_i c1 h1
    rw [h1]
    split
    · rename_i hv
      simp only [Option.some.injEq, true_and]
      constructor
      · rintro rfl; exact ⟨rfl, (validate_none _).mp hv⟩
      · rintro ⟨rfl, -⟩; rfl
    · rename_i e hv
      simp only [reduceCtorEq, true_and, false_iff]
      rintro ⟨rfl, h⟩
      rw [(validate_none _).mpr h] at hv; cases hv
  · rename_i h1
    constructor
    · intro h; cases h
    · rintro ⟨h, -⟩
      exact absurd (Prod.ext h rfl : merge c add = (.ok, (merge c add).2)) (h1 _)

theorem usable_merge {c add : Config} (h : Usable c) : Usable (merge c add).2 := by
  unfold merge
  split
  · exact h
  · rename_i types ht
    split
    · exact ⟨mergeMaps_ne_nil h.1 ht, h.2⟩
    · rename_i insts hi
      exact ⟨mergeMaps_ne_nil h.1 ht, mergeMaps_ne_nil h.2 hi⟩

theorem change_keeps {c c' : Config} {x : Change} (h : change c x = some c') : Keeps c c' := by
  cases x with
  | addon add =>
    obtain ⟨-, e, -⟩ := addon_some.mp h
    subst e
    exact merge_keeps c add
  | create text =>
    simp only [change] at h
    split at h
    · rename_i c1 x hc
      injection h with h
      subst h
      obtain ⟨c0, o, e0, -, -, -, ht, hi, -⟩ := create_ok_inv hc
      injection e0 with e0
      subst e0
      obtain ⟨-, -, hk1, hl1⟩ := addEntry_inv ht
      obtain ⟨-, -, hk2, hl2⟩ := addEntry_inv hi
      refine ⟨fun s t hs => ?_, fun n i hn => ?_⟩
      · unfold typeOf at hs ⊢
        rw [hl1, if_neg]
        · exact hs
        · rintro rfl; rw [hk1] at hs; cases hs
      · unfold instanceOf at hn ⊢
        rw [hl2, if_neg]
        · exact hn
        · rintro rfl; rw [hk2] at hn; cases hn
    · cases h
    · injection h with h; subst h; exact Keeps.refl _
    · injection h with h; subst h; exact Keeps.refl _

theorem changes_keeps (l : List Change) : ∀ {c c' : Config}, changes c l = some c' → Keeps c c' := by
  induction l with
  | nil => intro c c' h; simp only [changes, Option.some.injEq] at h; subst h; exact Keeps.refl _
  | cons x l ih =>
    intro c c' h
    rw [changes] at h
    split at h
    · cases h
    · rename_i c1 h1
      exact Keeps.trans (change_keeps h1) (ih h)

end Verif.Config
