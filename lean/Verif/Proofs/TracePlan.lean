import Verif.Spec.TracePlan
import Verif.Proofs.TraceAlone

/-! The maps of the trace filter and the number of slots. -/
namespace Verif.TracePlan
open Verif.TracePlanSpec

/-- The map has an entry for the trace point that lists the instance. -/
def In (m : List Entry) (e : Elem) (p : Point) (i : Nat) : Prop :=
  ∃ x ∈ m, x.elem = e ∧ x.point = p ∧ i ∈ x.instances

structure Good (m : List Entry) : Prop where
  keys : (m.map fun x => (x.elem, x.point)).Nodup
  nodup : ∀ x ∈ m, x.instances.Nodup
  some : ∀ x ∈ m, x.instances ≠ []

theorem good_nil : Good [] := ⟨List.nodup_nil, by simp, by simp⟩

theorem in_insert (e : Elem) (p : Point) (i : Nat) (e' : Elem) (p' : Point) (i' : Nat) : ∀ m,
    In (insert e p i m) e' p' i' ↔ In m e' p' i' ∨ (e' = e ∧ p' = p ∧ i' = i) := by
  intro m
  induction m with
  | nil =>
    simp only [insert, In, List.mem_singleton, List.not_mem_nil, false_and, exists_false, false_or, exists_eq_left]
    constructor
    · rintro ⟨rfl, rfl, h⟩; exact ⟨rfl, rfl, h⟩
    · rintro ⟨rfl, rfl, h⟩; exact ⟨rfl, rfl, h⟩
  | cons x xs ih =>
    unfold insert
    by_cases h : x.elem = e ∧ x.point = p
    · rw [if_pos h]
      by_cases hi : i ∈ x.instances
      · rw [if_pos hi]
        constructor
        · exact Or.inl
        · rintro (h' | ⟨rfl, rfl, rfl⟩)
          · exact h'
          · exact ⟨x, by simp, h.1, h.2, hi⟩
      · rw [if_neg hi]
        constructor
        · rintro ⟨y, hy, h1, h2, h3⟩
          rcases List.mem_cons.1 hy with rfl | hy
          · rcases List.mem_append.1 h3 with h3 | h3
            · exact Or.inl ⟨x, by simp, h1, h2, h3⟩
            · exact Or.inr ⟨h1.symm.trans h.1, h2.symm.trans h.2, by simpa using h3⟩
          · exact Or.inl ⟨y, by simp [hy], h1, h2, h3⟩
        · rintro (⟨y, hy, h1, h2, h3⟩ | ⟨rfl, rfl, rfl⟩)
          · rcases List.mem_cons.1 hy with rfl | hy
            · exact ⟨_, List.mem_cons_self .., h1, h2, by simp [h3]⟩
            · exact ⟨y, by simp [hy], h1, h2, h3⟩
          · exact ⟨_, List.mem_cons_self .., h.1, h.2, by simp⟩
    · rw [if_neg h]
      constructor
      · rintro ⟨y, hy, h1, h2, h3⟩
        rcases List.mem_cons.1 hy with rfl | hy
        · exact Or.inl ⟨y, by simp, h1, h2, h3⟩
        · rcases ih.1 ⟨y, hy, h1, h2, h3⟩ with ⟨z, hz, r⟩ | r
          · exact Or.inl ⟨z, by simp [hz], r⟩
          · exact Or.inr r
      · rintro (⟨y, hy, r⟩ | r)
        · rcases List.mem_cons.1 hy with rfl | hy
          · exact ⟨y, by simp, r⟩
          · obtain ⟨z, hz, r'⟩ := ih.2 (Or.inl ⟨y, hy, r⟩)
            exact ⟨z, by simp [hz], r'⟩
        · obtain ⟨z, hz, r'⟩ := ih.2 (Or.inr r)
          exact ⟨z, by simp [hz], r'⟩

theorem keys_insert (e : Elem) (p : Point) (i : Nat) (k : Elem × Point) : ∀ m,
    k ∈ (insert e p i m).map (fun x => (x.elem, x.point)) ↔ k ∈ m.map (fun x => (x.elem, x.point)) ∨ k = (e, p) := by
  intro m
  induction m with
  | nil => simp [insert]
  | cons x xs ih =>
    unfold insert
    by_cases h : x.elem = e ∧ x.point = p
    · rw [if_pos h]
      have : (if i ∈ x.instances then x else { x with instances := x.instances ++ [i] } : Entry).elem = x.elem ∧
          (if i ∈ x.instances then x else { x with instances := x.instances ++ [i] } : Entry).point = x.point := by
        split <;> exact ⟨rfl, rfl⟩
      simp only [List.map_cons, List.mem_cons, this]
      constructor
      · exact Or.inl
      · rintro (r | rfl)
        · exact r
        · exact Or.inl (by rw [h.1, h.2])
    · rw [if_neg h]
      simp only [List.map_cons, List.mem_cons, ih]
      constructor
      · rintro (r | r | r)
        · exact Or.inl (Or.inl r)
        · exact Or.inl (Or.inr r)
        · exact Or.inr r
      · rintro ((r | r) | r)
        · exact Or.inl r
        · exact Or.inr (Or.inl r)
        · exact Or.inr (Or.inr r)

theorem good_insert (e : Elem) (p : Point) (i : Nat) : ∀ m, Good m → Good (insert e p i m) := by
  intro m
  induction m with
  | nil => exact fun _ => ⟨by simp [insert], by simp [insert], by simp [insert]⟩
  | cons x xs ih =>
    intro h
    have hx : Good xs := ⟨(List.nodup_cons.1 h.keys).2, fun y hy => h.nodup y (by simp [hy]), fun y hy => h.some y (by simp [hy])⟩
    unfold insert
    by_cases hk : x.elem = e ∧ x.point = p
    · rw [if_pos hk]
      by_cases hi : i ∈ x.instances
      · rw [if_pos hi]; exact h
      · rw [if_neg hi]
        refine ⟨h.keys, ?_, ?_⟩
        · intro y hy
          rcases List.mem_cons.1 hy with rfl | hy
          · show (x.instances ++ [i]).Nodup
            rw [List.nodup_append]
            exact ⟨h.nodup x (by simp), by simp, by rintro a ha b hb rfl; simp at hb; subst hb; exact hi ha⟩
          · exact hx.nodup y hy
        · intro y hy
          rcases List.mem_cons.1 hy with rfl | hy
          · simp
          · exact hx.some y hy
    · rw [if_neg hk]
      have g := ih hx
      refine ⟨?_, ?_, ?_⟩
      · rw [List.map_cons, List.nodup_cons]
        refine ⟨?_, g.keys⟩
        rw [keys_insert]
        rintro (r | r)
        · exact (List.nodup_cons.1 h.keys).1 r
        · cases r; exact hk ⟨rfl, rfl⟩
      · intro y hy
        rcases List.mem_cons.1 hy with rfl | hy
        · exact h.nodup y (by simp)
        · exact g.nodup y hy
      · intro y hy
        rcases List.mem_cons.1 hy with rfl | hy
        · exact h.some y (by simp)
        · exact g.some y hy

theorem addAll_spec (e : Elem) (i : Nat) (ps : List Point) : ∀ m, Good m →
    Good (addAll e i ps m) ∧ ∀ e' p' i', In (addAll e i ps m) e' p' i' ↔ In m e' p' i' ∨ (e' = e ∧ p' ∈ ps ∧ i' = i) := by
  induction ps with
  | nil => exact fun m h => ⟨h, by simp [addAll]⟩
  | cons p ps ih =>
    intro m h
    obtain ⟨h1, h2⟩ := ih _ (good_insert e p i m h)
    refine ⟨h1, ?_⟩
    intro e' p' i'
    refine (h2 e' p' i').trans ?_
    rw [in_insert, List.mem_cons]
    grind

theorem parseElement_spec (c : Config) (x : FileEntry) (m : List Entry) (h : Good m) :
    Good (parseElement c x m) ∧ ∀ e' p' i', In (parseElement c x m) e' p' i' ↔
      In m e' p' i' ∨ (e' = x.elem ∧ p' ∈ x.points ∧ i' ∈ c.instances x.elem.service ∧ 0 < c.slots x.elem i') := by
  unfold parseElement
  generalize c.instances x.elem.service = l
  induction l generalizing m with
  | nil => exact ⟨h, by simp⟩
  | cons i l ih =>
    by_cases hi : c.tracing x.elem i
    · obtain ⟨g1, g2⟩ := addAll_spec x.elem i x.points m h
      obtain ⟨h1, h2⟩ := ih _ g1
      rw [List.foldl_cons, if_pos hi]
      refine ⟨h1, fun e' p' i' => (h2 e' p' i').trans ?_⟩
      rw [g2, List.mem_cons]
      have : 0 < c.slots x.elem i := by simpa [Config.tracing] using hi
      grind
    · obtain ⟨h1, h2⟩ := ih _ h
      rw [List.foldl_cons, if_neg hi]
      refine ⟨h1, fun e' p' i' => (h2 e' p' i').trans ?_⟩
      rw [List.mem_cons]
      have : ¬ 0 < c.slots x.elem i := by simpa [Config.tracing] using hi
      grind

theorem parse_spec (c : Config) (file : List FileEntry) (field : Bool) :
    Good (parse c file field) ∧ ∀ e p i, In (parse c file field) e p i ↔ e.field = field ∧ Asked c file e p i := by
  unfold parse Asked
  have : ∀ (l : List FileEntry) (m : List Entry), Good m →
      Good (l.foldl (fun m x => parseElement c x m) m) ∧ ∀ e p i,
        In (l.foldl (fun m x => parseElement c x m) m) e p i ↔
          In m e p i ∨ ((∃ x ∈ l, x.elem = e ∧ p ∈ x.points) ∧ i ∈ c.instances e.service ∧ 0 < c.slots e i) := by
    intro l
    induction l with
    | nil => exact fun m h => ⟨h, by simp⟩
    | cons x l ih =>
      intro m h
      obtain ⟨g1, g2⟩ := parseElement_spec c x m h
      obtain ⟨h1, h2⟩ := ih _ g1
      refine ⟨h1, fun e p i => (h2 e p i).trans ?_⟩
      rw [g2]
      simp only [List.mem_cons, exists_eq_or_imp]
      grind
  obtain ⟨h1, h2⟩ := this (file.filter fun x => x.elem.field = field) [] good_nil
  refine ⟨h1, fun e p i => (h2 e p i).trans ?_⟩
  simp only [In, List.not_mem_nil, false_and, exists_false, false_or, List.mem_filter, decide_eq_true_eq]
  grind

theorem good_perm {m m' : List Entry} (h : m.Perm m') (g : Good m') : Good m :=
  ⟨(h.map _).nodup_iff.2 g.keys, fun x hx => g.nodup x (h.mem_iff.1 hx), fun x hx => g.some x (h.mem_iff.1 hx)⟩

theorem in_perm {m m' : List Entry} (h : m.Perm m') (e : Elem) (p : Point) (i : Nat) : In m e p i ↔ In m' e p i := by
  unfold In
  simp only [h.mem_iff]

theorem key_unique : ∀ {m : List Entry}, (m.map fun x => (x.elem, x.point)).Nodup → ∀ x ∈ m, ∀ y ∈ m, x.elem = y.elem →
    x.point = y.point → x = y := by
  intro m
  induction m with
  | nil => simp
  | cons z m ih =>
    intro h x hx y hy he hp
    rw [List.map_cons, List.nodup_cons] at h
    rcases List.mem_cons.1 hx with rfl | hx' <;> rcases List.mem_cons.1 hy with rfl | hy'
    · rfl
    · exact absurd (List.mem_map.2 ⟨y, hy', by rw [he, hp]⟩) h.1
    · exact absurd (List.mem_map.2 ⟨x, hx', by rw [he, hp]⟩) h.1
    · exact ih h.2 x hx' y hy' he hp

theorem enabled_in {m : List Entry} (g : Good m) (e : Elem) (p : Point) (i : Nat) : enabled m e p i = true ↔ In m e p i := by
  unfold enabled
  cases hf : m.find? fun x => x.elem = e ∧ x.point = p with
  | none =>
    rw [List.find?_eq_none] at hf
    constructor
    · intro h; cases h
    · rintro ⟨x, hx, h1, h2, _⟩; exact absurd (by simp [h1, h2]) (hf x hx)
  | some x =>
    have hx := List.mem_of_find?_eq_some hf
    have hk := List.find?_some hf
    simp only [decide_eq_true_eq] at hk
    constructor
    · intro h; exact ⟨x, hx, hk.1, hk.2, by simpa using h⟩
    · rintro ⟨y, hy, h1, h2, h3⟩
      have := key_unique g.keys x hx y hy (hk.1.trans h1.symm) (hk.2.trans h2.symm)
      subst this
      simpa using h3

/-! ## The number of slots -/

/-- The pairs that `find` counts. -/
def pairs : List Entry → List Elem → List (Elem × Nat)
  | [], _ => []
  | x :: xs, seen =>
    if !x.point.needsSlot then pairs xs seen
    else if x.elem ∈ seen then pairs xs seen
    else x.instances.map (fun i => (x.elem, i)) ++ pairs xs (x.elem :: seen)

theorem find_pairs (c : Config) : ∀ (m : List Entry) (seen : List Elem), (find c m seen).1 = needed c (pairs m seen) := by
  intro m
  induction m with
  | nil => exact fun _ => rfl
  | cons x xs ih =>
    intro seen
    unfold find pairs
    split
    · exact ih seen
    · split
      · exact ih seen
      · dsimp only
        rw [ih]
        simp [needed, List.sum_append, List.map_map, Function.comp_def]

theorem find_seen (c : Config) : ∀ (m : List Entry) (seen : List Elem) (e : Elem), e ∈ (find c m seen).2 →
    e ∈ seen ∨ ∃ x ∈ m, x.elem = e := by
  intro m
  induction m with
  | nil => exact fun _ _ h => Or.inl h
  | cons x xs ih =>
    intro seen e h
    unfold find at h
    have lift : (e ∈ seen ∨ ∃ y ∈ xs, y.elem = e) → e ∈ seen ∨ ∃ y ∈ x :: xs, y.elem = e := by
      rintro (r | ⟨y, hy, r⟩)
      · exact Or.inl r
      · exact Or.inr ⟨y, by simp [hy], r⟩
    split at h
    · exact lift (ih _ _ h)
    · split at h
      · exact lift (ih _ _ h)
      · rcases ih _ _ h with r | ⟨y, hy, r⟩
        · rcases List.mem_cons.1 r with rfl | r
          · exact Or.inr ⟨x, by simp, rfl⟩
          · exact Or.inl r
        · exact Or.inr ⟨y, by simp [hy], r⟩

/-- All trace points of an element that need slots list the same instances. -/
def Same (m : List Entry) : Prop := ∀ x ∈ m, ∀ y ∈ m, x.point.needsSlot = true → y.point.needsSlot = true →
  x.elem = y.elem → ∀ i, i ∈ x.instances → i ∈ y.instances

theorem mem_pairs : ∀ (m : List Entry) (seen : List Elem), Same m → ∀ e i, (e, i) ∈ pairs m seen ↔
    e ∉ seen ∧ ∃ x ∈ m, x.point.needsSlot = true ∧ x.elem = e ∧ i ∈ x.instances := by
  intro m
  induction m with
  | nil => intro seen _ e i; simp [pairs]
  | cons x xs ih =>
    intro seen h e i
    have hs : Same xs := fun a ha b hb => h a (by simp [ha]) b (by simp [hb])
    unfold pairs
    by_cases hn : x.point.needsSlot = true
    · rw [if_neg (by simp [hn])]
      by_cases hx : x.elem ∈ seen
      · rw [if_pos hx, ih seen hs]
        constructor
        · rintro ⟨h1, y, hy, r⟩; exact ⟨h1, y, by simp [hy], r⟩
        · rintro ⟨h1, y, hy, r⟩
          rcases List.mem_cons.1 hy with rfl | hy
          · rw [r.2.1] at hx; exact absurd hx h1
          · exact ⟨h1, y, hy, r⟩
      · rw [if_neg hx, List.mem_append, ih _ hs]
        constructor
        · rintro (r | ⟨h1, y, hy, r⟩)
          · obtain ⟨j, hj, hej⟩ := List.mem_map.1 r
            cases hej
            exact ⟨hx, x, by simp, hn, rfl, hj⟩
          · exact ⟨fun hc => h1 (by simp [hc]), y, by simp [hy], r⟩
        · rintro ⟨h1, y, hy, r1, r2, r3⟩
          by_cases he : e = x.elem
          · exact Or.inl (List.mem_map.2 ⟨i, h y hy x (by simp) r1 hn (r2.trans he) i r3, by rw [he]⟩)
          · refine Or.inr ⟨by simp [he, h1], y, ?_, r1, r2, r3⟩
            rcases List.mem_cons.1 hy with rfl | hy
            · exact absurd r2.symm he
            · exact hy
    · rw [if_pos (by simpa using hn), ih seen hs]
      constructor
      · rintro ⟨h1, y, hy, r⟩; exact ⟨h1, y, by simp [hy], r⟩
      · rintro ⟨h1, y, hy, r⟩
        rcases List.mem_cons.1 hy with rfl | hy
        · exact absurd r.1 hn
        · exact ⟨h1, y, hy, r⟩

theorem pairs_not_seen : ∀ (m : List Entry) (seen : List Elem) (p : Elem × Nat), p ∈ pairs m seen → p.1 ∉ seen := by
  intro m
  induction m with
  | nil => simp [pairs]
  | cons x xs ih =>
    intro seen p h
    unfold pairs at h
    split at h
    · exact ih _ _ h
    · split at h
      · exact ih _ _ h
      · rename_i hx
        rcases List.mem_append.1 h with h | h
        · obtain ⟨j, _, rfl⟩ := List.mem_map.1 h; exact hx
        · exact fun hc => ih _ _ h (by simp [hc])

theorem pairs_nodup : ∀ (m : List Entry) (seen : List Elem), (∀ x ∈ m, x.instances.Nodup) → (pairs m seen).Nodup := by
  intro m
  induction m with
  | nil => intro _ _; exact List.nodup_nil
  | cons x xs ih =>
    intro seen h
    have h' : ∀ y ∈ xs, y.instances.Nodup := fun y hy => h y (by simp [hy])
    unfold pairs
    split
    · exact ih _ h'
    · split
      · exact ih _ h'
      · rw [List.nodup_append]
        refine ⟨?_, ih _ h', ?_⟩
        · have hx := h x (by simp)
          rw [List.Nodup, List.pairwise_map]
          exact hx.imp (fun hne hc => hne (by cases hc; rfl))
        · rintro a ha b hb rfl
          obtain ⟨j, _, rfl⟩ := List.mem_map.1 ha
          exact pairs_not_seen _ _ _ hb (by simp)

theorem same_of_asked {c : Config} {file : List FileEntry} {field : Bool} {m : List Entry} (g : Good m)
    (h : ∀ e p i, In m e p i ↔ e.field = field ∧ Asked c file e p i) : Same m := by
  intro x hx y hy _ _ he i hi
  obtain ⟨hf, h1, h2, h3⟩ := (h x.elem x.point i).1 ⟨x, hx, rfl, rfl, hi⟩
  obtain ⟨j, hj⟩ := List.exists_mem_of_ne_nil _ (g.some y hy)
  obtain ⟨_, k1, _, _⟩ := (h y.elem y.point j).1 ⟨y, hy, rfl, rfl, hj⟩
  obtain ⟨z, hz, z1, z2, z3⟩ := (h y.elem y.point i).2 ⟨he ▸ hf, k1, he ▸ h2, he ▸ h3⟩
  rw [← key_unique g.keys z hz y hy z1 z2]; exact z3

/-- All pairs that are counted. -/
def counted (c : Config) (events fields : List Entry) : List (Elem × Nat) :=
  pairs events [] ++ pairs fields (find c events []).2

theorem number_counted (c : Config) (events fields : List Entry) : number c events fields =
    if needed c (counted c events fields) > 65535 then none else some (needed c (counted c events fields)) := by
  have : needed c (counted c events fields) = (find c events []).1 + (find c fields (find c events []).2).1 := by
    rw [find_pairs, find_pairs]; simp [needed, counted, List.sum_append]
  rw [this]; rfl

theorem sends_iff {c : Config} {file : List FileEntry} {field : Bool} {m : List Entry}
    (h : ∀ e p i, In m e p i ↔ e.field = field ∧ Asked c file e p i) (e : Elem) (i : Nat) :
    (∃ x ∈ m, x.point.needsSlot = true ∧ x.elem = e ∧ i ∈ x.instances) ↔ e.field = field ∧ SendsTraced c file e i := by
  constructor
  · rintro ⟨x, hx, h1, h2, h3⟩
    have := (h e x.point i).1 ⟨x, hx, h2, rfl, h3⟩
    refine ⟨this.1, ?_⟩
    cases hp : x.point with
    | send => rw [hp] at this; exact Or.inl this.2
    | sendAllocated => rw [hp] at this; exact Or.inr this.2
    | other n => rw [hp] at h1; cases h1
  · rintro ⟨hf, hs | hs⟩
    · obtain ⟨x, hx, h1, h2, h3⟩ := (h e .send i).2 ⟨hf, hs⟩
      exact ⟨x, hx, by rw [h2]; rfl, h1, h3⟩
    · obtain ⟨x, hx, h1, h2, h3⟩ := (h e .sendAllocated i).2 ⟨hf, hs⟩
      exact ⟨x, hx, by rw [h2]; rfl, h1, h3⟩

structure Read (c : Config) (file : List FileEntry) (events fields : List Entry) : Prop where
  goodE : Good events
  goodF : Good fields
  inE : ∀ e p i, In events e p i ↔ e.field = false ∧ Asked c file e p i
  inF : ∀ e p i, In fields e p i ↔ e.field = true ∧ Asked c file e p i

theorem read_maps {c : Config} {file : List FileEntry} {events fields : List Entry} (h : Maps c file events fields) :
    Read c file events fields :=
  ⟨good_perm h.events (parse_spec c file false).1, good_perm h.fields (parse_spec c file true).1,
    fun e p i => (in_perm h.events e p i).trans ((parse_spec c file false).2 e p i),
    fun e p i => (in_perm h.fields e p i).trans ((parse_spec c file true).2 e p i)⟩

theorem counted_spec {c : Config} {file : List FileEntry} {events fields : List Entry} (h : Read c file events fields) :
    (counted c events fields).Nodup ∧ ∀ e i, (e, i) ∈ counted c events fields ↔ SendsTraced c file e i := by
  have sE := same_of_asked h.goodE h.inE
  have sF := same_of_asked h.goodF h.inF
  have mE := fun e i => (mem_pairs events [] sE e i)
  have mF := fun e i => (mem_pairs fields (find c events []).2 sF e i)
  have unseen : ∀ e, e.field = true → e ∉ (find c events []).2 := by
    intro e he hm
    rcases find_seen c events [] e hm with r | ⟨x, hx, rfl⟩
    · cases r
    · obtain ⟨i, hi⟩ := List.exists_mem_of_ne_nil _ (h.goodE.some x hx)
      have := ((h.inE x.elem x.point i).1 ⟨x, hx, rfl, rfl, hi⟩).1
      rw [he] at this; cases this
  constructor
  · unfold counted
    rw [List.nodup_append]
    refine ⟨pairs_nodup _ _ h.goodE.nodup, pairs_nodup _ _ h.goodF.nodup, ?_⟩
    rintro ⟨e, i⟩ ha _ hb rfl
    have h1 := ((sends_iff h.inE e i).1 ((mE e i).1 ha).2).1
    have h2 := ((sends_iff h.inF e i).1 ((mF e i).1 hb).2).1
    rw [h1] at h2; cases h2
  · intro e i
    unfold counted
    rw [List.mem_append, mE, mF, sends_iff h.inE, sends_iff h.inF]
    constructor
    · rintro (⟨_, _, r⟩ | ⟨_, _, r⟩) <;> exact r
    · intro r
      cases hf : e.field with
      | false => exact Or.inl ⟨by simp, rfl, r⟩
      | true => exact Or.inr ⟨unseen e hf, rfl, r⟩

theorem needed_le (c : Config) : ∀ (l P : List (Elem × Nat)), l.Nodup → (∀ x ∈ l, x ∈ P) → needed c l ≤ needed c P := by
  intro l
  induction l with
  | nil => intro P _ _; simp [needed]
  | cons x l ih =>
    intro P hn hs
    rw [List.nodup_cons] at hn
    have hx := hs x (by simp)
    have := ih (P.erase x) hn.2 (fun y hy => by
      have hne : y ≠ x := fun hc => hn.1 (hc ▸ hy)
      exact (List.mem_erase_of_ne hne).2 (hs y (by simp [hy])))
    have hp : needed c P = needed c (x :: P.erase x) := by
      unfold needed
      exact ((List.perm_cons_erase hx).map _).sum_nat
    rw [hp]
    simp only [needed, List.map_cons, List.sum_cons] at this ⊢
    omega

theorem create_spec {c : Config} {file : List FileEntry} {events fields : List Entry} (h : Read c file events fields)
    (e : Elem) (i : Nat) : (SendsTraced c file e i → create c events fields e i = some (.register (c.slots e i))) ∧
      (¬ SendsTraced c file e i → create c events fields e i = none) := by
  have key : (enabled (if e.field then fields else events) e .send i ||
      enabled (if e.field then fields else events) e .sendAllocated i) = true ↔ SendsTraced c file e i := by
    unfold SendsTraced
    rw [Bool.or_eq_true]
    cases hf : e.field with
    | false =>
      simp only [Bool.false_eq_true, if_false]
      rw [enabled_in h.goodE, enabled_in h.goodE, h.inE, h.inE, hf]; simp
    | true =>
      simp only [if_true]
      rw [enabled_in h.goodF, enabled_in h.goodF, h.inF, h.inF, hf]; simp
  unfold create
  dsimp only
  constructor
  · intro hs; rw [if_pos (key.2 hs)]
  · intro hs; rw [if_neg (fun hc => hs (key.1 hc))]

theorem asked_creations {c : Config} {file : List FileEntry} {events fields : List Entry} (h : Read c file events fields)
    (list : List (Elem × Nat)) : ∃ l : List (Elem × Nat), l.Sublist list ∧ (∀ p ∈ l, SendsTraced c file p.1 p.2) ∧
      TraceSlotsSpec.asked (creations c events fields list) = l.map fun p => c.slots p.1 p.2 := by
  induction list with
  | nil => exact ⟨[], List.Sublist.refl _, by simp, rfl⟩
  | cons p list ih =>
    obtain ⟨l, h1, h2, h3⟩ := ih
    by_cases hs : SendsTraced c file p.1 p.2
    · refine ⟨p :: l, h1.cons_cons p, ?_, ?_⟩
      · intro q hq
        rcases List.mem_cons.1 hq with rfl | hq
        · exact hs
        · exact h2 q hq
      · have := (create_spec h p.1 p.2).1 hs
        unfold creations at h3 ⊢
        rw [List.filterMap_cons, this, List.map_cons, ← h3]; rfl
    · refine ⟨l, h1.cons p, h2, ?_⟩
      have := (create_spec h p.1 p.2).2 hs
      unfold creations at h3 ⊢
      rw [List.filterMap_cons, this, h3]

end Verif.TracePlan
