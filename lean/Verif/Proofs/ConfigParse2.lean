import Verif.Proofs.ConfigParse

/-! Lemmas for C117: names, users, instances. -/
namespace Verif.ConfigParse
open Verif.Json Verif.Ident Verif.ConfigSays

/-! ### Names -/

theorem hasDoubleSlash_iff : ∀ l : List Char,
    hasDoubleSlash l = true ↔ ∃ p q, l = p ++ '/' :: '/' :: q
  | [] => by simp [hasDoubleSlash]
  | [a] => by
    simp only [hasDoubleSlash, Bool.false_eq_true, false_iff]
    rintro ⟨p, q, h⟩
    have := congrArg List.length h
    simp at this
    omega
  | a :: b :: l => by
    simp only [hasDoubleSlash, Bool.or_eq_true, Bool.and_eq_true, beq_iff_eq,
      hasDoubleSlash_iff (b :: l)]
    constructor
    · rintro (⟨rfl, rfl⟩ | ⟨p, q, h⟩)
      · exact ⟨[], l, rfl⟩
      · exact ⟨a :: p, q, by rw [h]; rfl⟩
    · rintro ⟨p, q, h⟩
      cases p with
      | nil =>
        simp only [List.nil_append] at h
        injection h with h1 h2; injection h2 with h2 _
        exact Or.inl ⟨h1, h2⟩
      | cons x p =>
        simp only [List.cons_append] at h
        injection h with _ h2
        exact Or.inr ⟨p, q, h2⟩

theorem isAlpha_iff (c : Char) : isAlpha c = true ↔ ('a' ≤ c ∧ c ≤ 'z') ∨ ('A' ≤ c ∧ c ≤ 'Z') := by
  simp [isAlpha]

theorem charOk_false_iff (c : Char) : charOk false c = true ↔
    (('a' ≤ c ∧ c ≤ 'z') ∨ ('A' ≤ c ∧ c ≤ 'Z')) ∨ ('0' ≤ c ∧ c ≤ '9') ∨ c = '_' ∨ c = '/' := by
  simp [charOk, isAlnum, isAlpha_iff, or_assoc]

theorem charOk_true_iff (c : Char) : charOk true c = true ↔
    (('a' ≤ c ∧ c ≤ 'z') ∨ ('A' ≤ c ∧ c ≤ 'Z')) ∨ c = '_' ∨ c = '/' := by
  simp [charOk, isAlpha_iff, or_assoc]

theorem not_digit {c : Char}
    (h : (('a' ≤ c ∧ c ≤ 'z') ∨ ('A' ≤ c ∧ c ≤ 'Z')) ∨ c = '_' ∨ c = '/') : ¬ ('0' ≤ c ∧ c ≤ '9') := by
  rintro ⟨a, b⟩
  simp only [Char.le_def, UInt32.le_iff_toNat_le] at h a b
  have e1 : ('0' : Char).val.toNat = 48 := rfl
  have e2 : ('9' : Char).val.toNat = 57 := rfl
  have e3 : ('a' : Char).val.toNat = 97 := rfl
  have e4 : ('A' : Char).val.toNat = 65 := rfl
  rcases h with (⟨h, _⟩ | ⟨h, _⟩) | h | h
  · omega
  · omega
  · subst h
    have : ('_' : Char).val.toNat = 95 := rfl
    omega
  · subst h
    have : ('/' : Char).val.toNat = 47 := rfl
    omega

theorem shortNameValid_iff (s : List Char) : shortNameValid s = true ↔ ValidName s := by
  cases s with
  | nil =>
    simp only [shortNameValid, Bool.false_eq_true, false_iff]
    intro h; exact h.nonempty rfl
  | cons c l =>
    simp only [shortNameValid]
    constructor
    · intro h
      split at h
      · cases h
      · rename_i h1
        split at h
        · cases h
        · rename_i h2
          split at h
          · cases h
          · rename_i h3
            split at h
            · cases h
            · rename_i h4
              simp only [Bool.not_eq_true, Bool.not_eq_false', beq_iff_eq] at h1 h2 h3
              have hc := (charOk_true_iff c).1 (by simpa using h2)
              refine ⟨by simp, ?_, ?_, by simpa using h1, ?_⟩
              · intro x hx
                rcases List.mem_cons.1 hx with rfl | hx
                · rcases hc with h | h
                  · exact Or.inl h
                  · exact Or.inr (Or.inr h)
                · exact (charOk_false_iff x).1 (by simp at h3; exact h3 x hx)
              · intro x hx
                simp only [List.head?_cons, Option.some.injEq] at hx
                subst hx; exact not_digit hc
              · rw [← hasDoubleSlash_iff]; exact h4
    · intro h
      have h1 := h.last
      have hc := h.chars c (by simp)
      have hd := h.first c rfl
      have h2 : charOk true c = true := by
        rw [charOk_true_iff]
        rcases hc with a | a | a
        · exact Or.inl a
        · exact (hd a).elim
        · exact Or.inr a
      have h3 : l.all (charOk false) = true := by
        rw [List.all_eq_true]
        intro x hx
        exact (charOk_false_iff x).2 (h.chars x (by simp [hx]))
      have h4 : ¬ hasDoubleSlash (c :: l) = true := by
        rw [hasDoubleSlash_iff]; exact h.single
      rw [if_neg (by simpa using h1), if_neg (by simp [h2]), if_neg (by simp [h3]), if_neg h4]

theorem parseSpecifier_iff (o : Obj) (s : String) :
    parseSpecifier o = some s ↔ Has o "instanceSpecifier" (.str s) ∧ ValidName s.toList := by
  rw [← shortNameValid_iff]
  simp only [parseSpecifier]
  constructor
  · intro h
    split at h
    · cases h
    · rename_i t ht
      simp only [makeSpecifier] at h
      split at h
      · rename_i hv
        injection h with h; subst h
        exact ⟨(get_iff asStr_iff ..).1 ht, hv⟩
      · cases h
  · intro ⟨h, hv⟩
    rw [(get_iff asStr_iff ..).2 h]
    simp [makeSpecifier, hv]

theorem takeWhile_split {α : Type} (p : α → Bool) : ∀ l : List α,
    l.takeWhile p = l ∨ ∃ x r, l = l.takeWhile p ++ x :: r ∧ p x = false
  | [] => Or.inl rfl
  | a :: l => by
    simp only [List.takeWhile_cons]
    split
    · rcases takeWhile_split p l with h | ⟨x, r, h, hx⟩
      · left; rw [h]
      · right; exact ⟨x, r, by rw [List.cons_append, ← h], hx⟩
    · rename_i h
      right; exact ⟨a, l, rfl, by simpa using h⟩

theorem takeWhile_all {α : Type} (p : α → Bool) : ∀ l : List α, (∀ x ∈ l, p x = true) → l.takeWhile p = l
  | [], _ => rfl
  | a :: l, h => by
    rw [List.takeWhile_cons, if_pos (h a (by simp)), takeWhile_all p l (fun x hx => h x (by simp [hx]))]

theorem takeWhile_stop {α : Type} (p : α → Bool) (x : α) (r : List α) (hx : p x = false) :
    ∀ l : List α, (∀ x ∈ l, p x = true) → (l ++ x :: r).takeWhile p = l
  | [], _ => by simp [hx]
  | a :: l, h => by
    rw [List.cons_append, List.takeWhile_cons, if_pos (h a (by simp)),
      takeWhile_stop p x r hx l (fun x hx => h x (by simp [hx]))]

theorem takeWhile_mem {α : Type} (p : α → Bool) : ∀ (l : List α) (x : α), x ∈ l.takeWhile p → p x = true
  | [], _, h => by cases h
  | a :: l, x, h => by
    rw [List.takeWhile_cons] at h
    split at h
    · rename_i ha
      rcases List.mem_cons.1 h with rfl | h
      · exact ha
      · exact takeWhile_mem p l x h
    · cases h

theorem beforeNul_iff (t n : String) : beforeNul t = n ↔ NameOf t n := by
  have ofL : ∀ (l : List Char) (s : String), String.ofList l = s ↔ l = s.toList := by
    intro l s
    constructor
    · rintro rfl; simp
    · rintro rfl; simp
  simp only [beforeNul, NameOf, ofL]
  constructor
  · intro h
    have hm : ∀ c ∈ n.toList, c ≠ Char.ofNat 0 := by
      intro c hc
      rw [← h] at hc
      simpa using takeWhile_mem _ _ _ hc
    refine ⟨hm, ?_⟩
    rcases takeWhile_split (fun c => decide (c ≠ Char.ofNat 0)) t.toList with a | ⟨x, r, a, hx⟩
    · left
      rw [h] at a
      exact String.toList_inj.1 a.symm
    · right
      rw [h] at a
      have : x = Char.ofNat 0 := by simpa using hx
      exact ⟨r, by rw [← this]; exact a⟩
  · rintro ⟨hm, rfl | ⟨r, h⟩⟩
    · exact takeWhile_all _ _ (fun x hx => by simpa using hm x hx)
    · rw [h]
      exact takeWhile_stop _ _ _ (by simp) _ (fun x hx => by simpa using hm x hx)

theorem parseVersion_iff (o : Obj) (v : Version) :
    parseVersion o = some v ↔ ∃ p, Has o "version" (.obj p) ∧ Has p "major" (num32 v.major) ∧
      Has p "minor" (num32 v.minor) := by
  simp only [parseVersion]
  constructor
  · intro h
    split at h
    · cases h
    · rename_i p hp
      split at h
      · rename_i a b ha hb
        injection h with h; subst h
        exact ⟨p, (get_iff asObj_iff ..).1 hp, (get_iff asU32_iff ..).1 ha, (get_iff asU32_iff ..).1 hb⟩
      · cases h
  · rintro ⟨p, hp, ha, hb⟩
    rw [(get_iff asObj_iff ..).2 hp]
    simp only [(get_iff asU32_iff ..).2 ha, (get_iff asU32_iff ..).2 hb]

theorem parseService_iff (o : Obj) (s : Service) : parseService o = some s ↔ SaysService o s := by
  obtain ⟨n, v⟩ := s
  simp only [parseService, SaysService]
  constructor
  · intro h
    split at h
    · rename_i t w ht hw
      injection h with h; injection h with h h'; subst h'
      exact ⟨⟨t, (get_iff asStr_iff ..).1 ht, (beforeNul_iff ..).1 h⟩, (parseVersion_iff ..).1 hw⟩
    · cases h
  · rintro ⟨⟨t, ht, hn⟩, hv⟩
    rw [(get_iff asStr_iff ..).2 ht, (parseVersion_iff o v).2 hv]
    simp only [(beforeNul_iff ..).2 hn]

theorem parseAsil_some (o : Obj) (q : Quality) (hq : q ≠ .invalid) :
    parseAsil o = some (some q) ↔ SaysAsil o q := by
  simp only [parseAsil, SaysAsil]
  constructor
  · intro h
    split at h
    · cases h
    · cases h
    · rename_i s hs
      injection h with h; injection h with h; subst h
      have hs := (getOpt_iff asStr_iff _ _ (some s)).1 hs
      split
      · rename_i e; subst e; exact Or.inl ⟨hs, rfl⟩
      · split
        · rename_i e; subst e; exact Or.inr ⟨hs, rfl⟩
        · rename_i a b; simp [a, b] at hq
  · rintro (⟨h, rfl⟩ | ⟨h, rfl⟩)
    · rw [(getOpt_iff asStr_iff _ _ (some "QM")).2 h]; simp
    · rw [(getOpt_iff asStr_iff _ _ (some "B")).2 h]; simp

theorem parseAsil_none (o : Obj) : parseAsil o = some none ↔ Lacks o "asil-level" := by
  simp only [parseAsil]
  constructor
  · intro h
    split at h
    · cases h
    · rename_i h'; exact (getOpt_iff asStr_iff _ _ none).1 h'
    · cases h
  · intro h
    rw [(getOpt_iff asStr_iff _ _ none).2 h]

theorem parseStrict_iff (o : Obj) (b : Bool) : parseStrict o = some b ↔ SaysStrict o b := by
  simp only [parseStrict, SaysStrict]
  constructor
  · intro h
    split at h
    · cases h
    · rename_i h'
      injection h with h; subst h
      exact Or.inr (Or.inr ⟨(getOpt_iff asStr_iff _ _ none).1 h', rfl⟩)
    · rename_i s hs
      have hs := (getOpt_iff asStr_iff _ _ (some s)).1 hs
      split at h
      · rename_i e; subst e; injection h with h; subst h; exact Or.inl ⟨hs, rfl⟩
      · split at h
        · rename_i e; subst e; injection h with h; subst h; exact Or.inr (Or.inl ⟨hs, rfl⟩)
        · cases h
  · rintro (⟨h, rfl⟩ | ⟨h, rfl⟩ | ⟨h, rfl⟩)
    · rw [(getOpt_iff asStr_iff _ _ (some "strict")).2 h]; simp
    · rw [(getOpt_iff asStr_iff _ _ (some "file-permissions-on-empty")).2 h]; simp
    · rw [(getOpt_iff asStr_iff _ _ none).2 h]

/-! ### Users -/

theorem mapAll_iff {α β : Type} {f : α → Option β} {to : β → α}
    (H : ∀ a b, f a = some b ↔ a = to b) : ∀ (l : List α) (r : List β),
    mapAll f l = some r ↔ l = r.map to
  | [], r => by cases r <;> simp [mapAll]
  | a :: l, r => by
    simp only [mapAll]
    constructor
    · intro h
      split at h
      · cases h
      · rename_i b hb
        split at h
        · cases h
        · rename_i r' hr
          injection h with h; subst h
          rw [List.map_cons, ← (mapAll_iff H l r').1 hr, (H ..).1 hb]
    · intro h
      cases r with
      | nil => cases h
      | cons b r =>
        rw [List.map_cons] at h
        injection h with h1 h2
        rw [(H a b).2 h1]
        simp only [(mapAll_iff H l r).2 h2]

theorem userQuality_iff (s : String) (q : Quality) :
    userQuality s = some q ↔ (s = "QM" ∧ q = .qm) ∨ (s = "B" ∧ q = .b) := by
  simp only [userQuality]
  split
  · rename_i h; subst h
    simp [eq_comm]
  · rename_i h
    split
    · rename_i h'; subst h'
      simp [eq_comm]
    · rename_i h'; simp [h, h']

theorem put_new {κ α : Type} [DecidableEq κ] (k : κ) (v : α) : ∀ m : List (κ × α),
    k ∉ m.map (·.1) → put m k v = m ++ [(k, v)]
  | [], _ => rfl
  | (k', v') :: m, h => by
    simp only [List.map_cons, List.mem_cons, not_or] at h
    rw [put, if_neg (fun e => h.1 e.symm), put_new k v m h.2]; rfl

theorem saysUsersOf_iff (k : String) (j : Json) (u : Quality × List UInt32) :
    SaysUsersOf (k, j) u ↔ userQuality k = some u.1 ∧ asList j = some (u.2.map num32) := by
  rw [userQuality_iff, asList_iff]; rfl

theorem quality_inj {a b : String} {q : Quality} (ha : userQuality a = some q)
    (hb : userQuality b = some q) : a = b := by
  rw [userQuality_iff] at ha hb
  rcases ha with ⟨rfl, rfl⟩ | ⟨rfl, rfl⟩
  · rcases hb with ⟨rfl, _⟩ | ⟨_, h⟩
    · rfl
    · cases h
  · rcases hb with ⟨_, h⟩ | ⟨rfl, _⟩
    · cases h
    · rfl

theorem parseUsers_iff : ∀ (u : Obj) (m m' : List (Quality × List UInt32)), Distinct u →
    (∀ k ∈ u.map (·.1), ∀ q, userQuality k = some q → q ∉ m.map (·.1)) →
    (parseUsers m u = some m' ↔ ∃ l, m' = m ++ l ∧ Each SaysUsersOf u l)
  | [], m, m', _, _ => by
    simp only [parseUsers, Option.some.injEq]
    constructor
    · rintro rfl; exact ⟨[], by simp, trivial⟩
    · rintro ⟨l, rfl, e⟩
      cases l with
      | nil => simp
      | cons _ _ => exact e.elim
  | (k, j) :: u, m, m', d, hm => by
    have d2 : Distinct u := by
      simp only [Distinct, List.map_cons, List.nodup_cons] at d; exact d.2
    have d1 : k ∉ u.map (·.1) := by
      simp only [Distinct, List.map_cons, List.nodup_cons] at d; exact d.1
    have next : ∀ q, userQuality k = some q → ∀ ids : List UInt32,
        ∀ k' ∈ u.map (·.1), ∀ q', userQuality k' = some q' →
          q' ∉ (m ++ [(q, ids)]).map (·.1) := by
      intro q hq ids k' hk' q' hq' hc
      simp only [List.map_append, List.mem_append, List.map_cons, List.map_nil,
        List.mem_singleton] at hc
      rcases hc with hc | hc
      · exact hm k' (by simp only [List.map_cons, List.mem_cons]; exact Or.inr hk') q' hq' hc
      · subst hc
        exact d1 (quality_inj hq hq' ▸ hk')
    constructor
    · intro h
      simp only [parseUsers] at h
      split at h
      · cases h
      · rename_i us hus
        split at h
        · rename_i ids q hids hq
          rw [put_new q ids m (hm k (by simp) q hq)] at h
          obtain ⟨l, rfl, e⟩ := (parseUsers_iff u _ m' d2 (next q hq ids)).1 h
          refine ⟨(q, ids) :: l, by simp, ?_, e⟩
          rw [saysUsersOf_iff]
          exact ⟨hq, by rw [hus, (mapAll_iff asU32_iff us ids).1 hids]⟩
        · cases h
    · rintro ⟨l, rfl, e⟩
      cases l with
      | nil => exact e.elim
      | cons a l =>
        obtain ⟨e1, e2⟩ := e
        obtain ⟨q, ids⟩ := a
        rw [saysUsersOf_iff] at e1
        simp only [parseUsers, e1.2, (mapAll_iff asU32_iff _ ids).2 rfl, e1.1,
          put_new q ids m (hm k (by simp) q e1.1)]
        exact (parseUsers_iff u _ _ d2 (next q e1.1 ids)).2 ⟨l, by simp, e2⟩

theorem find_mem {κ α : Type} [DecidableEq κ] : ∀ (l : List (κ × α)) (k : κ) (v : α),
    find l k = some v → (k, v) ∈ l
  | [], _, _, h => by cases h
  | (k', v') :: l, k, v, h => by
    simp only [find] at h
    split at h
    · rename_i e; subst e; injection h with h; subst h; simp
    · exact List.mem_cons_of_mem _ (find_mem l k v h)

theorem proper_member {o : Obj} {k : String} {j : Json} (p : Proper (.obj o)) (h : Has o k j) :
    Proper j := by
  cases p with
  | obj _ _ a => exact a k j (find_mem _ _ _ h)

theorem proper_distinct {o : Obj} (p : Proper (.obj o)) : Distinct o := by
  cases p with
  | obj _ a _ => exact a

theorem proper_item {l : List Json} {j : Json} (p : Proper (.list l)) (h : j ∈ l) : Proper j := by
  cases p with
  | list _ a => exact a j h

theorem parseAllowed_iff (o : Obj) (p : Proper (.obj o)) (k : String)
    (l : List (Quality × List UInt32)) : parseAllowed o k = some l ↔ SaysUsers o k l := by
  have h0 : ∀ u : Obj, ∀ k ∈ u.map (·.1), ∀ q, userQuality k = some q →
      q ∉ ([] : List (Quality × List UInt32)).map (·.1) := by simp
  simp only [parseAllowed, SaysUsers]
  constructor
  · intro h
    split at h
    · cases h
    · rename_i h'
      injection h with h; subst h
      exact Or.inr ⟨(getOpt_iff asObj_iff _ _ none).1 h', rfl⟩
    · rename_i u hu
      have hu := (getOpt_iff asObj_iff _ _ (some u)).1 hu
      obtain ⟨l', rfl, e⟩ := (parseUsers_iff u [] l (proper_distinct (proper_member p hu)) (h0 u)).1 h
      exact Or.inl ⟨u, hu, e⟩
  · rintro (⟨u, hu, e⟩ | ⟨h, rfl⟩)
    · rw [(getOpt_iff asObj_iff _ _ (some u)).2 hu]
      exact (parseUsers_iff u [] l (proper_distinct (proper_member p hu)) (h0 u)).2 ⟨l, by simp, e⟩
    · rw [(getOpt_iff asObj_iff _ _ none).2 h]

/-! ### Instances -/

/-- What an instance must fulfil. -/
def LolaOk (l : Lola) : Prop :=
  Distinct l.events ∧ Distinct l.fields ∧ Distinct l.methods ∧ (l.forwarded = true → l.interVm = true)

theorem parseLola_iff (o : Obj) (p : Proper (.obj o)) (l : Lola) :
    parseLola o = some l ↔ SaysLola o l ∧ LolaOk l := by
  constructor
  · intro h
    simp only [parseLola, bind, Option.bind_eq_some_iff, pure] at h
    obtain ⟨shm, h1, cb, h2, cq, h3, id, h4, vm, h5, fw, h6, h⟩ := h
    split at h
    · cases h
    · rename_i hf
      simp only [Option.bind_eq_some_iff, Option.some.injEq] at h
      obtain ⟨ev, h7, fi, h8, me, h9, st, h10, co, h11, pr, h12, rfl⟩ := h
      have h7 := (gatherAt_iff parseEvent_iff ..).1 h7
      have h8 := (gatherAt_iff parseField_iff ..).1 h8
      have h9 := (gatherAt_iff parseMethod_iff ..).1 h9
      refine ⟨⟨(getOpt_iff asU16_iff ..).1 h4, (getOpt_iff asU64_iff ..).1 h1,
        (getOpt_iff asU64_iff ..).1 h2, (getOpt_iff asU64_iff ..).1 h3, h7.1, h8.1, h9.1,
        (parseStrict_iff ..).1 h10, (parseAllowed_iff o p ..).1 h11, (parseAllowed_iff o p ..).1 h12,
        (getD_iff asBool_iff ..).1 ⟨_, h5, rfl⟩, (getD_iff asBool_iff ..).1 ⟨_, h6, rfl⟩⟩,
        h7.2, h8.2, h9.2, ?_⟩
      intro e
      dsimp only at e ⊢
      simp only [e, Bool.true_and, Bool.not_eq_true', Bool.not_eq_false] at hf
      exact hf
  · rintro ⟨h, d1, d2, d3, d4⟩
    obtain ⟨vm, h5, e5⟩ := (getD_iff asBool_iff ..).2 h.interVm
    obtain ⟨fw, h6, e6⟩ := (getD_iff asBool_iff ..).2 h.forwarded
    simp only [parseLola, bind, Option.bind_eq_some_iff, pure]
    refine ⟨l.shmSize, (getOpt_iff asU64_iff ..).2 h.shmSize, l.ctlBSize,
      (getOpt_iff asU64_iff ..).2 h.ctlBSize, l.ctlQmSize, (getOpt_iff asU64_iff ..).2 h.ctlQmSize,
      l.id, (getOpt_iff asU16_iff ..).2 h.id, vm, h5, fw, h6, ?_⟩
    rw [e5, e6, if_neg (by
      intro c
      simp only [Bool.and_eq_true, Bool.not_eq_true'] at c
      rw [d4 c.1] at c; exact absurd c.2 (by simp))]
    simp only [Option.bind_eq_some_iff, Option.some.injEq]
    exact ⟨l.events, (gatherAt_iff parseEvent_iff ..).2 ⟨h.events, d1⟩, l.fields,
      (gatherAt_iff parseField_iff ..).2 ⟨h.fields, d2⟩, l.methods,
      (gatherAt_iff parseMethod_iff ..).2 ⟨h.methods, d3⟩, l.strict, (parseStrict_iff ..).2 h.strict,
      l.consumers, (parseAllowed_iff o p ..).2 h.consumers, l.providers,
      (parseAllowed_iff o p ..).2 h.providers, rfl⟩

end Verif.ConfigParse
