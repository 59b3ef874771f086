import Verif.Spec.ConfigParse

/-! Lemmas for C117: reading single members, events, fields and methods. -/
namespace Verif.ConfigParse
open Verif.Json Verif.Ident Verif.ConfigSays

/-! ### Values -/

theorem asStr_iff (j : Json) (s : String) : asStr j = some s ↔ j = .str s := by
  cases j <;> simp [asStr]

theorem asBool_iff (j : Json) (b : Bool) : asBool j = some b ↔ j = .bool b := by
  cases j <;> simp [asBool]

theorem asObj_iff (j : Json) (o : Obj) : asObj j = some o ↔ j = .obj o := by
  cases j <;> simp [asObj]

theorem asList_iff (j : Json) (l : List Json) : asList j = some l ↔ j = .list l := by
  cases j <;> simp [asList]

theorem asNat_iff (m : Nat) (j : Json) (n : Nat) : asNat m j = some n ↔ j = .num n ∧ n < m := by
  cases j with
  | num i =>
    simp only [asNat]
    constructor
    · intro h
      split at h
      · injection h with h; subst h
        rename_i hi
        constructor
        · congr 1; omega
        · omega
      · cases h
    · intro ⟨h, hl⟩
      injection h with h; subst h
      rw [if_pos (by omega)]; simp
  | _ => simp [asNat]

theorem asU8_iff (j : Json) (n : UInt8) : asU8 j = some n ↔ j = num8 n := by
  simp only [asU8, Option.map_eq_some_iff, asNat_iff, num8]
  constructor
  · rintro ⟨a, ⟨h, hl⟩, rfl⟩; rw [h]; congr 2; exact (Nat.mod_eq_of_lt hl).symm
  · intro h; exact ⟨n.toNat, ⟨h, n.toNat_lt⟩, UInt8.ofNat_toNat⟩

theorem asU16_iff (j : Json) (n : UInt16) : asU16 j = some n ↔ j = num16 n := by
  simp only [asU16, Option.map_eq_some_iff, asNat_iff, num16]
  constructor
  · rintro ⟨a, ⟨h, hl⟩, rfl⟩; rw [h]; congr 2; exact (Nat.mod_eq_of_lt hl).symm
  · intro h; exact ⟨n.toNat, ⟨h, n.toNat_lt⟩, UInt16.ofNat_toNat⟩

theorem asU32_iff (j : Json) (n : UInt32) : asU32 j = some n ↔ j = num32 n := by
  simp only [asU32, Option.map_eq_some_iff, asNat_iff, num32]
  constructor
  · rintro ⟨a, ⟨h, hl⟩, rfl⟩; rw [h]; congr 2; exact (Nat.mod_eq_of_lt hl).symm
  · intro h; exact ⟨n.toNat, ⟨h, n.toNat_lt⟩, UInt32.ofNat_toNat⟩

theorem asU64_iff (j : Json) (n : UInt64) : asU64 j = some n ↔ j = num64 n := by
  simp only [asU64, Option.map_eq_some_iff, asNat_iff, num64]
  constructor
  · rintro ⟨a, ⟨h, hl⟩, rfl⟩; rw [h]; congr 2; exact (Nat.mod_eq_of_lt hl).symm
  · intro h; exact ⟨n.toNat, ⟨h, n.toNat_lt⟩, UInt64.ofNat_toNat⟩

theorem asI32_iff (j : Json) (n : Int) : asI32 j = some n ↔ j = .num n ∧ In32 n := by
  cases j with
  | num i =>
    simp only [asI32, In32]
    constructor
    · intro h
      split at h
      · injection h with h; subst h
        exact ⟨rfl, by omega, by omega⟩
      · cases h
    · intro ⟨h, hl⟩
      injection h with h; subst h
      rw [if_pos (by omega)]
  | _ => simp [asI32]

/-! ### Members -/

theorem get_iff {α : Type} {as : Json → Option α} {to : α → Json}
    (H : ∀ j v, as j = some v ↔ j = to v) (o : Obj) (k : String) (v : α) :
    get as o k = some v ↔ Has o k (to v) := by
  simp only [Json.get, Has]
  cases find o k with
  | none => simp
  | some j => simp [H]

theorem getOpt_iff {α : Type} {as : Json → Option α} {to : α → Json}
    (H : ∀ j v, as j = some v ↔ j = to v) (o : Obj) (k : String) (v : Option α) :
    getOpt as o k = some v ↔ Optional to o k v := by
  simp only [getOpt, Optional, Has, Lacks]
  cases find o k with
  | none => cases v <;> simp
  | some j =>
    cases v with
    | none => simp
    | some a => simp [H]

theorem getD_iff {α : Type} {as : Json → Option α} {to : α → Json}
    (H : ∀ j v, as j = some v ↔ j = to v) (o : Obj) (k : String) (d v : α) :
    (∃ x, getOpt as o k = some x ∧ x.getD d = v) ↔ WithDefault to o k d v := by
  constructor
  · rintro ⟨x, h, rfl⟩
    rw [getOpt_iff H] at h
    cases x with
    | none => exact Or.inr ⟨h, rfl⟩
    | some a => exact Or.inl h
  · rintro (h | ⟨h, rfl⟩)
    · exact ⟨some v, (getOpt_iff H o k (some v)).2 h, rfl⟩
    · exact ⟨none, (getOpt_iff H o k none).2 h, rfl⟩

theorem abortIfFound_iff (o : Obj) (k : String) (u : Unit) : abortIfFound o k = some u ↔ Lacks o k := by
  simp only [abortIfFound, Lacks]
  cases find o k <;> simp

theorem lacks_or_has (o : Obj) (k : String) : Lacks o k ∨ ∃ j, Has o k j := by
  simp only [Lacks, Has]
  cases find o k with
  | none => exact Or.inl rfl
  | some j => exact Or.inr ⟨j, rfl⟩

theorem has_inj {o : Obj} {k : String} {a b : Json} (h : Has o k a) (h' : Has o k b) : a = b := by
  simp only [Has] at h h'
  rw [h] at h'; injection h'

theorem has_lacks {o : Obj} {k : String} {a : Json} (h : Has o k a) (h' : Lacks o k) : False := by
  simp only [Has] at h
  simp only [Lacks] at h'
  rw [h] at h'; cases h'

/-! ### Elements of an instance -/

theorem sampleSlots_iff (o : Obj) (v : Option UInt16) :
    sampleSlots o = some v ↔
      (Lacks o "maxSamples" ∧ Optional num16 o "numberOfSampleSlots" v) ∨
      (∃ n, Has o "maxSamples" (num16 n) ∧ Lacks o "numberOfSampleSlots" ∧ v = some n) := by
  rcases lacks_or_has o "maxSamples" with h | ⟨j, h⟩
  · have e : sampleSlots o = getOpt asU16 o "numberOfSampleSlots" := by
      simp only [Lacks] at h
      simp only [sampleSlots, h]
    rw [e, getOpt_iff asU16_iff]
    constructor
    · intro a; exact Or.inl ⟨h, a⟩
    · rintro (⟨_, a⟩ | ⟨n, a, _⟩)
      · exact a
      · exact (has_lacks a h).elim
  · rcases lacks_or_has o "numberOfSampleSlots" with g | ⟨i, g⟩
    · have e : sampleSlots o = getOpt asU16 o "maxSamples" := by
        have h' := h; have g' := g
        simp only [Lacks, Has] at h' g'
        simp only [sampleSlots, h', g']
      rw [e, getOpt_iff asU16_iff]
      constructor
      · intro a
        cases v with
        | none => exact (has_lacks h a).elim
        | some n => exact Or.inr ⟨n, a, g, rfl⟩
      · rintro (⟨a, _⟩ | ⟨n, a, _, rfl⟩)
        · exact (has_lacks h a).elim
        · exact a
    · have e : sampleSlots o = none := by
        have h' := h; have g' := g
        simp only [Has] at h' g'
        simp only [sampleSlots, h', g']
      rw [e]
      constructor
      · intro a; cases a
      · rintro (⟨a, _⟩ | ⟨n, _, a, _⟩)
        · exact (has_lacks h a).elim
        · exact (has_lacks g a).elim

theorem parseEvent_iff (o : Obj) (e : String × EventDep) : parseEvent o = some e ↔ SaysEvent o e := by
  obtain ⟨n, d⟩ := e
  constructor
  · intro h
    simp only [parseEvent, bind, Option.bind_eq_some_iff, pure, Option.some.injEq] at h
    obtain ⟨_, h1, n', h2, s, h3, u, h4, en, h5, t, h6, h7⟩ := h
    injection h7 with h7 h8; subst h7; subst h8
    exact ⟨(get_iff asStr_iff ..).1 h2, (sampleSlots_iff ..).1 h3, (getOpt_iff asU8_iff ..).1 h4,
      ⟨(abortIfFound_iff ..).1 h1, rfl⟩, (getD_iff asBool_iff ..).1 ⟨_, h5, rfl⟩,
      (getD_iff asU8_iff ..).1 ⟨_, h6, rfl⟩⟩
  · intro h
    obtain ⟨en, h5, e5⟩ := (getD_iff asBool_iff ..).2 h.enforce
    obtain ⟨t, h6, e6⟩ := (getD_iff asU8_iff ..).2 h.tracing
    simp only [parseEvent, bind, Option.bind_eq_some_iff, pure, Option.some.injEq]
    refine ⟨(), (abortIfFound_iff ..).2 h.allocations.1, n, (get_iff asStr_iff ..).2 h.name, d.slots,
      (sampleSlots_iff ..).2 h.slots, d.subscribers, (getOpt_iff asU8_iff ..).2 h.subscribers,
      en, h5, t, h6, ?_⟩
    rw [e5, e6, ← h.allocations.2]

theorem parseField_iff (o : Obj) (e : String × FieldDep) : parseField o = some e ↔ SaysField o e := by
  obtain ⟨n, d⟩ := e
  constructor
  · intro h
    simp only [parseField, bind, Option.bind_eq_some_iff, pure, Option.some.injEq] at h
    obtain ⟨_, h1, n', h2, s, h3, u, h4, en, h5, t, h6, g, h7, st, h8, h9⟩ := h
    injection h9 with h9 h10; subst h9; subst h10
    exact ⟨(get_iff asStr_iff ..).1 h2, (getOpt_iff asU16_iff ..).1 h3, (getOpt_iff asU8_iff ..).1 h4,
      ⟨(abortIfFound_iff ..).1 h1, rfl⟩, (getD_iff asBool_iff ..).1 ⟨_, h5, rfl⟩,
      (getD_iff asU8_iff ..).1 ⟨_, h6, rfl⟩, (getD_iff asBool_iff ..).1 ⟨_, h7, rfl⟩,
      (getD_iff asBool_iff ..).1 ⟨_, h8, rfl⟩⟩
  · intro h
    obtain ⟨en, h5, e5⟩ := (getD_iff asBool_iff ..).2 h.enforce
    obtain ⟨t, h6, e6⟩ := (getD_iff asU8_iff ..).2 h.tracing
    obtain ⟨g, h7, e7⟩ := (getD_iff asBool_iff ..).2 h.useGet
    obtain ⟨st, h8, e8⟩ := (getD_iff asBool_iff ..).2 h.useSet
    simp only [parseField, bind, Option.bind_eq_some_iff, pure, Option.some.injEq]
    refine ⟨(), (abortIfFound_iff ..).2 h.allocations.1, n, (get_iff asStr_iff ..).2 h.name,
      d.event.slots, (getOpt_iff asU16_iff ..).2 h.slots, d.event.subscribers,
      (getOpt_iff asU8_iff ..).2 h.subscribers, en, h5, t, h6, g, h7, st, h8, ?_⟩
    rw [e5, e6, e7, e8, ← h.allocations.2]

theorem parseMethod_iff (o : Obj) (e : String × MethodDep) :
    parseMethod o = some e ↔ SaysMethod o e := by
  obtain ⟨n, d⟩ := e
  constructor
  · intro h
    simp only [parseMethod, bind, Option.bind_eq_some_iff, pure, Option.some.injEq] at h
    obtain ⟨n', h2, q, h3, u, h4, h5⟩ := h
    injection h5 with h5 h6; subst h5; subst h6
    exact ⟨(get_iff asStr_iff ..).1 h2, (getOpt_iff asU8_iff ..).1 h3,
      (getD_iff asBool_iff ..).1 ⟨_, h4, rfl⟩⟩
  · intro h
    obtain ⟨en, h5, e5⟩ := (getD_iff asBool_iff ..).2 h.enabled
    simp only [parseMethod, bind, Option.bind_eq_some_iff, pure, Option.some.injEq]
    refine ⟨n, (get_iff asStr_iff ..).2 h.name, d.queue, (getOpt_iff asU8_iff ..).2 h.queue, en, h5, ?_⟩
    rw [e5]

theorem parseId_iff (nk ik : String) (o : Obj) (e : String × UInt16) :
    parseId nk ik o = some e ↔ SaysId nk ik o e := by
  obtain ⟨n, i⟩ := e
  simp only [parseId, SaysId]
  constructor
  · intro h
    split at h
    · rename_i a b ha hb
      injection h with h; injection h with h h'; subst h; subst h'
      exact ⟨(get_iff asStr_iff ..).1 ha, (get_iff asU16_iff ..).1 hb⟩
    · cases h
  · intro ⟨h, h'⟩
    rw [(get_iff asStr_iff ..).2 h, (get_iff asU16_iff ..).2 h']

/-! ### Lists -/

theorem each_iff {α β : Type} {R S : α → β → Prop} (H : ∀ a b, R a b ↔ S a b) :
    ∀ (l : List α) (r : List β), Each R l r ↔ Each S l r
  | [], [] => Iff.rfl
  | [], _ :: _ => Iff.rfl
  | _ :: _, [] => Iff.rfl
  | a :: l, b :: r => by simp only [Each, H, each_iff H l r]

theorem find_none_iff {κ α : Type} [DecidableEq κ] (l : List (κ × α)) (k : κ) :
    find l k = none ↔ k ∉ l.map (·.1) := by
  induction l with
  | nil => simp [find]
  | cons p l ih =>
    obtain ⟨k', v⟩ := p
    simp only [find]
    split
    · rename_i h; simp [h]
    · rename_i h
      rw [ih]
      simp only [List.map_cons, List.mem_cons, not_or]
      constructor
      · intro a; exact ⟨fun e => h e.symm, a⟩
      · intro a; exact a.2

theorem emplaceOrFatal_iff {κ α : Type} [DecidableEq κ] (m m' : List (κ × α)) (k : κ) (v : α) :
    emplaceOrFatal m k v = some m' ↔ k ∉ m.map (·.1) ∧ m' = m ++ [(k, v)] := by
  rw [← find_none_iff]
  simp only [emplaceOrFatal]
  cases find m k with
  | some _ => simp
  | none => simp [eq_comm]

theorem distinct_snoc {κ α : Type} (m : List (κ × α)) (k : κ) (v : α) :
    Distinct (m ++ [(k, v)]) ↔ Distinct m ∧ k ∉ m.map (·.1) := by
  simp only [Distinct, List.map_append, List.map_cons, List.map_nil, List.nodup_append]
  constructor
  · intro ⟨a, _, b⟩; exact ⟨a, fun c => b k c k (by simp) rfl⟩
  · intro ⟨a, b⟩
    refine ⟨a, by simp, fun x hx y hy e => ?_⟩
    simp only [List.mem_singleton] at hy
    subst hy; subst e; exact b hx

theorem distinct_prefix {κ α : Type} (a b : List (κ × α)) (h : Distinct (a ++ b)) : Distinct a := by
  simp only [Distinct, List.map_append, List.nodup_append] at h
  exact h.1

theorem gather_iff {κ α : Type} [DecidableEq κ] {f : Obj → Option (κ × α)}
    {R : Obj → κ × α → Prop} (H : ∀ o e, f o = some e ↔ R o e) :
    ∀ (js : List Json) (m m' : List (κ × α)), Distinct m →
      (gather f m js = some m' ↔
        ∃ l, m' = m ++ l ∧ Each (fun j a => ∃ p, j = .obj p ∧ R p a) js l ∧ Distinct m')
  | [], m, m', d => by
    simp only [gather, Option.some.injEq]
    constructor
    · rintro rfl; exact ⟨[], by simp, trivial, d⟩
    · rintro ⟨l, rfl, e, _⟩
      cases l with
      | nil => simp
      | cons _ _ => exact e.elim
  | j :: js, m, m', d => by
    constructor
    · intro h
      simp only [gather] at h
      split at h
      · cases h
      · rename_i o ho
        split at h
        · cases h
        · rename_i k v hf
          split at h
          · cases h
          · rename_i m1 hm
            obtain ⟨hk, rfl⟩ := (emplaceOrFatal_iff ..).1 hm
            obtain ⟨l, rfl, e, d'⟩ := (gather_iff H js _ m' ((distinct_snoc ..).2 ⟨d, hk⟩)).1 h
            exact ⟨(k, v) :: l, by simp, ⟨⟨o, (asObj_iff ..).1 ho, (H ..).1 hf⟩, e⟩, d'⟩
    · rintro ⟨l, rfl, e, d'⟩
      cases l with
      | nil => exact e.elim
      | cons a l =>
        obtain ⟨⟨o, rfl, r⟩, e⟩ := e
        obtain ⟨k, v⟩ := a
        have d1 : Distinct (m ++ [(k, v)]) := distinct_prefix _ l (by simpa using d')
        have hk := ((distinct_snoc ..).1 d1).2
        simp only [gather, asObj, (H ..).2 r, (emplaceOrFatal_iff ..).2 ⟨hk, rfl⟩]
        refine (gather_iff H js _ _ d1).2 ⟨l, by simp, e, d'⟩

theorem gatherAt_iff {κ α : Type} [DecidableEq κ] {f : Obj → Option (κ × α)}
    {R : Obj → κ × α → Prop} (H : ∀ o e, f o = some e ↔ R o e) (o : Obj) (k : String)
    (l : List (κ × α)) :
    gatherAt f o k = some l ↔ ListOf R o k l ∧ Distinct l := by
  have d0 : Distinct ([] : List (κ × α)) := by simp [Distinct]
  constructor
  · intro h
    simp only [gatherAt] at h
    split at h
    · cases h
    · rename_i h1
      injection h with h; subst h
      exact ⟨Or.inr ⟨(getOpt_iff asList_iff ..).1 h1, rfl⟩, d0⟩
    · rename_i js h1
      obtain ⟨l', rfl, e, d⟩ := (gather_iff H js [] l d0).1 h
      exact ⟨Or.inl ⟨js, (getOpt_iff asList_iff _ _ (some js)).1 h1, e⟩, d⟩
  · rintro ⟨⟨js, h, e⟩ | ⟨h, rfl⟩, d⟩
    · simp only [gatherAt, (getOpt_iff asList_iff _ _ (some js)).2 h]
      exact (gather_iff H js [] l d0).2 ⟨l, by simp, e, d⟩
    · simp only [gatherAt, (getOpt_iff asList_iff _ _ none).2 h]

end Verif.ConfigParse
