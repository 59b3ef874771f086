import Verif.Proofs.Ident
/-! # Lemmas: creating identifiers from text -/
namespace Verif.Ident
open Verif.Json hiding get
open Verif.Spec.Ident

section lists
variable {κ α : Type} [DecidableEq κ]

theorem known_eq (l : List (List (κ × α))) (k : κ) : known l k = (lookup l k).isSome := by
  induction l with
  | nil => rfl
  | cons m l ih =>
    simp only [known, List.any_cons, lookup] at ih ⊢
    rw [ih]
    cases find m k <;> simp

theorem addLast_some (l : List (List (κ × α))) (k : κ) (v : α) (hl : l ≠ [])
    (hk : lookup l k = none) :
    ∃ l', addLast l k v = some l' ∧ ∀ k', lookup l' k' = if k' = k then some v else lookup l k' := by
  induction l with
  | nil => exact absurd rfl hl
  | cons m l ih =>
    have hm : find m k = none := by
      simp only [lookup] at hk
      split at hk
      · simp at hk
      · assumption
    cases l with
    | nil =>
      refine ⟨[m ++ [(k, v)]], by simp [addLast, hm], ?_⟩
      intro k'
      simp only [lookup, find_append, find]
      by_cases h : k' = k
      · subst h
        simp [hm]
      · rw [if_neg (Ne.symm h), if_neg h]
        cases find m k' <;> simp
    | cons m' l =>
      have hk' : lookup (m' :: l) k = none := by
        simp only [lookup, hm] at hk
        simpa only [lookup] using hk
      obtain ⟨l', h1, h2⟩ := ih (by simp) hk'
      refine ⟨m :: l', by simp only [addLast, h1, Option.map_some], ?_⟩
      intro k'
      have e : ∀ (r : List (List (κ × α))), lookup (m :: r) k' =
          match find m k' with | some v => some v | none => lookup r k' := fun r => rfl
      rw [e, e, h2 k']
      by_cases h : k' = k
      · subst h
        simp [hm]
      · simp [if_neg h]

theorem addEntry_some (l : List (List (κ × α))) (k : κ) (v : α) (hl : l ≠ [])
    (hk : lookup l k = none) :
    ∃ l', addEntry l k v = some l' ∧ ∀ k', lookup l' k' = if k' = k then some v else lookup l k' := by
  obtain ⟨l', h1, h2⟩ := addLast_some l k v hl hk
  refine ⟨l', ?_, h2⟩
  simp [addEntry, known_eq, hk, h1]

theorem addEntry_none {l : List (List (κ × α))} {k : κ} (v : α) (h : (lookup l k).isSome = true) :
    addEntry l k v = none := by
  simp [addEntry, known_eq, h]

theorem addEntry_inv {l l' : List (List (κ × α))} {k : κ} {v : α} (h : addEntry l k v = some l') :
    l ≠ [] ∧ l' ≠ [] ∧ lookup l k = none ∧
      ∀ k', lookup l' k' = if k' = k then some v else lookup l k' := by
  have hk : lookup l k = none := by
    cases hl : lookup l k with
    | none => rfl
    | some w =>
      rw [addEntry_none v (by simp [hl])] at h
      simp at h
  have hl : l ≠ [] := by
    intro e
    subst e
    simp [addEntry, known, addLast] at h
  obtain ⟨r, h1, h2⟩ := addEntry_some l k v hl hk
  rw [h1] at h
  simp only [Option.some.injEq] at h
  subst h
  refine ⟨hl, ?_, hk, h2⟩
  intro e
  subst e
  have := h2 k
  simp [lookup] at this

end lists

/-- What a text says, if it can be read at all. -/
def readText : Text → Option (InstDep × TypeDep)
  | .doc (.obj o) => do
    checkVersion o
    let i ← (Json.get asObj o "serviceInstanceDeployment").bind InstDep.fromJson
    let t ← (Json.get asObj o "serviceTypeDeployment").bind TypeDep.fromJson
    return (i, t)
  | _ => none

theorem build_eq (c : Config) (o : Obj) (text : Text) :
    build c o text =
      match readText (.doc (.obj o)) with
      | none => none
      | some (i, t) =>
        match addEntry c.types i.service t, addEntry c.insts i.specifier i with
        | some types, some insts => some ({ c with types, insts }, { inst := i, type := t, text })
        | _, _ => none := by
  simp only [build, readText]
  cases checkVersion o with
  | none => rfl
  | some u =>
    simp only [Option.bind_eq_bind, Option.bind_some]
    cases (Json.get asObj o "serviceInstanceDeployment").bind InstDep.fromJson with
    | none => rfl
    | some i =>
      simp only [Option.bind_some]
      cases (Json.get asObj o "serviceTypeDeployment").bind TypeDep.fromJson with
      | none => rfl
      | some t =>
        simp only [Option.bind_some, Option.pure_def]
        cases addEntry c.types i.service t with
        | none => rfl
        | some types =>
          simp only [Option.bind_some]
          cases addEntry c.insts i.specifier i <;> rfl

theorem create_ok_inv {c : Option Config} {text : Text} {c' : Config} {x : Ident}
    (h : create c text = .ok c' x) :
    ∃ c0 o, c = some c0 ∧ text = .doc (.obj o) ∧ readText text = some (x.inst, x.type) ∧
      x.text = text ∧ addEntry c0.types x.inst.service x.type = some c'.types ∧
      addEntry c0.insts x.inst.specifier x.inst = some c'.insts ∧ c'.asil = c0.asil := by
  unfold create at h
  split at h
  · simp at h
  · rename_i c0
    split at h
    · simp at h
    · rename_i j
      split at h
      · simp at h
      · rename_i o ho
        have hj : j = .obj o := by
          cases j <;> simp [asObj] at ho
          rw [ho]
        subst hj
        split at h
        · simp at h
        · rename_i c1 x1 hb
          simp only [Created.ok.injEq] at h
          obtain ⟨h1, h2⟩ := h
          subst h1 h2
          rw [build_eq] at hb
          split at hb
          · simp at hb
          · rename_i i t hr
            split at hb
            · rename_i types insts ht hi
              simp only [Option.some.injEq, Prod.mk.injEq] at hb
              obtain ⟨h3, h4⟩ := hb
              subst h3 h4
              exact ⟨c0, o, rfl, rfl, hr, rfl, ht, hi, rfl⟩
            · simp at hb

theorem create_of_read {c : Config} {text : Text} {i : InstDep} {t : TypeDep}
    (hr : readText text = some (i, t)) :
    create (some c) text =
      match addEntry c.types i.service t, addEntry c.insts i.specifier i with
      | some types, some insts => .ok { c with types, insts } { inst := i, type := t, text }
      | _, _ => .terminated := by
  cases text with
  | garbage s => simp [readText] at hr
  | doc j =>
    cases j with
    | obj o =>
      simp only [create, asObj, build_eq, hr]
      cases addEntry c.types i.service t with
      | none => rfl
      | some types => cases addEntry c.insts i.specifier i <;> rfl
    | _ => simp [readText] at hr

theorem read_make {o : Obj} {i i' : InstDep} {t t' : TypeDep}
    (h1 : find o "serializationVersion" = some version1)
    (h2 : find o "serviceInstanceDeployment" = some (.obj i.toJson))
    (h3 : find o "serviceTypeDeployment" = some (.obj t.toJson))
    (hi : InstDep.fromJson i.toJson = some i') (ht : TypeDep.fromJson t.toJson = some t') :
    readText (.doc (.obj o)) = some (i', t') := by
  simp only [readText, checkVersion_of h1, bind_of (get_of (as := asObj) h2 rfl) hi,
    bind_of (get_of (as := asObj) h3 rfl) ht]
  rfl

theorem read_text (i : InstDep) (t : TypeDep) (hi : Proper i) (ht : ProperType t) :
    readText (make i t).text = some (untraced i, t) :=
  read_make (by simp [identToJson, find_put]) (by simp [identToJson, find_put])
    (by simp [identToJson, find_put]) (inst_rt i hi) (type_rt t ht)

theorem untraced_of_noTracing (i : InstDep) (h : NoTracing i) : untraced i = i := by
  obtain ⟨service, binding, asil, specifier⟩ := i
  cases binding with
  | blank => rfl
  | lola l =>
    obtain ⟨h1, h2⟩ := h l rfl
    have e1 : (l.events.map fun p => (p.1, untracedEvent p.2)) = l.events := by
      conv => rhs; rw [← List.map_id l.events]
      apply List.map_congr_left
      intro p hp
      obtain ⟨n, e⟩ := p
      have := h1 _ hp
      obtain ⟨a, b, c, d, tr⟩ := e
      simp only at this
      subst this
      rfl
    have e2 : (l.fields.map fun p => (p.1, { p.2 with event := untracedEvent p.2.event })) = l.fields := by
      conv => rhs; rw [← List.map_id l.fields]
      apply List.map_congr_left
      intro p hp
      obtain ⟨n, ⟨e, g, s⟩⟩ := p
      have := h2 _ hp
      obtain ⟨a, b, c, d, tr⟩ := e
      simp only at this
      subst this
      rfl
    simp only [untraced, e1, e2]

theorem identToJson_untraced (i : InstDep) (t : TypeDep) :
    identToJson i t = identToJson (untraced i) t := by
  have h : i.toJson = (untraced i).toJson := by
    obtain ⟨service, binding, asil, specifier⟩ := i
    cases binding with
    | blank => rfl
    | lola l =>
      have e1 : mapToJson (fun s => s) (fun e => Json.obj (EventDep.toJson e)) l.events =
          mapToJson (fun s => s) (fun e => Json.obj (EventDep.toJson e))
            (l.events.map fun p => (p.1, untracedEvent p.2)) := by
        simp only [mapToJson, List.map_map]
        apply List.map_congr_left
        intro p _
        rfl
      have e2 : mapToJson (fun s => s) (fun e => Json.obj (FieldDep.toJson e)) l.fields =
          mapToJson (fun s => s) (fun e => Json.obj (FieldDep.toJson e))
            (l.fields.map fun p => (p.1, { p.2 with event := untracedEvent p.2.event })) := by
        simp only [mapToJson, List.map_map]
        apply List.map_congr_left
        intro p _
        rfl
      have e3 : l.toJson = Lola.toJson { l with
          events := l.events.map fun p => (p.1, untracedEvent p.2)
          fields := l.fields.map fun p => (p.1, { p.2 with event := untracedEvent p.2.event }) } := by
        simp only [Lola.toJson]
        rw [e1, e2]
      simp only [InstDep.toJson, untraced]
      rw [e3]
  simp only [identToJson]
  rw [h]

/-! ### Names -/

theorem isAlpha_iff (c : Char) : isAlpha c = true ↔ c.isAlpha = true := by
  simp only [isAlpha, Char.isAlpha, Char.isUpper, Char.isLower, Bool.or_eq_true, Bool.and_eq_true,
    decide_eq_true_eq]
  exact Or.comm

theorem isDigit_iff (c : Char) : (decide ('0' ≤ c) && decide (c ≤ '9')) = true ↔ c.isDigit = true := by
  simp only [Char.isDigit, Bool.and_eq_true, decide_eq_true_eq]
  exact Iff.rfl

theorem isAlnum_iff (c : Char) : isAlnum c = true ↔ c.isAlpha = true ∨ c.isDigit = true := by
  simp only [isAlnum, Bool.or_eq_true (isAlpha c), isAlpha_iff, isDigit_iff]

theorem doubleSlash_iff (l : List Char) : hasDoubleSlash l = true ↔ ['/', '/'] <:+: l := by
  induction l with
  | nil => simp [hasDoubleSlash]
  | cons a l ih =>
    cases l with
    | nil =>
      simp only [hasDoubleSlash, Bool.false_eq_true, false_iff]
      intro h
      have := h.length_le
      simp at this
    | cons b l =>
      simp only [hasDoubleSlash, Bool.or_eq_true, Bool.and_eq_true, beq_iff_eq, ih]
      rw [List.infix_cons_iff (a := a)]
      constructor
      · rintro (⟨rfl, rfl⟩ | h)
        · exact Or.inl ⟨l, rfl⟩
        · exact Or.inr h
      · rintro (⟨t, h⟩ | h)
        · simp only [List.cons_append, List.nil_append, List.cons.injEq] at h
          exact Or.inl ⟨h.1.symm, h.2.1.symm⟩
        · exact Or.inr h

theorem alpha_not_digit {c : Char} (h : c.isAlpha = true) : ¬ c.isDigit = true := by
  simp only [Char.isAlpha, Char.isUpper, Char.isLower, Bool.or_eq_true, Bool.and_eq_true,
    decide_eq_true_eq, Char.isDigit, UInt32.le_iff_toNat_le, ge_iff_le] at h ⊢
  have e1 : 'A'.val.toNat = 65 := rfl
  have e2 : 'a'.val.toNat = 97 := rfl
  have e3 : '9'.val.toNat = 57 := rfl
  omega

theorem shortNameValid_iff (s : List Char) :
    shortNameValid s = true ↔
      s ≠ [] ∧ (∀ c ∈ s, c.isAlpha ∨ c.isDigit ∨ c = '_' ∨ c = '/') ∧
      (∀ c, s.head? = some c → ¬ c.isDigit) ∧ s.getLast? ≠ some '/' ∧ ¬ ['/', '/'] <:+: s := by
  cases s with
  | nil => simp [shortNameValid]
  | cons c l =>
    simp only [shortNameValid, ← doubleSlash_iff, ne_eq, reduceCtorEq, not_false_eq_true, true_and,
      List.head?_cons, Option.some.injEq, forall_eq']
    have hall : l.all (charOk false) = true ↔
        ∀ d ∈ l, d.isAlpha = true ∨ d.isDigit = true ∨ d = '_' ∨ d = '/' := by
      simp only [List.all_eq_true, charOk, Bool.or_eq_true, beq_iff_eq, Bool.false_eq_true, if_false,
        isAlnum_iff, or_assoc]
    have hfirst : charOk true c = true ↔ c.isAlpha = true ∨ c = '_' ∨ c = '/' := by
      simp only [charOk, if_true, Bool.or_eq_true, beq_iff_eq, isAlpha_iff, or_assoc]
    by_cases h1 : (c :: l).getLast? = some '/'
    · simp [h1]
    · by_cases h2 : charOk true c = true
      · by_cases h3 : l.all (charOk false) = true
        · have hd : ¬ c.isDigit = true := by
            rcases hfirst.mp h2 with h | h | h
            · exact alpha_not_digit h
            · subst h; decide
            · subst h; decide
          have hm : ∀ d ∈ c :: l, d.isAlpha = true ∨ d.isDigit = true ∨ d = '_' ∨ d = '/' := by
            intro d hdm
            rcases List.mem_cons.mp hdm with rfl | hdm
            · rcases hfirst.mp h2 with h | h | h
              · exact Or.inl h
              · exact Or.inr (Or.inr (Or.inl h))
              · exact Or.inr (Or.inr (Or.inr h))
            · exact hall.mp h3 d hdm
          have hb : ((c :: l).getLast? == some '/') = false := by simpa using h1
          rw [hb, h2, h3]
          simp only [Bool.false_eq_true, if_false, Bool.not_true]
          constructor
          · intro h
            split at h
            · simp at h
            · exact ⟨hm, hd, h1, by assumption⟩
          · rintro ⟨_, _, _, h⟩
            rw [if_neg h]
        · have hb : ((c :: l).getLast? == some '/') = false := by simpa using h1
          rw [hb, h2]
          simp only [Bool.not_eq_true] at h3
          rw [h3]
          simp only [Bool.false_eq_true, if_false, Bool.not_true, Bool.not_false, if_true, false_iff]
          rintro ⟨h, _⟩
          have := hall.mpr fun d hd => h d (List.mem_cons_of_mem _ hd)
          rw [h3] at this
          simp at this
      · have hb : ((c :: l).getLast? == some '/') = false := by simpa using h1
        rw [hb]
        have h2' : charOk true c = false := by simpa using h2
        rw [h2']
        simp only [Bool.false_eq_true, if_false, Bool.not_false, if_true, false_iff]
        rintro ⟨h, hd, _⟩
        apply h2
        apply hfirst.mpr
        rcases h c (List.mem_cons_self ..) with h | h | h
        · exact Or.inl h
        · exact absurd h hd
        · exact Or.inr h

theorem checkVersion_inv {o : Obj} {u : Unit} (h : checkVersion o = some u) :
    find o "serializationVersion" = some (.num 1) := by
  unfold checkVersion Json.get at h
  cases hf : find o "serializationVersion" with
  | none => rw [hf] at h; simp at h
  | some j =>
    rw [hf] at h
    cases j with
    | num n =>
      simp only [asU32, asNat] at h
      by_cases hn : 0 ≤ n ∧ n < ((4294967296 : Nat) : Int)
      · rw [if_pos hn] at h
        simp only [Option.map_some] at h
        by_cases h1 : UInt32.ofNat n.toNat = 1
        · have h2 := congrArg UInt32.toNat h1
          rw [UInt32.toNat_ofNat_of_lt' (by show n.toNat < 4294967296; omega)] at h2
          have h3 : n.toNat = 1 := h2
          have : n = 1 := by omega
          rw [this]
        · simp [h1] at h
      · rw [if_neg hn] at h; simp at h
    | _ => simp [asU32, asNat] at h

theorem get_obj_inv {o : Obj} {k : String} {v : Obj} (h : Json.get asObj o k = some v) :
    find o k = some (.obj v) := by
  unfold Json.get at h
  cases hf : find o k with
  | none => rw [hf] at h; simp at h
  | some j => rw [hf] at h; cases j <;> simp [asObj] at h; rw [h]

theorem create_versions {c : Option Config} {o : Obj} {c' : Config} {x : Ident}
    (h : create c (.doc (.obj o)) = .ok c' x) :
    ∃ i t, find o "serviceInstanceDeployment" = some (.obj i) ∧
      find o "serviceTypeDeployment" = some (.obj t) ∧
      find o "serializationVersion" = some (.num 1) ∧
      find i "serializationVersion" = some (.num 1) ∧
      find t "serializationVersion" = some (.num 1) := by
  unfold create at h
  split at h
  · simp at h
  · simp only [asObj] at h
    split at h
    · simp at h
    · rename_i hb
      unfold build at hb
      simp only [Option.bind_eq_bind, Option.bind_eq_some_iff] at hb
      obtain ⟨_, hv, a, ⟨i, hi, ha⟩, b, ⟨t, ht, hb⟩, -⟩ := hb
      refine ⟨i, t, get_obj_inv hi, get_obj_inv ht, checkVersion_inv hv, ?_, ?_⟩
      · unfold InstDep.fromJson at ha
        simp only [Option.bind_eq_bind, Option.bind_eq_some_iff] at ha
        obtain ⟨_, -, _, -, _, -, _, -, _, hv, -⟩ := ha
        exact checkVersion_inv hv
      · unfold TypeDep.fromJson at hb
        simp only [Option.bind_eq_bind, Option.bind_eq_some_iff] at hb
        obtain ⟨_, -, hb⟩ := hb
        split at hb
        · simp only [Option.bind_eq_some_iff] at hb
          obtain ⟨_, -, _, hv, -⟩ := hb
          exact checkVersion_inv hv
        · split at hb
          · simp only [Option.bind_eq_some_iff] at hb
            obtain ⟨_, hv, -⟩ := hb
            exact checkVersion_inv hv
          · cases hb

end Verif.Ident
