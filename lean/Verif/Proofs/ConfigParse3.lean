import Verif.Proofs.ConfigParse2

/-! Lemmas for C117: tracing, sections, service types, the file. -/
namespace Verif.ConfigParse
open Verif.Json Verif.Ident Verif.ConfigSays

/-! ### Elements with tracing -/

/-- What the loop over the elements looks at. -/
def SaysSlots (nameKey : String) (o : Obj) (e : String × UInt8) : Prop :=
  Has o nameKey (.str e.1) ∧ WithDefault num8 o "numberOfIpcTracingSlots" 0 e.2

theorem traceElements_eq (service specifier : String) (kind : Kind) (nk : String) :
    ∀ (js : List Json) (l : List (String × UInt8)) (t : List Element),
      Each (fun j a => ∃ p, j = .obj p ∧ SaysSlots nk p a) js l → Distinct l →
      (∀ n ∈ l.map (·.1), (⟨service, n, kind, specifier⟩ : Element) ∉ t) →
      traceElements service specifier kind nk t js =
        some (t ++ (l.filter fun e => 0 < e.2).map (⟨service, ·.1, kind, specifier⟩))
  | [], l, t, e, _, _ => by
    cases l with
    | nil => simp [traceElements]
    | cons _ _ => exact e.elim
  | j :: js, l, t, e, d, f => by
    cases l with
    | nil => exact e.elim
    | cons a l =>
      obtain ⟨⟨o, rfl, hn, hs⟩, e⟩ := e
      obtain ⟨n, s⟩ := a
      have d2 : Distinct l := by
        simp only [Distinct, List.map_cons, List.nodup_cons] at d; exact d.2
      have d1 : n ∉ l.map (·.1) := by
        simp only [Distinct, List.map_cons, List.nodup_cons] at d; exact d.1
      have f2 : ∀ n ∈ l.map (·.1), (⟨service, n, kind, specifier⟩ : Element) ∉ t :=
        fun x hx => f x (by simp only [List.map_cons, List.mem_cons]; exact Or.inr hx)
      have ih := traceElements_eq service specifier kind nk js l t e d2 f2
      have hf : find o nk = some (.str n) := hn
      rcases hs with hs | ⟨hs, h0⟩
      · have hg : getOpt asU8 o "numberOfIpcTracingSlots" = some (some s) :=
          (getOpt_iff asU8_iff _ _ (some s)).2 hs
        by_cases hp : 0 < s
        · have ft : (⟨service, n, kind, specifier⟩ : Element) ∉ t := f n (by simp)
          have ih2 := traceElements_eq service specifier kind nk js l
            (t ++ [⟨service, n, kind, specifier⟩]) e d2 (by
              intro x hx hc
              rcases List.mem_append.1 hc with hc | hc
              · exact f2 x hx hc
              · simp only [List.mem_singleton, Element.mk.injEq, true_and, and_true] at hc
                subst hc; exact d1 hx)
          simp only [traceElements, asObj, hf, hg, hp, if_true, asStr, setTraced, if_neg ft]
          rw [ih2]
          simp [hp]
        · simp only [traceElements, asObj, hf, hg, hp, if_false]
          rw [ih]
          simp [hp]
      · dsimp only at h0
        subst h0
        have hg : getOpt asU8 o "numberOfIpcTracingSlots" = some none :=
          (getOpt_iff asU8_iff _ _ none).2 hs
        simp only [traceElements, asObj, hf, hg]
        rw [ih]
        simp

theorem each_map {α β γ : Type} {R : α → β → Prop} {S : α → γ → Prop} (g : β → γ)
    (H : ∀ a b, R a b → S a (g b)) : ∀ (l : List α) (r : List β), Each R l r → Each S l (r.map g)
  | [], [], _ => trivial
  | [], _ :: _, h => h.elim
  | _ :: _, [], h => h.elim
  | a :: l, b :: r, h => ⟨H a b h.1, each_map g H l r h.2⟩

theorem traceAt_eq {α : Type} {R : Obj → String × α → Prop} (slots : α → UInt8)
    (service specifier : String) (kind : Kind) (key nk : String)
    (H : ∀ o e, R o e → SaysSlots nk o (e.1, slots e.2)) (o : Obj) (l : List (String × α))
    (t : List Element) (h : ListOf R o key l) (d : Distinct l)
    (f : ∀ n, (⟨service, n, kind, specifier⟩ : Element) ∉ t) :
    traceAt service specifier kind key nk t o =
      some (t ++ (l.filter fun e => 0 < slots e.2).map (⟨service, ·.1, kind, specifier⟩)) := by
  rcases h with ⟨js, h, e⟩ | ⟨h, rfl⟩
  · have hg : getOpt asList o key = some (some js) := (getOpt_iff asList_iff _ _ (some js)).2 h
    simp only [traceAt, hg]
    have e2 := each_map (S := fun j a => ∃ p, j = Json.obj p ∧ SaysSlots nk p a)
      (fun x : String × α => (x.1, slots x.2))
      (by rintro a b ⟨p, rfl, r⟩; exact ⟨p, rfl, H p b r⟩) js l e
    rw [traceElements_eq service specifier kind nk js _ t e2
      (by simpa [Distinct, Function.comp_def] using d) (fun n _ => f n)]
    simp [List.filter_map, Function.comp_def]
  · have hg : getOpt asList o key = some none := (getOpt_iff asList_iff _ _ none).2 h
    simp [traceAt, hg]

/-! ### Sections -/

/-- What the deployment of an instance must fulfil. -/
def DepOk (d : InstDep) : Prop := ∀ l, d.binding = .lola l → LolaOk l

theorem saysAsil_ne {o : Obj} {q : Quality} (h : SaysAsil o q) : q ≠ .invalid := by
  rcases h with ⟨_, rfl⟩ | ⟨_, rfl⟩ <;> simp

theorem parseInstance_iff (tracing : Bool) (service : Service) (specifier : String)
    (t t' : List Element) (o : Obj) (p : Proper (.obj o)) (d : InstDep)
    (f : ∀ e ∈ t, e.specifier ≠ specifier) :
    parseInstance tracing service specifier t o = some (d, t') ↔
      d.service = service ∧ d.specifier = specifier ∧ SaysInstance o d ∧ DepOk d ∧
      t' = t ++ if tracing then slotsOf (specifier, d) else [] := by
  have tr : ∀ l, SaysLola o l → LolaOk l →
      (do let t ← traceAt service.name specifier .event "events" "eventName" t o
          traceAt service.name specifier .field "fields" "fieldName" t o) =
      some (t ++ slotsOf (specifier, ⟨service, .lola l, d.asil, specifier⟩)) := by
    intro l hl ok
    have h1 := traceAt_eq (fun e : EventDep => e.tracing) service.name specifier .event "events"
      "eventName" (fun o e (r : SaysEvent o e) => (⟨r.name, r.tracing⟩ : SaysSlots _ _ _)) o l.events t
      hl.events ok.1 (fun n hc => f _ hc rfl)
    have h2 := traceAt_eq (fun e : FieldDep => e.event.tracing) service.name specifier .field "fields"
      "fieldName" (fun o e (r : SaysField o e) => (⟨r.name, r.tracing⟩ : SaysSlots _ _ _)) o l.fields
      (t ++ (l.events.filter fun e => 0 < e.2.tracing).map (⟨service.name, ·.1, .event, specifier⟩))
      hl.fields ok.2.1 (by
        intro n hc
        rcases List.mem_append.1 hc with hc | hc
        · exact f _ hc rfl
        · obtain ⟨x, _, hx⟩ := List.mem_map.1 hc
          cases hx)
    simp only [bind, h1, Option.bind_some, h2, slotsOf, List.append_assoc]
  constructor
  · intro h
    simp only [parseInstance, bind, Option.bind_eq_some_iff, pure] at h
    obtain ⟨_, ha, q, rfl, h⟩ := h
    split at h
    · cases h
    · rename_i hq
      rw [Option.bind_eq_some_iff] at h
      obtain ⟨b, hb, h⟩ := h
      split at h
      · cases h
      · rename_i hS
        have hS : b = "SHM" := Decidable.of_not_not hS
        subst hS
        rw [Option.bind_eq_some_iff] at h
        obtain ⟨l, hl, h⟩ := h
        obtain ⟨hl, ok⟩ := (parseLola_iff o p l).1 hl
        have hb := (get_iff asStr_iff ..).1 hb
        have ha := (parseAsil_some o q hq).1 ha
        have fin : ∀ d', d' = (⟨service, .lola l, q, specifier⟩ : InstDep) →
            d'.service = service ∧ d'.specifier = specifier ∧ SaysInstance o d' ∧ DepOk d' := by
          rintro _ rfl
          refine ⟨rfl, rfl, ⟨ha, hb, l, rfl, hl⟩, ?_⟩
          intro l' e; injection e with e; subst e; exact ok
        cases tracing with
        | false =>
          simp only [Bool.false_eq_true, if_false, Option.some.injEq, Prod.mk.injEq] at h
          obtain ⟨rfl, rfl⟩ := h
          obtain ⟨a, b, c, e⟩ := fin _ rfl
          exact ⟨a, b, c, e, by simp⟩
        | true =>
          simp only [if_true, Option.bind_eq_some_iff, Option.some.injEq, Prod.mk.injEq] at h
          obtain ⟨t1, h1, t2, h2, rfl, rfl⟩ := h
          obtain ⟨a, b, c, e⟩ := fin _ rfl
          refine ⟨a, b, c, e, ?_⟩
          have := tr l hl ok
          simp only [bind, h1, Option.bind_some, h2, Option.some.injEq] at this
          simpa using this
  · rintro ⟨rfl, rfl, ⟨ha, hb, l, el, hl⟩, ok, rfl⟩
    have hq := saysAsil_ne ha
    have ed : d = ⟨d.service, .lola l, d.asil, d.specifier⟩ := by
      obtain ⟨_, _, _, _⟩ := d; dsimp only at el; subst el; rfl
    have ok := ok l el
    simp only [parseInstance, bind, Option.bind_eq_some_iff, pure]
    refine ⟨some d.asil, (parseAsil_some o _ hq).2 ha, d.asil, rfl, ?_⟩
    rw [if_neg hq, Option.bind_eq_some_iff]
    refine ⟨"SHM", (get_iff asStr_iff ..).2 hb, ?_⟩
    rw [if_neg (by simp), Option.bind_eq_some_iff]
    refine ⟨l, (parseLola_iff o p l).2 ⟨hl, ok⟩, ?_⟩
    cases tracing with
    | false =>
      simp only [Bool.false_eq_true, if_false, List.append_nil, Option.some.injEq, Prod.mk.injEq,
        and_true]
      exact ed.symm
    | true =>
      have := tr l hl ok
      simp only [bind] at this
      rw [Option.bind_eq_some_iff] at this
      obtain ⟨t1, h1, h2⟩ := this
      simp only [if_true, Option.bind_eq_some_iff, Option.some.injEq, Prod.mk.injEq]
      refine ⟨t1, h1, _, h2, ed.symm, ?_⟩
      rw [← ed]

theorem parseInstances_len (tracing : Bool) (service : Service) (specifier : String) :
    ∀ (js : List Json) (t t' : List Element) (ds : List InstDep),
      parseInstances tracing service specifier t js = some (ds, t') → ds.length = js.length
  | [], t, t', ds, h => by
    simp only [parseInstances, Option.some.injEq, Prod.mk.injEq] at h
    rw [← h.1]; rfl
  | j :: js, t, t', ds, h => by
    simp only [parseInstances] at h
    split at h
    · cases h
    · split at h
      · cases h
      · split at h
        · cases h
        · rename_i hr
          simp only [Option.some.injEq, Prod.mk.injEq] at h
          rw [← h.1, List.length_cons, List.length_cons,
            parseInstances_len tracing service specifier js _ _ _ hr]

theorem parseSection_iff (tracing : Bool) (t t' : List Element) (o : Obj) (p : Proper (.obj o))
    (s : String) (d : InstDep) (f : ∀ e ∈ t, e.specifier ≠ s) :
    parseSection tracing t o = some (s, d, t') ↔
      SaysSection o (s, d) ∧ ValidName s.toList ∧ DepOk d ∧
      t' = t ++ if tracing then slotsOf (s, d) else [] := by
  have one : ∀ (service : Service) (j : Json) (d' : InstDep),
      parseInstances tracing service s t [j] = some ([d'], t') ↔
        ∃ q, j = .obj q ∧ parseInstance tracing service s t q = some (d', t') := by
    intro service j d'
    simp only [parseInstances]
    constructor
    · intro h
      split at h
      · cases h
      · rename_i q hq
        split at h
        · cases h
        · rename_i d1 t1 h1
          simp only [Option.some.injEq, Prod.mk.injEq, List.cons.injEq, and_true] at h
          obtain ⟨rfl, rfl⟩ := h
          exact ⟨q, (asObj_iff ..).1 hq, h1⟩
    · rintro ⟨q, rfl, h⟩
      simp only [asObj, h]
  constructor
  · intro h
    simp only [parseSection, bind, Option.bind_eq_some_iff, pure] at h
    obtain ⟨s', hs, v, hv, l, hl, r, hr, h⟩ := h
    split at h
    · rename_i d' t1
      simp only [Option.some.injEq, Prod.mk.injEq] at h
      obtain ⟨rfl, rfl, rfl⟩ := h
      have len := parseInstances_len _ _ _ _ _ _ _ hr
      match l, len with
      | [j], _ =>
        obtain ⟨q, rfl, hi⟩ := (one v j d').1 hr
        have hl := (get_iff asList_iff ..).1 hl
        have pq := proper_item (proper_member p hl) (List.mem_singleton.2 rfl)
        obtain ⟨rfl, e2, si, ok, e⟩ := (parseInstance_iff tracing v s' t t1 q pq d' f).1 hi
        obtain ⟨hs, nm⟩ := (parseSpecifier_iff ..).1 hs
        exact ⟨⟨hs, e2, (parseService_iff ..).1 hv, q, hl, si⟩, nm, ok, e⟩
    · cases h
  · rintro ⟨⟨hs, e2, hv, q, hl, si⟩, nm, ok, e⟩
    dsimp only at hs e2 hv si
    have pq := proper_item (proper_member p hl) (List.mem_singleton.2 rfl)
    have hi := (parseInstance_iff tracing d.service s t t' q pq d f).2 ⟨rfl, e2, si, ok, e⟩
    have hr := (one d.service (.obj q) d).2 ⟨q, rfl, hi⟩
    simp only [parseSection, bind, Option.bind_eq_some_iff, pure]
    exact ⟨s, (parseSpecifier_iff ..).2 ⟨hs, nm⟩, d.service, (parseService_iff ..).2 hv, _,
      (get_iff asList_iff ..).2 hl, _, hr, rfl⟩

theorem slotsOf_specifier {s : String × InstDep} {e : Element} (h : e ∈ slotsOf s) :
    e.specifier = s.1 := by
  simp only [slotsOf] at h
  split at h
  · rcases List.mem_append.1 h with h | h
    · obtain ⟨x, _, rfl⟩ := List.mem_map.1 h; rfl
    · obtain ⟨x, _, rfl⟩ := List.mem_map.1 h; rfl
  · cases h

/-- A section that repeats a name cannot be added. -/
theorem parseSections_iff (tracing : Bool) : ∀ (js : List Json) (m m' : List (String × InstDep))
    (t t' : List Element), (∀ j ∈ js, Proper j) → Distinct m →
    (∀ e ∈ t, e.specifier ∈ m.map (·.1)) →
    (parseSections tracing m t js = some (m', t') ↔
      ∃ l, m' = m ++ l ∧ Each (fun j s => ∃ p, j = .obj p ∧ SaysSection p s) js l ∧ Distinct m' ∧
        (∀ s ∈ l, ValidName s.1.toList ∧ DepOk s.2) ∧
        t' = t ++ if tracing then l.flatMap slotsOf else [])
  | [], m, m', t, t', _, d, f => by
    simp only [parseSections, Option.some.injEq, Prod.mk.injEq]
    constructor
    · rintro ⟨rfl, rfl⟩; exact ⟨[], by simp, trivial, d, by simp, by simp⟩
    · rintro ⟨l, rfl, e, _, _, rfl⟩
      cases l with
      | nil => simp
      | cons _ _ => exact e.elim
  | j :: js, m, m', t, t', pj, d, f => by
    have next : ∀ (s : String) (dd : InstDep), ∀ e ∈ t ++ (if tracing then slotsOf (s, dd) else []),
        e.specifier ∈ (m ++ [(s, dd)]).map (·.1) := by
      intro s dd e he
      simp only [List.map_append, List.mem_append, List.map_cons, List.map_nil, List.mem_singleton]
      rcases List.mem_append.1 he with he | he
      · exact Or.inl (f e he)
      · cases tracing with
        | false => cases he
        | true => exact Or.inr (slotsOf_specifier he)
    have pjs : ∀ x ∈ js, Proper x := fun x hx => pj x (List.mem_cons_of_mem _ hx)
    constructor
    · intro h
      simp only [parseSections] at h
      split at h
      · cases h
      · rename_i o ho
        have ho := (asObj_iff ..).1 ho
        subst ho
        split at h
        · cases h
        · rename_i s dd t1 hs
          split at h
          · cases h
          · rename_i m1 hm
            obtain ⟨hk, rfl⟩ := (emplaceOrFatal_iff ..).1 hm
            have fr : ∀ e ∈ t, e.specifier ≠ s := fun e he c => hk (c ▸ f e he)
            obtain ⟨ss, nm, ok, rfl⟩ := (parseSection_iff tracing t t1 o (pj _ (by simp)) s dd fr).1 hs
            obtain ⟨l, rfl, e, d', a, rfl⟩ := (parseSections_iff tracing js _ m' _ t' pjs
              ((distinct_snoc ..).2 ⟨d, hk⟩) (next s dd)).1 h
            refine ⟨(s, dd) :: l, by simp, ⟨⟨o, rfl, ss⟩, e⟩, d', ?_, ?_⟩
            · intro x hx
              rcases List.mem_cons.1 hx with rfl | hx
              · exact ⟨nm, ok⟩
              · exact a x hx
            · cases tracing <;> simp
    · rintro ⟨l, rfl, e, d', a, rfl⟩
      cases l with
      | nil => exact e.elim
      | cons x l =>
        obtain ⟨⟨o, rfl, ss⟩, e⟩ := e
        obtain ⟨s, dd⟩ := x
        have d1 : Distinct (m ++ [(s, dd)]) := distinct_prefix _ l (by simpa using d')
        have hk := ((distinct_snoc ..).1 d1).2
        have fr : ∀ e ∈ t, e.specifier ≠ s := fun e he c => hk (c ▸ f e he)
        have ax := a (s, dd) (by simp)
        have hs := (parseSection_iff tracing t _ o (pj _ (by simp)) s dd fr).2 ⟨ss, ax.1, ax.2, rfl⟩
        simp only [parseSections, asObj, hs, (emplaceOrFatal_iff ..).2 ⟨hk, rfl⟩]
        refine (parseSections_iff tracing js _ _ _ _ pjs d1 (next s dd)).2
          ⟨l, by simp, e, d', fun y hy => a y (List.mem_cons_of_mem _ hy), ?_⟩
        cases tracing <;> simp

/-! ### Service types -/

theorem insertIds_iff : ∀ (l : List (String × UInt16)) (ids ids' : List UInt16), ids.Nodup →
    (insertIds ids l = some ids' ↔
      ids' = (l.map (·.2)).reverse ++ ids ∧ ids'.Nodup)
  | [], ids, ids', d => by
    simp only [insertIds, Option.some.injEq, List.map_nil, List.reverse_nil, List.nil_append]
    constructor
    · rintro rfl; exact ⟨rfl, d⟩
    · rintro ⟨rfl, _⟩; rfl
  | (n, i) :: l, ids, ids', d => by
    simp only [insertIds]
    split
    · rename_i h
      constructor
      · intro c; cases c
      · rintro ⟨rfl, nd⟩
        simp only [List.map_cons, List.reverse_cons, List.append_assoc, List.nodup_append] at nd
        have := nd.2.1.2.2 i (by simp) i h rfl
        exact this.elim
    · rename_i h
      rw [insertIds_iff l (i :: ids) ids' (List.nodup_cons.2 ⟨h, d⟩)]
      simp

theorem nodup_reverse {α : Type} (l : List α) : l.reverse.Nodup ↔ l.Nodup := by
  simp only [List.Nodup, List.pairwise_reverse]
  constructor <;> intro h <;> exact h.imp (fun a b => a b.symm)

theorem validateIds_iff (l : LolaType) (u : Unit) :
    validateIds l = some u ↔ ((l.events ++ l.fields ++ l.methods).map (·.2)).Nodup := by
  have e : ((l.events ++ l.fields ++ l.methods).map (·.2)).reverse =
      (l.methods.map (·.2)).reverse ++ ((l.fields.map (·.2)).reverse ++ ((l.events.map (·.2)).reverse ++ [])) := by
    simp
  rw [← nodup_reverse, e]
  simp only [validateIds, bind, Option.bind_eq_some_iff, pure]
  constructor
  · rintro ⟨a, ha, b, hb, c, hc, _⟩
    obtain ⟨rfl, da⟩ := (insertIds_iff _ _ _ (by simp)).1 ha
    obtain ⟨rfl, db⟩ := (insertIds_iff _ _ _ da).1 hb
    obtain ⟨rfl, dc⟩ := (insertIds_iff _ _ _ db).1 hc
    exact dc
  · intro h
    have db := (List.nodup_append.1 h).2.1
    have da := (List.nodup_append.1 db).2.1
    exact ⟨_, (insertIds_iff _ _ _ (by simp)).2 ⟨rfl, da⟩, _, (insertIds_iff _ _ _ da).2 ⟨rfl, db⟩,
      _, (insertIds_iff _ _ _ db).2 ⟨rfl, h⟩, trivial⟩

/-- What a service type must fulfil. -/
def TypeOk (l : LolaType) : Prop :=
  Distinct l.events ∧ Distinct l.fields ∧ Distinct l.methods ∧
    ((l.events ++ l.fields ++ l.methods).map (·.2)).Nodup

theorem parseLolaType_iff (o : Obj) (l : LolaType) :
    parseLolaType o = some l ↔ SaysLolaType o l ∧ TypeOk l := by
  simp only [parseLolaType, bind, Option.bind_eq_some_iff, pure]
  constructor
  · rintro ⟨i, hi, ev, h1, fi, h2, me, h3, _, hv, e⟩
    injection e with e; subst e
    have h1 := (gatherAt_iff (parseId_iff _ _) ..).1 h1
    have h2 := (gatherAt_iff (parseId_iff _ _) ..).1 h2
    have h3 := (gatherAt_iff (parseId_iff _ _) ..).1 h3
    exact ⟨⟨(get_iff asU16_iff ..).1 hi, h1.1, h2.1, h3.1⟩, h1.2, h2.2, h3.2,
      (validateIds_iff _ ()).1 hv⟩
  · rintro ⟨h, d1, d2, d3, d4⟩
    exact ⟨l.id, (get_iff asU16_iff ..).2 h.id, l.events,
      (gatherAt_iff (parseId_iff _ _) ..).2 ⟨h.events, d1⟩, l.fields,
      (gatherAt_iff (parseId_iff _ _) ..).2 ⟨h.fields, d2⟩, l.methods,
      (gatherAt_iff (parseId_iff _ _) ..).2 ⟨h.methods, d3⟩, (), (validateIds_iff _ ()).2 d4, rfl⟩

/-- A type that is said and in order. -/
def TypeSaid (o : Obj) (t : Service × TypeDep) : Prop :=
  SaysType o t ∧ ∀ l, t.2 = .lola l → TypeOk l

theorem parseType_iff (o : Obj) (t : Service × TypeDep) : parseType o = some t ↔ TypeSaid o t := by
  obtain ⟨s, d⟩ := t
  simp only [parseType, bind, Option.bind_eq_some_iff, pure, TypeSaid, SaysType]
  constructor
  · rintro ⟨s', hs, l, hl, d', hd, e⟩
    injection e with e; injection e with e1 e2; subst e1; subst e2
    have hl := (get_iff asList_iff ..).1 hl
    have hs := (parseService_iff ..).1 hs
    cases l with
    | nil =>
      simp only [parseBindings, Option.some.injEq] at hd
      subst hd
      exact ⟨⟨hs, Or.inl ⟨hl, rfl⟩⟩, fun l e => by cases e⟩
    | cons j rest =>
      simp only [parseBindings, bind, Option.bind_eq_some_iff, pure] at hd
      obtain ⟨p, hp, b, hb, hd⟩ := hd
      have hp := (asObj_iff ..).1 hp
      subst hp
      split at hd
      · rename_i e; subst e
        rw [Option.bind_eq_some_iff] at hd
        obtain ⟨l, h, e⟩ := hd
        injection e with e; subst e
        obtain ⟨h, ok⟩ := (parseLolaType_iff ..).1 h
        refine ⟨⟨hs, Or.inr ⟨p, rest, l, hl, (get_iff asStr_iff ..).1 hb, rfl, h⟩⟩, ?_⟩
        intro l' e; injection e with e; subst e; exact ok
      · cases hd
  · rintro ⟨⟨hs, h⟩, ok⟩
    rcases h with ⟨hl, rfl⟩ | ⟨p, rest, l, hl, hb, rfl, h⟩
    · exact ⟨s, (parseService_iff ..).2 hs, [], (get_iff asList_iff ..).2 hl, .blank, rfl, rfl⟩
    · refine ⟨s, (parseService_iff ..).2 hs, _, (get_iff asList_iff ..).2 hl, .lola l, ?_, rfl⟩
      simp only [parseBindings, bind, asObj, Option.bind_some, (get_iff asStr_iff ..).2 hb,
        if_true, (parseLolaType_iff ..).2 ⟨h, ok l rfl⟩, pure]

theorem each_and {α β : Type} {R : α → β → Prop} {P : β → Prop} :
    ∀ (l : List α) (r : List β), Each (fun a b => R a b ∧ P b) l r ↔ Each R l r ∧ ∀ b ∈ r, P b
  | [], [] => by simp [Each]
  | [], _ :: _ => by simp [Each]
  | _ :: _, [] => by simp [Each]
  | a :: l, b :: r => by
    simp only [Each, each_and l r, List.mem_cons, forall_eq_or_imp]
    constructor
    · rintro ⟨⟨h1, h2⟩, h3, h4⟩; exact ⟨⟨h1, h3⟩, h2, h4⟩
    · rintro ⟨⟨h1, h3⟩, h2, h4⟩; exact ⟨⟨h1, h2⟩, h3, h4⟩

theorem parseTypes_iff (o : Obj) (l : List (Service × TypeDep)) :
    parseTypes o = some l ↔
      (∃ js, Has o "serviceTypes" (.list js) ∧
        Each (fun j t => ∃ p, j = .obj p ∧ SaysType p t) js l) ∧ Distinct l ∧
      ∀ t ∈ l, ∀ x, t.2 = .lola x → TypeOk x := by
  have sp : ∀ js, Each (fun j t => ∃ p, j = Json.obj p ∧ TypeSaid p t) js l ↔
      Each (fun j t => ∃ p, j = Json.obj p ∧ SaysType p t) js l ∧
        ∀ t ∈ l, ∀ x, t.2 = .lola x → TypeOk x := by
    intro js
    rw [← each_and]
    apply each_iff
    intro a b
    constructor
    · rintro ⟨p, rfl, h, k⟩; exact ⟨⟨p, rfl, h⟩, k⟩
    · rintro ⟨⟨p, rfl, h⟩, k⟩; exact ⟨p, rfl, h, k⟩
  have d0 : Distinct ([] : List (Service × TypeDep)) := by simp [Distinct]
  simp only [parseTypes]
  constructor
  · intro h
    split at h
    · cases h
    · rename_i js hj
      obtain ⟨l', rfl, e, d⟩ := (gather_iff parseType_iff js [] l d0).1 h
      obtain ⟨e, k⟩ := (sp js).1 e
      exact ⟨⟨js, (get_iff asList_iff ..).1 hj, e⟩, d, k⟩
  · rintro ⟨⟨js, hj, e⟩, d, k⟩
    rw [(get_iff asList_iff ..).2 hj]
    exact (gather_iff parseType_iff js [] l d0).2 ⟨l, by simp, (sp js).2 ⟨e, k⟩, d⟩

/-! ### Global and tracing -/

theorem getOptI32_iff (o : Obj) (k : String) (d v : Int) (hd : In32 d) :
    (∃ x, getOpt asI32 o k = some x ∧ x.getD d = v) ↔ WithDefault .num o k d v ∧ In32 v := by
  simp only [getOpt, WithDefault, Has, Lacks]
  cases find o k with
  | none =>
    simp only [Option.some.injEq, exists_eq_left', Option.getD_none, true_and,
      reduceCtorEq, false_or]
    constructor
    · rintro rfl; exact ⟨rfl, hd⟩
    · rintro ⟨rfl, _⟩; rfl
  | some j =>
    simp only [Option.map_eq_some_iff, asI32_iff, Option.some.injEq, reduceCtorEq, false_and,
      or_false]
    constructor
    · rintro ⟨x, ⟨a, ⟨rfl, hi⟩, rfl⟩, rfl⟩; exact ⟨rfl, hi⟩
    · rintro ⟨rfl, hi⟩; exact ⟨_, ⟨v, ⟨rfl, hi⟩, rfl⟩, rfl⟩

theorem parseQueueSize_iff (o : Obj) (k : String) (d v : Int) (hd : In32 d) :
    (∃ x, parseQueueSize o k = some x ∧ x.getD d = v) ↔
      ((∃ q, Has o "queue-size" (.obj q) ∧ WithDefault .num q k d v) ∨
        (Lacks o "queue-size" ∧ v = d)) ∧ In32 v := by
  simp only [parseQueueSize]
  constructor
  · rintro ⟨x, h, e⟩
    split at h
    · cases h
    · rename_i h'
      injection h with h; subst h; subst e
      exact ⟨Or.inr ⟨(getOpt_iff asObj_iff _ _ none).1 h', rfl⟩, hd⟩
    · rename_i q hq
      have := (getOptI32_iff q k d v hd).1 ⟨x, h, e⟩
      exact ⟨Or.inl ⟨q, (getOpt_iff asObj_iff _ _ (some q)).1 hq, this.1⟩, this.2⟩
  · rintro ⟨⟨q, hq, w⟩ | ⟨h, rfl⟩, hi⟩
    · rw [(getOpt_iff asObj_iff _ _ (some q)).2 hq]
      exact (getOptI32_iff q k d v hd).2 ⟨w, hi⟩
    · rw [(getOpt_iff asObj_iff _ _ none).2 h]
      exact ⟨none, rfl, rfl⟩

theorem parseCalcMode_iff (o : Obj) (b : Bool) :
    (∃ x, parseCalcMode o = some x ∧ x.getD false = b) ↔ SaysMode o b := by
  simp only [parseCalcMode, SaysMode]
  constructor
  · rintro ⟨x, h, e⟩
    split at h
    · cases h
    · rename_i h'
      injection h with h; subst h; subst e
      exact Or.inr (Or.inr ⟨(getOpt_iff asStr_iff _ _ none).1 h', rfl⟩)
    · rename_i s hs
      have hs := (getOpt_iff asStr_iff _ _ (some s)).1 hs
      split at h
      · rename_i e'; subst e'; injection h with h; subst h; subst e
        exact Or.inr (Or.inl ⟨hs, rfl⟩)
      · split at h
        · rename_i e'; subst e'; injection h with h; subst h; subst e
          exact Or.inl ⟨hs, rfl⟩
        · cases h
  · rintro (⟨h, rfl⟩ | ⟨h, rfl⟩ | ⟨h, rfl⟩)
    · rw [(getOpt_iff asStr_iff _ _ (some "ANALYSIS")).2 h]; exact ⟨some true, by simp, rfl⟩
    · rw [(getOpt_iff asStr_iff _ _ (some "SIMULATION")).2 h]; exact ⟨some false, by simp, rfl⟩
    · rw [(getOpt_iff asStr_iff _ _ none).2 h]; exact ⟨none, rfl, rfl⟩

theorem parseAsilD_iff (o : Obj) (q : Quality) :
    (∃ x, parseAsil o = some x ∧ x ≠ some .invalid ∧ x.getD .qm = q) ↔
      SaysAsil o q ∨ (Lacks o "asil-level" ∧ q = .qm) := by
  constructor
  · rintro ⟨x, h, hn, e⟩
    cases x with
    | none => exact Or.inr ⟨(parseAsil_none o).1 h, e.symm⟩
    | some r =>
      simp only [Option.getD_some] at e
      subst e
      exact Or.inl ((parseAsil_some o r (fun c => hn (c ▸ rfl))).1 h)
  · rintro (h | ⟨h, rfl⟩)
    · have hn := saysAsil_ne h
      exact ⟨some q, (parseAsil_some o q hn).2 h, (by intro c; injection c with c; exact hn c), rfl⟩
    · exact ⟨none, (parseAsil_none o).2 h, (by simp), rfl⟩

theorem parseGlobal_iff (o : Obj) (g : Global) :
    parseGlobal o = some g ↔ SaysGlobal o g ∧ In32 g.rxQm ∧ In32 g.rxB ∧ In32 g.txB := by
  have i10 : In32 10 := by simp [In32]
  have i20 : In32 20 := by simp [In32]
  simp only [parseGlobal, SaysGlobal]
  constructor
  · intro h
    split at h
    · cases h
    · rename_i h'
      injection h with h; subst h
      exact ⟨Or.inr ⟨(getOpt_iff asObj_iff _ _ none).1 h', rfl⟩, i10, i10, i20⟩
    · rename_i p hp
      have hp := (getOpt_iff asObj_iff _ _ (some p)).1 hp
      simp only [bind, Option.bind_eq_some_iff, pure] at h
      obtain ⟨a, ha, h⟩ := h
      split at h
      · cases h
      · rename_i hn
        simp only [Option.bind_eq_some_iff] at h
        obtain ⟨x1, h1, x2, h2, x3, h3, md, h4, ap, h5, e⟩ := h
        injection e with e; subst e
        have q1 := (parseQueueSize_iff p "QM-receiver" 10 _ i10).1 ⟨_, h1, rfl⟩
        have q2 := (parseQueueSize_iff p "B-receiver" 10 _ i10).1 ⟨_, h2, rfl⟩
        have q3 := (parseQueueSize_iff p "B-sender" 20 _ i20).1 ⟨_, h3, rfl⟩
        refine ⟨Or.inl ⟨p, hp, (parseAsilD_iff ..).1 ⟨a, ha, hn, rfl⟩, (getOpt_iff asU32_iff ..).1 h5,
          ?_, (parseCalcMode_iff ..).1 ⟨_, h4, rfl⟩⟩, q1.2, q2.2, q3.2⟩
        rcases lacks_or_has p "queue-size" with hl | ⟨j, hl⟩
        · refine Or.inr ⟨hl, ?_⟩
          refine ⟨?_, ?_, ?_⟩
          · rcases q1.1 with ⟨q, c, _⟩ | ⟨_, c⟩
            · exact (has_lacks c hl).elim
            · exact c
          · rcases q2.1 with ⟨q, c, _⟩ | ⟨_, c⟩
            · exact (has_lacks c hl).elim
            · exact c
          · rcases q3.1 with ⟨q, c, _⟩ | ⟨_, c⟩
            · exact (has_lacks c hl).elim
            · exact c
        · rcases q1.1 with ⟨q, c1, w1⟩ | ⟨c, _⟩
          · rcases q2.1 with ⟨q', c2, w2⟩ | ⟨c, _⟩
            · rcases q3.1 with ⟨q'', c3, w3⟩ | ⟨c, _⟩
              · have e1 := has_inj c1 c2
                have e2 := has_inj c1 c3
                injection e1 with e1; injection e2 with e2
                subst e1; subst e2
                exact Or.inl ⟨q, c1, w1, w2, w3⟩
              · exact (has_lacks hl c).elim
            · exact (has_lacks hl c).elim
          · exact (has_lacks hl c).elim
  · rintro ⟨⟨p, hp, ha, happ, hq, hm⟩ | ⟨h, rfl⟩, i1, i2, i3⟩
    · rw [(getOpt_iff asObj_iff _ _ (some p)).2 hp]
      obtain ⟨a, ha, hn, ea⟩ := (parseAsilD_iff ..).2 ha
      obtain ⟨md, h4, em⟩ := (parseCalcMode_iff ..).2 hm
      have hqs : (∃ x, parseQueueSize p "QM-receiver" = some x ∧ x.getD 10 = g.rxQm) ∧
          (∃ x, parseQueueSize p "B-receiver" = some x ∧ x.getD 10 = g.rxB) ∧
          (∃ x, parseQueueSize p "B-sender" = some x ∧ x.getD 20 = g.txB) := by
        rcases hq with ⟨q, c, w1, w2, w3⟩ | ⟨c, w1, w2, w3⟩
        · exact ⟨(parseQueueSize_iff _ _ _ _ i10).2 ⟨Or.inl ⟨q, c, w1⟩, i1⟩,
            (parseQueueSize_iff _ _ _ _ i10).2 ⟨Or.inl ⟨q, c, w2⟩, i2⟩,
            (parseQueueSize_iff _ _ _ _ i20).2 ⟨Or.inl ⟨q, c, w3⟩, i3⟩⟩
        · exact ⟨(parseQueueSize_iff _ _ _ _ i10).2 ⟨Or.inr ⟨c, w1⟩, i1⟩,
            (parseQueueSize_iff _ _ _ _ i10).2 ⟨Or.inr ⟨c, w2⟩, i2⟩,
            (parseQueueSize_iff _ _ _ _ i20).2 ⟨Or.inr ⟨c, w3⟩, i3⟩⟩
      obtain ⟨⟨x1, h1, e1⟩, ⟨x2, h2, e2⟩, ⟨x3, h3, e3⟩⟩ := hqs
      simp only [bind, Option.bind_eq_some_iff, pure]
      refine ⟨a, ha, ?_⟩
      rw [if_neg hn]
      simp only [Option.bind_eq_some_iff]
      refine ⟨x1, h1, x2, h2, x3, h3, md, h4, g.app, (getOpt_iff asU32_iff ..).2 happ, ?_⟩
      simp only [Global.init, ea, em, e1, e2, e3]
    · rw [(getOpt_iff asObj_iff _ _ none).2 h]
      rfl

theorem parseTrace_iff (o : Obj) (t : Trace) : parseTrace o = some t ↔ SaysTrace o t := by
  simp only [parseTrace, SaysTrace]
  constructor
  · intro h
    split at h
    · cases h
    · rename_i h'
      injection h with h; subst h
      exact Or.inr ⟨(getOpt_iff asObj_iff _ _ none).1 h', rfl⟩
    · rename_i p hp
      simp only [bind, Option.bind_eq_some_iff, pure] at h
      obtain ⟨e, he, a, ha, pa, hpa, h⟩ := h
      injection h with h; subst h
      exact Or.inl ⟨p, (getOpt_iff asObj_iff _ _ (some p)).1 hp, (getD_iff asBool_iff ..).1 ⟨_, he, rfl⟩,
        (get_iff asStr_iff ..).1 ha, (getD_iff asStr_iff ..).1 ⟨_, hpa, rfl⟩⟩
  · rintro (⟨p, hp, he, ha, hpa⟩ | ⟨h, rfl⟩)
    · rw [(getOpt_iff asObj_iff _ _ (some p)).2 hp]
      obtain ⟨e, he, e1⟩ := (getD_iff asBool_iff ..).2 he
      obtain ⟨pa, hpa, e2⟩ := (getD_iff asStr_iff ..).2 hpa
      simp only [bind, Option.bind_eq_some_iff, pure]
      refine ⟨e, he, t.app, (get_iff asStr_iff ..).2 ha, pa, hpa, ?_⟩
      rw [e1, e2]
    · rw [(getOpt_iff asObj_iff _ _ none).2 h]

/-! ### The file -/

theorem parse_iff (j : Json) (p : Proper j) (c : Conf) : parse j = some c ↔ Says j c ∧ Valid c := by
  simp only [parse, bind, Option.bind_eq_some_iff, pure]
  constructor
  · rintro ⟨o, ho, tr, htr, ty, hty, l, hl, ⟨ins, td⟩, hs, g, hg, e⟩
    have ho := (asObj_iff ..).1 ho
    subst ho
    injection e with e; subst e
    have hl := (get_iff asList_iff ..).1 hl
    obtain ⟨ty1, ty2, ty3⟩ := (parseTypes_iff ..).1 hty
    obtain ⟨g1, g2⟩ := (parseGlobal_iff ..).1 hg
    obtain ⟨l', e1, e2, d, a, e3⟩ := (parseSections_iff tr.enabled l [] ins [] td
      (fun j hj => proper_item (proper_member p hl) hj) (by simp [Distinct]) (by simp)).1 hs
    simp only [List.nil_append] at e1 e3
    subst e1
    refine ⟨⟨⟨o, rfl, ty1, ⟨l, hl, e2⟩, g1, (parseTrace_iff ..).1 htr⟩⟩, ty2, d, fun s hs => (a s hs).1,
      fun s hs x hx => (a s hs).2 x hx, fun t ht x hx => ty3 t ht x hx, g2, e3⟩
  · rintro ⟨⟨⟨o, rfl, ty1, ⟨l, hl, e2⟩, g1, tr⟩⟩, v⟩
    have hs := (parseSections_iff c.trace.enabled l [] c.insts [] c.traced
      (fun j hj => proper_item (proper_member p hl) hj) (by simp [Distinct]) (by simp)).2
      ⟨c.insts, by simp, e2, v.insts, fun s hs => ⟨v.names s hs, fun x hx => v.elements s hs x hx⟩,
        by simpa using v.traced⟩
    exact ⟨o, rfl, c.trace, (parseTrace_iff ..).2 tr, c.types,
      (parseTypes_iff ..).2 ⟨ty1, v.types, fun t ht x hx => v.ids t ht x hx⟩, l,
      (get_iff asList_iff ..).2 hl, (c.insts, c.traced), hs, c.global,
      (parseGlobal_iff ..).2 ⟨g1, v.queues⟩, rfl⟩

theorem find_of_mem {κ α : Type} [DecidableEq κ] : ∀ (l : List (κ × α)) (k : κ) (v : α), Distinct l → (k, v) ∈ l →
    find l k = some v := by
  intro l
  induction l with
  | nil => intro k v _ h; cases h
  | cons x l ih =>
    obtain ⟨k', v'⟩ := x
    intro k v d h
    simp only [Distinct, List.map_cons, List.nodup_cons] at d
    simp only [find]
    rcases List.mem_cons.1 h with e | h
    · injection e with e1 e2; subst e1; subst e2; simp
    · split
      · rename_i e; subst e
        exact (d.1 (List.mem_map.2 ⟨_, h, rfl⟩)).elim
      · exact ih k v d.2 h

theorem each_left {α β : Type} {R : α → β → Prop} : ∀ (l : List α) (r : List β), Each R l r → ∀ a ∈ l, ∃ b ∈ r, R a b
  | [], [], _, _, h => by cases h
  | [], _ :: _, h, _, _ => h.elim
  | _ :: _, [], h, _, _ => h.elim
  | x :: l, y :: r, h, a, ha => by
    rcases List.mem_cons.1 ha with rfl | ha
    · exact ⟨y, by simp, h.1⟩
    · obtain ⟨b, hb, hr⟩ := each_left l r h.2 a ha
      exact ⟨b, by simp [hb], hr⟩

theorem each_right {α β : Type} {R : α → β → Prop} : ∀ (l : List α) (r : List β), Each R l r → ∀ b ∈ r, ∃ a ∈ l, R a b
  | [], [], _, _, h => by cases h
  | [], _ :: _, h, _, _ => h.elim
  | _ :: _, [], h, _, _ => h.elim
  | x :: l, y :: r, h, b, hb => by
    rcases List.mem_cons.1 hb with rfl | hb
    · exact ⟨x, by simp, h.1⟩
    · obtain ⟨a, ha, hr⟩ := each_right l r h.2 b hb
      exact ⟨a, by simp [ha], hr⟩

theorem ids_mem {l : LolaType} (h : ((l.events ++ l.fields ++ l.methods).map (·.2)).Nodup) {n n' : String} {i : UInt16} :
    ((n, i) ∈ l.events → (n', i) ∈ l.events → n = n') ∧ ((n, i) ∈ l.fields → (n', i) ∈ l.fields → n = n') ∧
    ((n, i) ∈ l.methods → (n', i) ∈ l.methods → n = n') ∧ ((n, i) ∈ l.events → (n', i) ∈ l.fields → False) ∧
    ((n, i) ∈ l.events → (n', i) ∈ l.methods → False) ∧ ((n, i) ∈ l.fields → (n', i) ∈ l.methods → False) := by
  have one : ∀ m : List (String × UInt16), (m.map (·.2)).Nodup → (n, i) ∈ m → (n', i) ∈ m → n = n' := by
    intro m
    induction m with
    | nil => intro _ h; cases h
    | cons x m ih =>
      intro d a b
      simp only [List.map_cons, List.nodup_cons] at d
      rcases List.mem_cons.1 a with e | a1
      · rcases List.mem_cons.1 b with e' | b1
        · rw [← e] at e'; injection e' with e' _; exact e'.symm
        · exact (d.1 (List.mem_map.2 ⟨_, b1, by rw [← e]⟩)).elim
      · rcases List.mem_cons.1 b with e' | b1
        · exact (d.1 (List.mem_map.2 ⟨_, a1, by rw [← e']⟩)).elim
        · exact ih d.2 a1 b1
  simp only [List.map_append, List.nodup_append] at h
  obtain ⟨⟨h1, h2, h3⟩, h4, h5⟩ := h
  have mm : ∀ {m : List (String × UInt16)} {n : String}, (n, i) ∈ m → i ∈ m.map (·.2) :=
    fun h => List.mem_map.2 ⟨_, h, rfl⟩
  refine ⟨one _ h1, one _ h2, one _ h4, fun a b => h3 i (mm a) i (mm b) rfl, fun a b => ?_, fun a b => ?_⟩
  · exact h5 i (List.mem_append.2 (Or.inl (mm a))) i (mm b) rfl
  · exact h5 i (List.mem_append.2 (Or.inr (mm a))) i (mm b) rfl

end Verif.ConfigParse
