import Verif.Spec.Ident
/-! # Lemmas: the text of identifiers -/
namespace Verif.Ident
open Verif.Json hiding get
open Verif.Spec.Ident

section maps
variable {κ α β : Type} [DecidableEq κ]

theorem find_put (l : List (κ × α)) (k : κ) (v : α) (k' : κ) :
    find (put l k v) k' = if k = k' then some v else find l k' := by
  induction l with
  | nil => simp [put, find]
  | cons p l ih =>
    obtain ⟨k0, v0⟩ := p
    simp only [put]
    split
    · rename_i h
      subst h
      simp only [find]
      split <;> rfl
    · rename_i h
      simp only [find, ih]
      split
      · rename_i h1
        subst h1
        simp [Ne.symm h]
      · rfl

theorem find_append (l r : List (κ × α)) (k : κ) :
    find (l ++ r) k = (find l k).or (find r k) := by
  induction l with
  | nil => simp [find]
  | cons p l ih =>
    obtain ⟨k0, v0⟩ := p
    simp only [List.cons_append, find]
    split
    · simp
    · exact ih

theorem find_none_iff (l : List (κ × α)) (k : κ) : find l k = none ↔ k ∉ l.map Prod.fst := by
  induction l with
  | nil => simp [find]
  | cons p l ih =>
    obtain ⟨k0, v0⟩ := p
    simp only [find, List.map_cons, List.mem_cons, not_or]
    split
    · rename_i h
      subst h
      simp
    · rename_i h
      rw [ih]
      constructor
      · exact fun h' => ⟨fun e => h e.symm, h'⟩
      · exact fun h' => h'.2

theorem find_mem {l : List (κ × α)} {k : κ} {v : α} (h : find l k = some v) : (k, v) ∈ l := by
  induction l with
  | nil => simp [find] at h
  | cons p l ih =>
    obtain ⟨k0, v0⟩ := p
    simp only [find] at h
    split at h
    · rename_i h1
      subst h1
      simp only [Option.some.injEq] at h
      subst h
      exact List.mem_cons_self ..
    · exact List.mem_cons_of_mem _ (ih h)

theorem find_of_mem {l : List (κ × α)} (hm : IsMap l) {k : κ} {v : α} (h : (k, v) ∈ l) :
    find l k = some v := by
  induction l with
  | nil => simp at h
  | cons p l ih =>
    obtain ⟨k0, v0⟩ := p
    simp only [IsMap, List.map_cons, List.nodup_cons] at hm
    simp only [List.mem_cons, Prod.mk.injEq] at h
    simp only [find]
    rcases h with ⟨h1, h2⟩ | h
    · simp [h1, h2]
    · split
      · rename_i h1
        subst h1
        exact absurd (List.mem_map_of_mem h) hm.1
      · exact ih hm.2 h

theorem find_putOpt {γ : Type} (to : γ → Json) (o : Obj) (k : String) (v : Option γ) (k' : String) :
    find (putOpt to o k v) k' =
      if k = k' then (match v with | some a => some (to a) | none => find o k') else find o k' := by
  cases v with
  | none => simp [putOpt]
  | some a => simp [putOpt, find_put]

/-- Reading what was written from a map. -/
theorem collect_map (nm : κ → String) (name : String → Option κ) (to : α → Json)
    (as : Json → Option β) (g : α → β) (hn : ∀ k, name (nm k) = some k)
    (hv : ∀ v, as (to v) = some (g v)) (l : List (κ × α)) (hm : IsMap l) (acc : List (κ × β))
    (hd : ∀ k ∈ l.map Prod.fst, find acc k = none) :
    collect name as (mapToJson nm to l) acc = some (acc ++ l.map fun p => (p.1, g p.2)) := by
  induction l generalizing acc with
  | nil => simp [mapToJson, collect]
  | cons p l ih =>
    obtain ⟨k0, v0⟩ := p
    simp only [IsMap, List.map_cons, List.nodup_cons] at hm
    have h0 : find acc k0 = none := hd k0 (by simp)
    have ih' := ih hm.2 (acc ++ [(k0, g v0)]) (by
      intro k hk
      rw [find_append, hd k (by simp only [List.map_cons, List.mem_cons]; exact Or.inr hk)]
      simp only [Option.none_or, find]
      split
      · rename_i h1
        subst h1
        exact absurd hk hm.1
      · rfl)
    simp only [mapToJson, List.map_cons, collect, hn, hv, h0] at ih' ⊢
    rw [ih']
    simp

theorem getMap_of {o : Obj} {k : String} (nm : κ → String) (name : String → Option κ) (to : α → Json)
    (as : Json → Option β) (g : α → β) (hn : ∀ k, name (nm k) = some k)
    (hv : ∀ v, as (to v) = some (g v)) (l : List (κ × α)) (hm : IsMap l)
    (ho : find o k = some (.obj (mapToJson nm to l))) :
    getMap name as o k = some (l.map fun p => (p.1, g p.2)) := by
  have h := collect_map nm name to as g hn hv l hm [] (by intro k _; rfl)
  simp only [getMap, Json.get, ho, asObj, h, List.nil_append]

end maps

/-! ### Numbers -/

theorem asU8_num (n : UInt8) : asU8 (num8 n) = some n := by
  have h := n.toNat_lt
  simp only [asU8, num8, asNat]
  rw [if_pos (by omega)]
  simp

theorem asU16_num (n : UInt16) : asU16 (num16 n) = some n := by
  have h := n.toNat_lt
  simp only [asU16, num16, asNat]
  rw [if_pos (by omega)]
  simp

theorem asU32_num (n : UInt32) : asU32 (num32 n) = some n := by
  have h := n.toNat_lt
  simp only [asU32, num32, asNat]
  rw [if_pos (by omega)]
  simp

theorem asU64_num (n : UInt64) : asU64 (num64 n) = some n := by
  have h := n.toNat_lt
  simp only [asU64, num64, asNat]
  rw [if_pos (by omega)]
  simp

theorem asU32_one : asU32 version1 = some 1 := by decide +kernel

theorem checkVersion_of {o : Obj} (h : find o "serializationVersion" = some version1) :
    checkVersion o = some () := by
  simp [checkVersion, Json.get, h, asU32_one]

theorem get_of {α : Type} {as : Json → Option α} {o : Obj} {k : String} {j : Json} {a : α}
    (h : find o k = some j) (ha : as j = some a) : Json.get as o k = some a := by
  simp only [Json.get, h, ha]

theorem bind_of {α β : Type} {x : Option α} {f : α → Option β} {a : α} {b : β} (hx : x = some a)
    (hf : f a = some b) : x.bind f = some b := by
  subst hx
  exact hf

theorem asInt_zero : asInt (.num 0) = some 0 := by decide +kernel

theorem asInt_one : asInt (.num 1) = some 1 := by decide +kernel

/-! ### The classes -/

theorem version_rt (v : Version) : Version.fromJson v.toJson = some v := by
  have hv : checkVersion v.toJson = some () := checkVersion_of (by simp [Version.toJson, find_put])
  have h1 : find v.toJson "majorVersion" = some (num32 v.major) := by simp [Version.toJson, find_put]
  have h2 : find v.toJson "minorVersion" = some (num32 v.minor) := by simp [Version.toJson, find_put]
  simp only [Version.fromJson, hv, get_of h1 (asU32_num _), get_of h2 (asU32_num _)]
  rfl

theorem service_from {o : Obj} {s : Service} (h1 : find o "serviceType" = some (.str s.name))
    (h2 : find o "version" = some (.obj s.version.toJson))
    (h3 : find o "serializationVersion" = some version1) : Service.fromJson o = some s := by
  simp only [Service.fromJson, checkVersion_of h3, get_of (as := asStr) h1 rfl,
    bind_of (get_of (as := asObj) h2 rfl) (version_rt _)]
  rfl

theorem service_rt (s : Service) : Service.fromJson s.toJson = some s :=
  service_from (by simp [Service.toJson, find_put]) (by simp [Service.toJson, find_put])
    (by simp [Service.toJson, find_put])

theorem quality_rt (q : Quality) : Quality.fromText q.toText = some q := by
  cases q <;> simp [Quality.fromText, Quality.toText]

theorem event_find (e : EventDep) :
    find e.toJson "serializationVersion" = some version1 ∧
    find e.toJson "numberOfSampleSlots" = e.slots.map num16 ∧
    find e.toJson "maxSubscribers" = e.subscribers.map num8 ∧
    find e.toJson "maxConcurrentAllocations" = e.allocations.map num8 ∧
    find e.toJson "enforceMaxSamples" = some (.bool e.enforce) ∧
    find e.toJson "numberOfIpcTracingSlots" = some (num8 0) := by
  simp only [EventDep.toJson, find_put, find_putOpt]
  refine ⟨by simp, ?_, ?_, ?_, by simp, by simp⟩
  · cases e.slots <;> simp [find]
  · cases e.subscribers <;> simp [find, find_putOpt]
  · cases e.allocations <;> simp [find, find_put, find_putOpt]

theorem getOpt_map {α : Type} (as : Json → Option α) (to : α → Json) (h : ∀ a, as (to a) = some a)
    {o : Obj} {k : String} {v : Option α} (hf : find o k = v.map to) : getOpt as o k = some v := by
  cases v with
  | none => simp [getOpt, hf]
  | some a => simp [getOpt, hf, h]

theorem event_from {o : Obj} {e : EventDep} (h : find o "serializationVersion" = some version1 ∧
    find o "numberOfSampleSlots" = e.slots.map num16 ∧
    find o "maxSubscribers" = e.subscribers.map num8 ∧
    find o "maxConcurrentAllocations" = e.allocations.map num8 ∧
    find o "enforceMaxSamples" = some (.bool e.enforce) ∧
    find o "numberOfIpcTracingSlots" = some (num8 0)) :
    EventDep.fromJson o = some (untracedEvent e) := by
  obtain ⟨h1, h2, h3, h4, h5, h6⟩ := h
  have h7 : getOpt asU8 o "numberOfIpcTracingSlots" = some (some 0) :=
    getOpt_map asU8 num8 asU8_num (v := some 0) h6
  simp only [EventDep.fromJson, checkVersion_of h1, getOpt_map asU16 num16 asU16_num h2,
    getOpt_map asU8 num8 asU8_num h3, getOpt_map asU8 num8 asU8_num h4, h7, Json.get, h5, asBool]
  simp [untracedEvent]

theorem event_rt (e : EventDep) : EventDep.fromJson e.toJson = some (untracedEvent e) :=
  event_from (event_find e)

theorem field_rt (f : FieldDep) :
    FieldDep.fromJson f.toJson = some { f with event := untracedEvent f.event } := by
  have hf := event_find f.event
  have he : EventDep.fromJson f.toJson = some (untracedEvent f.event) := by
    apply event_from
    simp only [FieldDep.toJson, find_put]
    simpa using hf
  simp only [FieldDep.fromJson, he]
  simp [FieldDep.toJson, Json.get, find_put, asBool]

theorem method_rt (m : MethodDep) : MethodDep.fromJson m.toJson = some m := by
  have hq : getOpt asU8 m.toJson "queueSize" = some m.queue := by
    apply getOpt_map asU8 num8 asU8_num
    simp only [MethodDep.toJson, find_put, find_putOpt]
    cases m.queue <;> simp [find]
  simp only [MethodDep.fromJson, hq]
  simp [MethodDep.toJson, Json.get, find_put, asBool]

theorem id_from {o : Obj} {i : UInt16} (h1 : find o "instanceId" = some (num16 i))
    (h2 : find o "serializationVersion" = some version1) : idFromJson (.obj o) = some i := by
  simp only [idFromJson, asObj, Option.bind_eq_bind, Option.bind_some, checkVersion_of h2,
    get_of h1 (asU16_num _)]
  rfl

theorem id_rt (i : UInt16) : idFromJson (idToJson i) = some i :=
  id_from (by simp [find_put]) (by simp [find_put])

theorem uids_rt (l : List UInt32) : uidsFromJson (.list (l.map num32)) = some l := by
  simp only [uidsFromJson, asList]
  induction l with
  | nil => rfl
  | cons a l ih => simp [List.mapM_cons, asU32_num, ih]

theorem lola_rt (l : Lola) (h : IsMap l.events ∧ IsMap l.fields ∧ IsMap l.methods ∧
    IsMap l.consumers ∧ IsMap l.providers) :
    Lola.fromJson l.toJson = some { l with
      events := l.events.map fun p => (p.1, untracedEvent p.2)
      fields := l.fields.map fun p => (p.1, { p.2 with event := untracedEvent p.2.event }) } := by
  obtain ⟨h1, h2, h3, h4, h5⟩ := h
  have he : getMap some (fun j => (asObj j).bind EventDep.fromJson) l.toJson "events" =
      some (l.events.map fun p => (p.1, untracedEvent p.2)) := by
    refine getMap_of (fun s => s) some (fun e => .obj (EventDep.toJson e)) _ untracedEvent
      (fun _ => rfl) (fun v => ?_) l.events h1 ?_
    · simp [asObj, event_rt]
    · simp [Lola.toJson, find_put]
  have hf : getMap some (fun j => (asObj j).bind FieldDep.fromJson) l.toJson "fields" =
      some (l.fields.map fun p => (p.1, { p.2 with event := untracedEvent p.2.event })) := by
    refine getMap_of (fun s => s) some (fun e => .obj (FieldDep.toJson e)) _
      (fun f => { f with event := untracedEvent f.event }) (fun _ => rfl) (fun v => ?_) l.fields h2 ?_
    · simp [asObj, field_rt]
    · simp [Lola.toJson, find_put]
  have hm : getMap some (fun j => (asObj j).bind MethodDep.fromJson) l.toJson "methods" =
      some l.methods := by
    have := getMap_of (o := l.toJson) (k := "methods") (fun s => s) some
      (fun e => .obj (MethodDep.toJson e)) (fun j => (asObj j).bind MethodDep.fromJson) (fun m => m)
      (fun _ => rfl) (fun v => by simp [asObj, method_rt]) l.methods h3
      (by simp [Lola.toJson, find_put])
    simpa using this
  have hc : getMap Quality.fromText uidsFromJson l.toJson "allowedConsumer" = some l.consumers := by
    have := getMap_of (o := l.toJson) (k := "allowedConsumer") Quality.toText Quality.fromText
      (fun l => .list (l.map num32)) uidsFromJson (fun m => m) quality_rt uids_rt l.consumers h4
      (by simp [Lola.toJson, find_put, uidsToJson])
    simpa using this
  have hp : getMap Quality.fromText uidsFromJson l.toJson "allowedProvider" = some l.providers := by
    have := getMap_of (o := l.toJson) (k := "allowedProvider") Quality.toText Quality.fromText
      (fun l => .list (l.map num32)) uidsFromJson (fun m => m) quality_rt uids_rt l.providers h5
      (by simp [Lola.toJson, find_put, uidsToJson])
    simpa using this
  have hv : checkVersion l.toJson = some () :=
    checkVersion_of (by simp [Lola.toJson, find_put, find_putOpt])
  have hi : getOpt idFromJson l.toJson "instanceId" = some l.id := by
    apply getOpt_map idFromJson idToJson id_rt
    simp only [Lola.toJson, find_put, find_putOpt]
    cases l.id <;> simp [find, find_put, find_putOpt]
  have hs : getOpt asU64 l.toJson "sharedMemorySize" = some l.shmSize := by
    apply getOpt_map asU64 num64 asU64_num
    simp only [Lola.toJson, find_put, find_putOpt]
    cases l.shmSize <;> simp [find, find_put, find_putOpt]
  have hb : getOpt asU64 l.toJson "controlAsilBMemorySize" = some l.ctlBSize := by
    apply getOpt_map asU64 num64 asU64_num
    simp only [Lola.toJson, find_put, find_putOpt]
    cases l.ctlBSize <;> simp [find, find_put, find_putOpt]
  have hq : getOpt asU64 l.toJson "controlQmMemorySize" = some l.ctlQmSize := by
    apply getOpt_map asU64 num64 asU64_num
    simp only [Lola.toJson, find_put, find_putOpt]
    cases l.ctlQmSize <;> simp [find, find_put, find_putOpt]
  have g1 : Json.get asBool l.toJson "strict" = some l.strict := by
    simp [Lola.toJson, Json.get, find_put, asBool]
  have g2 : Json.get asBool l.toJson "interVmSupport" = some l.interVm := by
    simp [Lola.toJson, Json.get, find_put, asBool]
  have g3 : Json.get asBool l.toJson "interVmForwarded" = some l.forwarded := by
    simp [Lola.toJson, Json.get, find_put, asBool]
  simp only [Lola.fromJson, he, hf, hm, hc, hp, hv, hi, hs, hb, hq, g1, g2, g3]
  rfl

theorem binding_blank {o : Obj} (h1 : find o "bindingInfoIndex" = some (.num 1)) :
    bindingFromJson o = some .blank := by
  simp only [bindingFromJson, get_of h1 asInt_one]
  simp

theorem binding_lola {o : Obj} {l l' : Lola} (h1 : find o "bindingInfoIndex" = some (.num 0))
    (h2 : find o "bindingInfo" = some (.obj l.toJson)) (h : Lola.fromJson l.toJson = some l') :
    bindingFromJson o = some (.lola l') := by
  simp only [bindingFromJson, get_of h1 asInt_zero, bind_of (get_of (as := asObj) h2 rfl) h]
  simp

theorem inst_from {o : Obj} {i : InstDep} (h1 : find o "service" = some (.obj i.service.toJson))
    (h2 : find o "asilLevel" = some (.str i.asil.toText))
    (h3 : find o "instanceSpecifier" = some (.str i.specifier))
    (hs : shortNameValid i.specifier.toList = true)
    (hv : find o "serializationVersion" = some version1)
    (h4 : bindingFromJson o = some i.binding) : InstDep.fromJson o = some i := by
  have hm : makeSpecifier i.specifier = some i.specifier := by simp [makeSpecifier, hs]
  simp only [InstDep.fromJson, bind_of (get_of (as := asObj) h1 rfl) (service_rt _),
    bind_of (get_of (as := asStr) h2 rfl) (quality_rt _), bind_of (get_of (as := asStr) h3 rfl) hm, h4,
    checkVersion_of hv]
  rfl

theorem untraced_service (i : InstDep) : (untraced i).service = i.service := by
  unfold untraced; split <;> rfl

theorem untraced_asil (i : InstDep) : (untraced i).asil = i.asil := by
  unfold untraced; split <;> rfl

theorem untraced_specifier (i : InstDep) : (untraced i).specifier = i.specifier := by
  unfold untraced; split <;> rfl

theorem inst_rt (i : InstDep) (h : Proper i) : InstDep.fromJson i.toJson = some (untraced i) := by
  obtain ⟨hs, hl⟩ := h
  refine inst_from ?_ ?_ ?_ ?_ ?_ ?_
  · rw [untraced_service]; simp [InstDep.toJson, find_put]
  · rw [untraced_asil]; simp [InstDep.toJson, find_put]
  · rw [untraced_specifier]; simp [InstDep.toJson, find_put]
  · rw [untraced_specifier]; exact hs
  · simp [InstDep.toJson, find_put]
  · cases hb : i.binding with
    | blank =>
      have h1 : find i.toJson "bindingInfoIndex" = some (.num 1) := by
        simp [InstDep.toJson, find_put, hb]
      rw [binding_blank h1]
      simp [untraced, hb]
    | lola l =>
      have h1 : find i.toJson "bindingInfoIndex" = some (.num 0) := by
        simp [InstDep.toJson, find_put, hb]
      have h2 : find i.toJson "bindingInfo" = some (.obj l.toJson) := by
        simp [InstDep.toJson, find_put, hb]
      rw [binding_lola h1 h2 (lola_rt l (hl l hb))]
      simp [untraced, hb]

theorem lolaType_rt (t : LolaType) (h : IsMap t.events ∧ IsMap t.fields ∧ IsMap t.methods) :
    LolaType.fromJson t.toJson = some t := by
  obtain ⟨h1, h2, h3⟩ := h
  have hv : checkVersion t.toJson = some () := checkVersion_of (by simp [LolaType.toJson, find_put])
  have key : ∀ (k : String) (l : List (String × UInt16)), IsMap l →
      find t.toJson k = some (.obj (mapToJson (fun s => s) num16 l)) →
      getMap some asU16 t.toJson k = some l := by
    intro k l hl hk
    have := getMap_of (o := t.toJson) (k := k) (fun s => s) some num16 asU16 (fun m => m)
      (fun _ => rfl) asU16_num l hl hk
    simpa using this
  have e1 := key "events" t.events h1 (by simp [LolaType.toJson, find_put])
  have e2 := key "fields" t.fields h2 (by simp [LolaType.toJson, find_put])
  have e3 := key "methods" t.methods h3 (by simp [LolaType.toJson, find_put])
  have e4 : find t.toJson "serviceId" = some (num16 t.id) := by simp [LolaType.toJson, find_put]
  simp only [LolaType.fromJson, e1, e2, e3, hv, get_of e4 (asU16_num _)]
  rfl

theorem type_blank {o : Obj} (h1 : find o "bindingInfoIndex" = some (.num 1))
    (hv : find o "serializationVersion" = some version1) : TypeDep.fromJson o = some .blank := by
  simp only [TypeDep.fromJson, checkVersion_of hv, get_of h1 asInt_one]
  simp

theorem type_lola {o : Obj} {l : LolaType} (h1 : find o "bindingInfoIndex" = some (.num 0))
    (h2 : find o "bindingInfo" = some (.obj l.toJson)) (h : LolaType.fromJson l.toJson = some l)
    (hv : find o "serializationVersion" = some version1) : TypeDep.fromJson o = some (.lola l) := by
  simp only [TypeDep.fromJson, checkVersion_of hv, get_of h1 asInt_zero,
    bind_of (get_of (as := asObj) h2 rfl) h]
  simp

theorem type_rt (t : TypeDep) (h : ProperType t) : TypeDep.fromJson t.toJson = some t := by
  cases t with
  | blank => exact type_blank (by simp [TypeDep.toJson, find_put]) (by simp [TypeDep.toJson, find_put])
  | lola l =>
    exact type_lola (by simp [TypeDep.toJson, find_put]) (by simp [TypeDep.toJson, find_put])
      (lolaType_rt l (h l rfl)) (by simp [TypeDep.toJson, find_put])

end Verif.Ident
