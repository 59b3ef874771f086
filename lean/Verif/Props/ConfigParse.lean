import Verif.Proofs.ConfigParse3

/-! C117: a configuration file is taken as it is written. -/

namespace Verif.Demo.ConfigParse
open Verif.Json Verif.Ident Verif.ConfigParse Verif.ConfigSays

def version : Json := .obj [("major", .num 1), ("minor", .num 2)]

/-- A service type with an event, a field and a method. -/
def typeBinding : Json :=
  .obj [("binding", .str "SHM"), ("serviceId", .num 7),
    ("events", .list [.obj [("eventName", .str "e"), ("eventId", .num 1)]]),
    ("fields", .list [.obj [("fieldName", .str "f"), ("fieldId", .num 2)]]),
    ("methods", .list [.obj [("methodName", .str "m"), ("methodId", .num 3)]])]

def typeSection (name : String) (bindings : List Json) : Json :=
  .obj [("serviceTypeName", .str name), ("version", version), ("bindings", .list bindings)]

/-- An instance; `event`, `field` and `more` are further members. -/
def instEntry (event field more : Obj) : Json :=
  .obj ([("instanceId", .num 5), ("asil-level", .str "B"), ("binding", .str "SHM"),
    ("events", .list [.obj (("eventName", .str "e") :: event)]),
    ("fields", .list [.obj (("fieldName", .str "f") :: field)]),
    ("methods", .list [.obj [("methodName", .str "m"), ("queueSize", .num 4)]])] ++ more)

def instSection (name : String) (instances : List Json) : Json :=
  .obj [("instanceSpecifier", .str name), ("serviceTypeName", .str "/s"), ("version", version),
    ("instances", .list instances)]

def file (types instances : List Json) (more : Obj) : Json :=
  .obj ([("serviceTypes", .list types), ("serviceInstances", .list instances)] ++ more)

/-- A file with most settings. -/
def full : Json :=
  file [typeSection "/s" [typeBinding]]
    [instSection "a/b" [instEntry
      [("numberOfSampleSlots", .num 10), ("maxSubscribers", .num 3), ("numberOfIpcTracingSlots", .num 1)]
      [("useSetIfAvailable", .bool false), ("enforceMaxSamples", .bool false)]
      [("shm-size", .num 4096), ("permission-checks", .str "strict"),
       ("allowedConsumer", .obj [("QM", .list [.num 1, .num 2]), ("B", .list [.num 3])])]]]
    [("global", .obj [("asil-level", .str "B"), ("queue-size", .obj [("B-sender", .num 50)])]),
     ("tracing", .obj [("enable", .bool true), ("applicationInstanceID", .str "app")])]

/-- What the file says. -/
def fullConf : Conf :=
  { types := [(⟨"/s", ⟨1, 2⟩⟩, .lola ⟨7, [("e", 1)], [("f", 2)], [("m", 3)]⟩)]
    insts := [("a/b", ⟨⟨"/s", ⟨1, 2⟩⟩,
      .lola
        { id := some 5, shmSize := some 4096, ctlBSize := none, ctlQmSize := none
          events := [("e", ⟨some 10, some 3, some 1, true, 1⟩)]
          fields := [("f", ⟨⟨none, none, some 1, false, 0⟩, true, false⟩)]
          methods := [("m", ⟨some 4, true⟩)]
          strict := true, consumers := [(.qm, [1, 2]), (.b, [3])], providers := []
          interVm := false, forwarded := false }, .b, "a/b"⟩)]
    global := { asil := .b, app := none, rxQm := 10, rxB := 10, txB := 50, analysis := false }
    trace := { enabled := true, app := "app", path := "./etc/mw_com_trace_filter.json" }
    traced := [⟨"/s", "e", .event, "a/b"⟩] }

def AllM : Obj → Prop
  | [] => True
  | (_, j) :: l => Proper j ∧ AllM l

def AllI : List Json → Prop
  | [] => True
  | j :: l => Proper j ∧ AllI l

theorem pobj (o : Obj) (d : Distinct o) (h : AllM o) : Proper (.obj o) := by
  refine Proper.obj o d ?_
  clear d
  induction o with
  | nil => intro k j hm; cases hm
  | cons x l ih =>
    intro k j hm
    rcases List.mem_cons.1 hm with e | hm
    · subst e; exact h.1
    · exact ih h.2 k j hm

theorem plist (l : List Json) (h : AllI l) : Proper (.list l) := by
  refine Proper.list l ?_
  induction l with
  | nil => intro j hm; cases hm
  | cons x l ih =>
    intro j hm
    rcases List.mem_cons.1 hm with e | hm
    · subst e; exact h.1
    · exact ih h.2 j hm

theorem proper_full : Proper full := by
  unfold full file typeSection instSection instEntry typeBinding version
  repeat' first
    | exact trivial
    | exact Proper.str _ | exact Proper.num _ | exact Proper.bool _
    | exact (by unfold Distinct; decide)
    | apply And.intro
    | apply pobj
    | apply plist

theorem parse_full : parse full = some fullConf := by decide +kernel

end Verif.Demo.ConfigParse

namespace Verif.Props.C117
open Verif.Json Verif.Ident Verif.ConfigParse Verif.ConfigSays Verif.Demo.ConfigParse

/-- A file gives a configuration exactly if it says this configuration, member by member, with the defaults for members that are left
out, and the configuration is in order: no name and no id is used twice, the instance specifiers are well formed, the numbers fit.
Every other file ends the process. -/
theorem as_written_partial (j : Json) (p : Proper j) (c : Conf) : parse j = some c ↔ Says j c ∧ Valid c := parse_iff j p c

/-- A file with most settings says what it should say. -/
example : Proper full ∧ Says full fullConf ∧ Valid fullConf :=
  ⟨proper_full, (as_written_partial full proper_full fullConf).1 parse_full⟩

/-- A file does not say two configurations. -/
theorem one_meaning (j : Json) (p : Proper j) (c c' : Conf) (h : Says j c ∧ Valid c) (h' : Says j c' ∧ Valid c') : c = c' := by
  have a := (parse_iff j p c).2 h
  have b := (parse_iff j p c').2 h'
  rw [a] at b; injection b

/-- Each section of the file is found under the instance specifier that stands in it. -/
theorem section_found (o : Obj) (p : Proper (.obj o)) (c : Conf) (h : parse (.obj o) = some c) (l : List Json)
    (hl : Has o "serviceInstances" (.list l)) (j : Json) (hj : j ∈ l) :
    ∃ q s d, j = .obj q ∧ SaysSection q (s, d) ∧ find c.insts s = some d := by
  obtain ⟨⟨o', e, _, ⟨l', hl', each⟩, _⟩, v⟩ := (parse_iff _ p c).1 h
  injection e with e; subst e
  have e := has_inj hl hl'
  injection e with e; subst e
  obtain ⟨⟨s, d⟩, hm, q, rfl, hs⟩ := each_left _ _ each j hj
  exact ⟨q, s, d, rfl, hs, find_of_mem _ _ _ v.insts hm⟩

/-- What is found under an instance specifier stands in the file under this specifier. -/
theorem found_is_written (o : Obj) (p : Proper (.obj o)) (c : Conf) (h : parse (.obj o) = some c) (s : String) (d : InstDep)
    (hs : find c.insts s = some d) :
    ∃ l q, Has o "serviceInstances" (.list l) ∧ Json.obj q ∈ l ∧ SaysSection q (s, d) := by
  obtain ⟨⟨o', e, _, ⟨l, hl, each⟩, _⟩, v⟩ := (parse_iff _ p c).1 h
  injection e with e; subst e
  obtain ⟨j, hj, q, rfl, hq⟩ := each_right _ _ each (s, d) (find_mem _ _ _ hs)
  exact ⟨l, q, hl, hj, hq⟩

/-- Each service type of the file is found under its name and version. -/
theorem type_found (o : Obj) (p : Proper (.obj o)) (c : Conf) (h : parse (.obj o) = some c) (l : List Json)
    (hl : Has o "serviceTypes" (.list l)) (j : Json) (hj : j ∈ l) :
    ∃ q s d, j = .obj q ∧ SaysType q (s, d) ∧ find c.types s = some d := by
  obtain ⟨⟨o', e, ⟨l', hl', each⟩, _⟩, v⟩ := (parse_iff _ p c).1 h
  injection e with e; subst e
  have e := has_inj hl hl'
  injection e with e; subst e
  obtain ⟨⟨s, d⟩, hm, q, rfl, hs⟩ := each_left _ _ each j hj
  exact ⟨q, s, d, rfl, hs, find_of_mem _ _ _ v.types hm⟩

example : ∃ o l j, full = .obj o ∧ Has o "serviceInstances" (.list l) ∧ j ∈ l ∧
    find fullConf.insts "a/b" ≠ none :=
  ⟨_, _, _, rfl, rfl, List.mem_singleton.2 rfl, by decide +kernel⟩

/-- Two elements of a service type, of whatever kind, have different ids. -/
theorem ids_differ (j : Json) (p : Proper j) (c : Conf) (h : parse j = some c) (s : Service) (l : LolaType)
    (hs : find c.types s = some (.lola l)) (n n' : String) (i : UInt16) :
    ((n, i) ∈ l.events → (n', i) ∈ l.events → n = n') ∧ ((n, i) ∈ l.fields → (n', i) ∈ l.fields → n = n') ∧
    ((n, i) ∈ l.methods → (n', i) ∈ l.methods → n = n') ∧ ((n, i) ∈ l.events → (n', i) ∉ l.fields) ∧
    ((n, i) ∈ l.events → (n', i) ∉ l.methods) ∧ ((n, i) ∈ l.fields → (n', i) ∉ l.methods) :=
  ids_mem ((parse_iff j p c).1 h |>.2.ids _ (find_mem _ _ _ hs) l rfl).2.2.2

/-- An event is traced exactly if tracing is switched on and the instance gives it slots for tracing. -/
theorem event_traced_iff (j : Json) (p : Proper j) (c : Conf) (h : parse j = some c) (service name specifier : String) :
    (⟨service, name, .event, specifier⟩ : Element) ∈ c.traced ↔
      c.trace.enabled = true ∧ ∃ d l x, find c.insts specifier = some d ∧ d.service.name = service ∧ d.binding = .lola l ∧
        find l.events name = some x ∧ 0 < x.tracing := by
  have v := ((parse_iff j p c).1 h).2
  rw [v.traced]
  constructor
  · intro hm
    split at hm
    · rename_i ht
      obtain ⟨⟨s, d⟩, hs, he⟩ := List.mem_flatMap.1 hm
      have hsp := slotsOf_specifier he
      dsimp only at hsp
      subst hsp
      simp only [slotsOf] at he
      split at he
      · rename_i l hl
        rcases List.mem_append.1 he with he | he
        · obtain ⟨⟨n, x⟩, hx, e⟩ := List.mem_map.1 he
          obtain ⟨hx, h0⟩ := List.mem_filter.1 hx
          simp only [Element.mk.injEq, and_true] at e
          obtain ⟨rfl, rfl⟩ := e
          exact ⟨ht, d, l, x, find_of_mem _ _ _ v.insts hs, rfl, hl,
            find_of_mem _ _ _ (v.elements _ hs l hl).1 hx, by simpa using h0⟩
        · obtain ⟨_, _, e⟩ := List.mem_map.1 he
          cases e
      · cases he
    · cases hm
  · rintro ⟨ht, d, l, x, hd, rfl, hl, hx, h0⟩
    rw [if_pos ht]
    refine List.mem_flatMap.2 ⟨(specifier, d), find_mem _ _ _ hd, ?_⟩
    simp only [slotsOf, hl]
    exact List.mem_append.2 (Or.inl (List.mem_map.2 ⟨(name, x), List.mem_filter.2 ⟨find_mem _ _ _ hx, by simpa using h0⟩, rfl⟩))

/-- The same for fields. -/
theorem field_traced_iff (j : Json) (p : Proper j) (c : Conf) (h : parse j = some c) (service name specifier : String) :
    (⟨service, name, .field, specifier⟩ : Element) ∈ c.traced ↔
      c.trace.enabled = true ∧ ∃ d l x, find c.insts specifier = some d ∧ d.service.name = service ∧ d.binding = .lola l ∧
        find l.fields name = some x ∧ 0 < x.event.tracing := by
  have v := ((parse_iff j p c).1 h).2
  rw [v.traced]
  constructor
  · intro hm
    split at hm
    · rename_i ht
      obtain ⟨⟨s, d⟩, hs, he⟩ := List.mem_flatMap.1 hm
      have hsp := slotsOf_specifier he
      dsimp only at hsp
      subst hsp
      simp only [slotsOf] at he
      split at he
      · rename_i l hl
        rcases List.mem_append.1 he with he | he
        · obtain ⟨_, _, e⟩ := List.mem_map.1 he
          cases e
        · obtain ⟨⟨n, x⟩, hx, e⟩ := List.mem_map.1 he
          obtain ⟨hx, h0⟩ := List.mem_filter.1 hx
          simp only [Element.mk.injEq, and_true] at e
          obtain ⟨rfl, rfl⟩ := e
          exact ⟨ht, d, l, x, find_of_mem _ _ _ v.insts hs, rfl, hl,
            find_of_mem _ _ _ (v.elements _ hs l hl).2.1 hx, by simpa using h0⟩
      · cases he
    · cases hm
  · rintro ⟨ht, d, l, x, hd, rfl, hl, hx, h0⟩
    rw [if_pos ht]
    refine List.mem_flatMap.2 ⟨(specifier, d), find_mem _ _ _ hd, ?_⟩
    simp only [slotsOf, hl]
    exact List.mem_append.2 (Or.inr (List.mem_map.2 ⟨(name, x), List.mem_filter.2 ⟨find_mem _ _ _ hx, by simpa using h0⟩, rfl⟩))

example : (⟨"/s", "e", .event, "a/b"⟩ : Element) ∈ fullConf.traced ∧ (⟨"/s", "f", .field, "a/b"⟩ : Element) ∉ fullConf.traced := by
  decide +kernel

/-! ### Where the documents say something else -/

/-- A file with one service type and one instance. -/
def small (event field more : Obj) : Json :=
  file [typeSection "/s" [typeBinding]] [instSection "a" [instEntry event field []]] more

/-- **Violated.** A section "tracing" without "enable" leaves tracing off; the schema gives `true` as the default (the README says
off). -/
theorem tracing_default_fails :
    (parse (small [] [] [("tracing", .obj [("applicationInstanceID", .str "app")])])).map (·.trace.enabled) = some false := by
  decide +kernel

/-- **Violated.** Without "useGetIfAvailable" and "useSetIfAvailable" a field is used with both; the README gives `false` as the default
(the schema says `true`). -/
theorem use_default_fails :
    (parse (small [] [] [])).map (fun c => c.insts.map fun s => match s.2.binding with
      | .lola l => l.fields.map fun f => (f.1, f.2.useGet, f.2.useSet)
      | .blank => []) = some [[("f", true, true)]] := by decide +kernel

/-- **Violated.** Several instances under one instance specifier, which the README offers to a consumer, end the process. -/
theorem several_instances_fails :
    parse (file [typeSection "/s" [typeBinding]] [instSection "a" [instEntry [] [] [], instEntry [] [] []]] []) = none ∧
    (parse (file [typeSection "/s" [typeBinding]] [instSection "a" [instEntry [] [] []]] [])).isSome := by decide +kernel

/-- **Violated.** Members that the schema does not have are passed over: a misspelt "maxSubscribers", and "maxSamples" of a field, have
no effect. -/
theorem unknown_member_fails :
    parse (small [("maxSubscriber", .num 3)] [("maxSamples", .num 10)] []) = parse (small [] [] []) ∧
    (parse (small [] [] [])).isSome := by decide +kernel

/-- **Violated.** Only the first binding of a service type is looked at; whatever follows has no effect. -/
theorem second_binding_fails :
    parse (file [typeSection "/s" [typeBinding, .str "nonsense"]] [] []) = parse (file [typeSection "/s" [typeBinding]] [] []) ∧
    (parse (file [typeSection "/s" [typeBinding]] [] [])).isSome := by decide +kernel

/-- **Violated.** An event without sample slots is accepted; the schema asks for at least one. -/
theorem no_slots_fails : (parse (small [("numberOfSampleSlots", .num 0)] [] [])).isSome := by decide +kernel

/-- **Violated.** Two service types may have the same service id, which the README rules out: their instances are then not told apart. -/
theorem same_service_id_fails :
    (parse (file [typeSection "/s" [typeBinding], typeSection "/t" [typeBinding]] [] [])).map (·.types.map (·.1.name)) =
      some ["/s", "/t"] := by decide +kernel

end Verif.Props.C117
