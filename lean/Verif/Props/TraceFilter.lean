import Verif.Proofs.TraceFilter
/-!
C108: exactly what the trace filter file asks for is traced.
-/
namespace Verif.Demo.C108
open Verif.TraceFilter Verif.Spec.TraceFilter

/-- A service "S" with an event "e" and a field "f", each with tracing slots in the instance "i". The event "g" has none. -/
def conf : Conf := ⟨true, [⟨"S", ["e", "g"], ["f"]⟩], [⟨"i", "S", [("e", 2), ("g", 0)], [("f", 1)]⟩]⟩

def file : Json :=
  .obj [("services", .list [.obj [("shortname_path", .str "S"),
    ("events", .list
      [.obj [("shortname", .str "e"), ("trace_subscribe_send", .bool true), ("trace_send", .bool true), ("trace_get_new_samples", .bool false),
        ("trace_subscription_state_changed", .bool true)],
       .obj [("shortname", .str "g"), ("trace_send", .bool true)]]),
    ("fields", .list [.obj [("shortname", .str "f"), ("notifier", .obj [("trace_update", .bool true)])]])]])]

/-- The answer for an element of `conf` with the filter of `file`. -/
def answer (c : Conf) (j : Json) (s n i : String) (p : Point) : Option (Option Bool) :=
  (load c (some j)).map fun f => f.bind fun f => isEnabled f s n i p

theorem plain : PlainConf conf := by
  intro t ht
  cases List.mem_singleton.mp ht
  refine ⟨show Plain "S" by unfold Plain; decide +kernel, fun field => ?_⟩
  unfold Plain
  cases field with
  | false => exact show ∀ x ∈ ["e", "g"], '\x00' ∉ x.toList by decide +kernel
  | true => exact show ∀ x ∈ ["f"], '\x00' ∉ x.toList by decide +kernel

theorem short : ShortConf conf := by
  intro t ht
  cases List.mem_singleton.mp ht
  intro field
  unfold Short
  cases field with
  | false => exact show ∀ x ∈ ["e", "g"], "S".utf8ByteSize + x.utf8ByteSize ≤ 1022 by decide +kernel
  | true => exact show ∀ x ∈ ["f"], "S".utf8ByteSize + x.utf8ByteSize ≤ 1022 by decide +kernel

theorem distinct : DistinctConf conf := by
  refine ⟨by decide +kernel, fun i hi field => ?_⟩
  cases List.mem_singleton.mp hi
  cases field with
  | false => exact show ["e", "g"].Nodup by decide +kernel
  | true => exact show ["f"].Nodup by decide +kernel

theorem answer_some {c : Conf} {j : Json} {s n i : String} {p : Point} {b : Bool} (h : answer c j s n i p = some (some b)) :
    ∃ f, load c (some j) = some (some f) ∧ isEnabled f s n i p = some b := by
  unfold answer at h
  obtain ⟨f, h1, h2⟩ := Option.map_eq_some_iff.mp h
  obtain ⟨f', h3, h4⟩ := Option.bind_eq_some_iff.mp h2
  subst h3
  exact ⟨f', h1, h4⟩

/-- A configuration whose event has a name with a zero character. -/
def nulConf : Conf := ⟨true, [⟨"S", ["a\x00b"], []⟩], [⟨"i", "S", [("a\x00b", 1)], []⟩]⟩

def nulFile : Json :=
  .obj [("services", .list [.obj [("shortname_path", .str "S"),
    ("events", .list [.obj [("shortname", .str "a\x00b"), ("trace_send", .bool true)]])]])]

def longConf (name : String) : Conf := ⟨true, [⟨"S", [name], []⟩], [⟨"i", "S", [(name, 1)], []⟩]⟩

def longFile (name : String) : Json :=
  .obj [("services", .list [.obj [("shortname_path", .str "S"),
    ("events", .list [.obj [("shortname", .str name), ("trace_send", .bool true)]])]])]

theorem long_size (n : Nat) : (String.ofList (List.replicate n 'x')).utf8ByteSize = n := by
  induction n with
  | zero => rfl
  | succ n ih =>
    rw [List.replicate_succ, ← List.singleton_append, String.ofList_append, String.utf8ByteSize_append, ih, Nat.add_comm]
    rfl

theorem long_plain (n : Nat) : Plain (String.ofList (List.replicate n 'x')) := by
  unfold Plain
  rw [String.toList_ofList, List.mem_replicate]
  rintro ⟨_, h⟩
  exact absurd h (by decide)

theorem long_load {name : String} (hp : Plain name) (h : 1022 ≤ name.utf8ByteSize) : load (longConf name) (some (longFile name)) = none := by
  cases hl : load (longConf name) (some (longFile name)) with
  | none => rfl
  | some r =>
    exfalso
    unfold load at hl
    obtain ⟨tm, ht, hl⟩ := Option.bind_eq_some_iff.mp hl
    have ht' : tm = [(⟨"S", name, false⟩, ["i"])] := by
      have : traced (longConf name) = some [(⟨"S", name, false⟩, ["i"])] := rfl
      rw [this] at ht
      cases ht
      rfl
    subst ht'
    obtain ⟨f, hf, _⟩ := Option.map_eq_some_iff.mp (show (parse (longConf name) _ (longFile name)).map some = some r from hl)
    obtain ⟨f1, hf, _⟩ := Option.bind_eq_some_iff.mp
      (show (parseService (longConf name) _ _ _).bind some = some f from hf)
    obtain ⟨f2, hf, _⟩ := Option.bind_eq_some_iff.mp
      (show ((parseElems (longConf name) [(⟨"S", name, false⟩, ["i"])] "S" false [("shortname_path", .str "S"),
        ("events", .list [.obj [("shortname", .str name), ("trace_send", .bool true)]])] {}).bind fun f => some f) = some f1 from hf)
    obtain ⟨f3, hf, _⟩ := Option.bind_eq_some_iff.mp
      (show (parseElem (longConf name) [(⟨"S", name, false⟩, ["i"])] "S" false (.obj [("shortname", .str name), ("trace_send", .bool true)]) {}).bind some = some f2 from hf)
    unfold parseElem at hf
    obtain ⟨o, ho, hf⟩ := Option.bind_eq_some_iff.mp hf
    cases ho
    rw [show List.lookup "shortname" [("shortname", Json.str name), ("trace_send", .bool true)] = some (.str name) from rfl] at hf
    obtain ⟨o, ho, hf⟩ := Option.bind_eq_some_iff.mp hf
    cases ho
    have hm : name ∈ elemNames (longConf name) "S" false := mem_elemNames.mpr ⟨⟨"S", [name], []⟩, List.mem_cons_self .., rfl, List.mem_cons_self ..⟩
    rw [if_pos hm] at hf
    obtain ⟨g, g', hg⟩ := foldlM_each hf "i" (mem_instances.mpr ⟨_, List.mem_cons_self .., rfl, rfl⟩)
    rw [if_pos (by unfold isTraced; simp), if_neg Bool.false_ne_true] at hg
    unfold addEvent at hg
    obtain ⟨g1, _, hg⟩ := Option.bind_eq_some_iff.mp hg
    obtain ⟨g2, hg, _⟩ := Option.bind_eq_some_iff.mp hg
    obtain ⟨k, k', hk⟩ := foldlM_each hg ("trace_send", .skelEvent .copy) (List.mem_cons_of_mem _ (List.mem_cons_self ..))
    have hk : add k "S" name "i" (.skelEvent .copy) = some k' := hk
    unfold add at hk
    dsimp only at hk
    rw [if_pos (by
      unfold tooLong
      dsimp only
      rw [cstr_plain hp]
      have : (stored "S").utf8ByteSize = 1 := by decide +kernel
      simp; omega)] at hk
    cases hk

end Verif.Demo.C108

namespace Verif.Props.C108
open Verif.TraceFilter Verif.Spec.TraceFilter Verif.Demo.C108

/-- For every configuration and every trace filter file that is accepted, every service, element and instance, and every trace point:
it is enabled exactly if the file asks for it and the configuration has the element in the service type and tracing slots for it in
the instance. _partial: names of the configuration must not contain a zero character (`nul_fails`), and service and element name are
together at most 1022 bytes long (`long_fails`). -/
theorem enabled_iff_partial {c : Conf} {j : Json} {f : Filter} (h : load c (some j) = some (some f)) (hp : PlainConf c) (e : Elem)
    (hs : Short e.service e.name) (inst : String) (p : Point) (hf : OfField p = e.field) :
    ∃ b, isEnabled f e.service e.name inst p = some b ∧ (b = true ↔ Wanted c j e inst p) := by
  obtain ⟨b, h1, h2⟩ := isEnabled_iff (f := f) (inst := inst) (p := p) hs
  refine ⟨b, h1, ?_⟩
  rw [h2, load_en h hp, ← ofField_eq p, hf]
  rfl

example : answer conf file "S" "e" "i" (.proxyEvent .subscribe) = some (some true) ∧
    answer conf file "S" "e" "i" (.skelEvent .copy) = some (some true) ∧
    answer conf file "S" "e" "i" (.skelEvent .allocate) = some (some false) ∧
    answer conf file "S" "e" "i" (.proxyEvent .getNew) = some (some false) ∧
    answer conf file "S" "e" "k" (.proxyEvent .subscribe) = some (some false) ∧
    answer conf file "S" "g" "i" (.skelEvent .copy) = some (some false) ∧
    answer conf file "S" "f" "i" (.skelField .allocate) = some (some true) ∧
    answer conf file "S" "f" "i" (.proxyField .subscribe) = some (some false) := by decide +kernel
example : PlainConf conf := plain

/-- Every trace filter file of the right form is accepted. With tracing switched off, there is no filter. _partial: names must not be
too long (`long_fails`). -/
theorem loads_partial {c : Conf} (hc : ShortConf c) (hd : DistinctConf c) {j : Json} (hj : WellFormed j) :
    ∃ f, load c (some j) = some f ∧ (f.isSome = true ↔ c.enabled = true) := by
  obtain ⟨tm, ht⟩ := traced_some hd
  obtain ⟨f, hf⟩ := parse_some (tm := tm) hc hj
  unfold load
  rw [ht]
  dsimp only [Option.bind_eq_bind, Option.bind]
  by_cases he : c.enabled = true
  · rw [if_pos he, hf]; exact ⟨some f, rfl, by simp [he]⟩
  · rw [if_neg he]; exact ⟨none, rfl, by simp [he]⟩

example : ShortConf conf ∧ DistinctConf conf := ⟨short, distinct⟩
example : WellFormed file := by
  have bool : ∀ (o : List (String × Json)), (∀ x ∈ o, (match x.2 with | .bool _ => true | _ => !(x.1.startsWith "trace_")) = true) →
      ∀ k v, At (.obj o) k v → k.startsWith "trace_" = true → IsBool v := by
    intro o
    induction o with
    | nil => rintro _ k v ⟨_, e, h⟩; cases e; cases h
    | cons a o ih =>
      rintro h k v hv hk
      rw [at_obj, List.lookup_cons] at hv
      split at hv
      · rename_i e
        cases hv
        have := h a (List.mem_cons_self ..)
        cases hb : a.2 with
        | bool b => exact ⟨b, rfl⟩
        | _ => rw [hb, ← eq_of_beq e, hk] at this; cases this
      · exact ih (fun x hx => h x (List.mem_cons_of_mem _ hx)) k v (at_obj.mpr hv) hk
  refine ⟨⟨_, rfl⟩, fun v hv => ?_⟩
  cases at_obj.mp hv
  refine ⟨⟨_, rfl⟩, ?_⟩
  rintro s ⟨_, e, hs⟩
  cases e
  cases List.mem_singleton.mp hs
  refine ⟨⟨_, rfl⟩, fun v hv => ?_, fun k v hk hv => ?_⟩
  · cases at_obj.mp hv; exact ⟨_, rfl⟩
  · rcases List.mem_cons.mp hk with rfl | hk
    · cases at_obj.mp hv
      refine ⟨⟨_, rfl⟩, ?_⟩
      rintro s ⟨_, e, hs⟩
      cases e
      rcases List.mem_cons.mp hs with rfl | hs
      · refine ⟨⟨_, rfl⟩, fun v hv => ?_, bool _ (by decide +kernel), fun k v hk hv => ?_⟩
        · cases at_obj.mp hv; exact ⟨_, rfl⟩
        · simp only [List.mem_cons, List.not_mem_nil, or_false] at hk
          rcases hk with rfl | rfl | rfl <;> cases at_obj.mp hv
      · cases List.mem_singleton.mp hs
        refine ⟨⟨_, rfl⟩, fun v hv => ?_, bool _ (by decide +kernel), fun k v hk hv => ?_⟩
        · cases at_obj.mp hv; exact ⟨_, rfl⟩
        · simp only [List.mem_cons, List.not_mem_nil, or_false] at hk
          rcases hk with rfl | rfl | rfl <;> cases at_obj.mp hv
    · cases List.mem_singleton.mp hk
      cases at_obj.mp hv
      refine ⟨⟨_, rfl⟩, ?_⟩
      rintro s ⟨_, e, hs⟩
      cases e
      cases List.mem_singleton.mp hs
      refine ⟨⟨_, rfl⟩, fun v hv => ?_, bool _ (by decide +kernel), fun k v hk hv => ?_⟩
      · cases at_obj.mp hv; exact ⟨_, rfl⟩
      · simp only [List.mem_cons, List.not_mem_nil, or_false] at hk
        rcases hk with rfl | rfl | rfl <;> cases at_obj.mp hv
        exact ⟨⟨_, rfl⟩, bool _ (by decide +kernel)⟩

/-- A consumer's element, the filter loaded from any file: as long as the trace subsystem switches nothing off, every sequence of
calls, notifications and deliveries is traced with exactly the wanted records, in the order in which things happened. _partial: what
concerns the subscription state is left out (`state_points_fails`). -/
theorem calls_traced_partial {c : Conf} {j : Json} {f : Filter} (h : load c (some j) = some (some f)) (hp : PlainConf c) (e : Elem)
    (hs : Short e.service e.name) (inst : String) :
    ∃ d, proxyData (some f) e inst = some d ∧ ∃ on : Notif → Bool, (∀ n, on n = true ↔ Wanted c j e inst (proxyPt e.field n)) ∧
      ∀ l, (∀ o ∈ l, Quiet o) →
        (run { data := d } l).log = ((history {} l).filter fun n => on n && !OfState n).map fun n => ⟨e, inst, proxyPt e.field n⟩ := by
  obtain ⟨d, hd⟩ := proxyData_some (f := some f) (inst := inst) hs
  refine ⟨d, hd, d.on, fun n => ?_, fun l hq => ?_⟩
  · obtain ⟨b, h1, h2⟩ := enabled_iff_partial h hp e hs inst (proxyPt e.field n) (by cases he : e.field <;> rfl)
    have := (proxyData_on hd n).2.2
    rw [show proxyPoint e.field n = proxyPt e.field n from rfl, h1] at this
    cases this
    exact h2
  · have := run_quiet (s := { data := d }) (v := {}) hq ⟨rfl, rfl, rfl, fun e => by cases e⟩
    rw [this, List.nil_append]
    unfold recs
    obtain ⟨e1, e2, _⟩ := proxyData_on hd .subscribe
    dsimp only
    rw [e1, e2]
    rfl

example : (load conf (some file)).bind (fun f => (proxyData f ⟨"S", "e", false⟩ "i").map fun d =>
    (run { data := d } [.subscribe true .ok, .getNew 2 1 .ok [], .unsubscribe .ok, .subscribe true .other]).log) =
    some [⟨⟨"S", "e", false⟩, "i", .proxyEvent .subscribe⟩, ⟨⟨"S", "e", false⟩, "i", .proxyEvent .subscribe⟩] := by decide +kernel

/-- Whatever the trace subsystem answers: nothing is traced that is not wanted, and every record names the element and the instance. -/
theorem calls_only_wanted {c : Conf} {j : Json} {f : Filter} (h : load c (some j) = some (some f)) (hp : PlainConf c) (e : Elem)
    (hs : Short e.service e.name) (inst : String) (l : List Op) {d : Data Notif} (hd : proxyData (some f) e inst = some d) :
    ∀ r ∈ (run { data := d } l).log, ∃ n, Wanted c j e inst (proxyPt e.field n) ∧ r = ⟨e, inst, proxyPt e.field n⟩ := by
  intro r hr
  obtain ⟨n, h1, h2⟩ := run_sub (s := { data := d }) (Sub.refl d) (fun r hr => by cases hr) r hr
  obtain ⟨e1, e2, e3⟩ := proxyData_on hd n
  obtain ⟨b, h3, h4⟩ := enabled_iff_partial h hp e hs inst (proxyPt e.field n) (by cases he : e.field <;> rfl)
  rw [show proxyPoint e.field n = proxyPt e.field n from rfl, h3, h1] at e3
  cases e3
  rw [e1, e2] at h2
  exact ⟨n, h4.mp rfl, h2⟩

example : (load conf (some file)).bind (fun f => (proxyData f ⟨"S", "e", false⟩ "i").map fun d =>
    ((run { data := d } [.subscribe true .disableAll, .unsubscribe .ok, .subscribe true .other]).log).length) = some 1 := by decide +kernel

/-- A provider's element: as long as the trace subsystem switches nothing off, exactly the wanted ones among the samples that are
sent are traced, in order. -/
theorem sends_traced_partial {c : Conf} {j : Json} {f : Filter} (h : load c (some j) = some (some f)) (hp : PlainConf c) (e : Elem)
    (hs : Short e.service e.name) (inst : String) :
    ∃ d, skelData (some f) e inst = some d ∧ ∃ on : Out → Bool, (∀ n, on n = true ↔ Wanted c j e inst (skelPt e.field n)) ∧
      ∀ l, (∀ o ∈ l, o.a = .ok ∨ o.a = .other) →
        (sendRun { data := d } l).log = ((l.filter (·.ok)).filter fun o => on o.kind).map fun o => ⟨e, inst, skelPt e.field o.kind⟩ := by
  obtain ⟨d, hd⟩ := skelData_some (f := some f) (inst := inst) hs
  refine ⟨d, hd, d.on, fun n => ?_, fun l hq => ?_⟩
  · obtain ⟨b, h1, h2⟩ := enabled_iff_partial h hp e hs inst (skelPt e.field n) (by cases he : e.field <;> rfl)
    have := (skelData_on hd n).2.2
    rw [show skelPoint e.field n = skelPt e.field n from rfl, h1] at this
    cases this
    exact h2
  · have := sendRun_quiet (s := { data := d }) hq
    rw [this, List.nil_append, List.filter_filter]
    obtain ⟨e1, e2, _⟩ := skelData_on hd .copy
    dsimp only
    rw [e1, e2]
    congr 1
    congr 1
    funext o
    exact Bool.and_comm ..

example : (load conf (some file)).bind (fun f => (skelData f ⟨"S", "f", true⟩ "i").map fun d =>
    (sendRun { data := d } [⟨.copy, true, .ok⟩, ⟨.allocate, true, .other⟩, ⟨.copy, false, .ok⟩]).log) =
    some [⟨⟨"S", "f", true⟩, "i", .skelField .copy⟩, ⟨⟨"S", "f", true⟩, "i", .skelField .allocate⟩] := by decide +kernel

/-- Whatever the trace subsystem answers: no sample is traced that is not wanted. -/
theorem sends_only_wanted {c : Conf} {j : Json} {f : Filter} (h : load c (some j) = some (some f)) (hp : PlainConf c) (e : Elem)
    (hs : Short e.service e.name) (inst : String) (l : List Send) {d : Data Out} (hd : skelData (some f) e inst = some d) :
    ∀ r ∈ (sendRun { data := d } l).log, ∃ n, Wanted c j e inst (skelPt e.field n) ∧ r = ⟨e, inst, skelPt e.field n⟩ := by
  intro r hr
  obtain ⟨n, h1, h2⟩ := sendRun_sub (s := { data := d }) (Sub.refl d) (fun r hr => by cases hr) r hr
  obtain ⟨e1, e2, e3⟩ := skelData_on hd n
  obtain ⟨b, h3, h4⟩ := enabled_iff_partial h hp e hs inst (skelPt e.field n) (by cases he : e.field <;> rfl)
  rw [show skelPoint e.field n = skelPt e.field n from rfl, h3, h1] at e3
  cases e3
  rw [e1, e2] at h2
  exact ⟨n, h4.mp rfl, h2⟩

example : (load conf (some file)).bind (fun f => (skelData f ⟨"S", "e", false⟩ "i").map fun d =>
    (sendRun { data := d } [⟨.copy, true, .disablePoint⟩, ⟨.copy, true, .ok⟩]).log) =
    some [⟨⟨"S", "e", false⟩, "i", .skelEvent .copy⟩] := by decide +kernel

/-- Without a filter, because tracing is switched off or the filter file cannot be read, nothing is traced. -/
theorem no_filter_no_trace {c : Conf} {file : Option Json} {f : Option Filter} (h : load c file = some f)
    (hoff : c.enabled = false ∨ file = none) (e : Elem) (inst : String) :
    (∃ d, proxyData f e inst = some d ∧ ∀ l, (run { data := d } l).log = []) ∧
      ∃ d, skelData f e inst = some d ∧ ∀ l, (sendRun { data := d } l).log = [] := by
  have hf : f = none := by
    cases f with
    | none => rfl
    | some f =>
      obtain ⟨_, _, _, h2, _, h3⟩ := load_some h
      rcases hoff with he | he
      · rw [he] at h3; cases h3
      · rw [he] at h2; cases h2
  subst hf
  refine ⟨⟨_, rfl, fun l => ?_⟩, ⟨_, rfl, fun l => ?_⟩⟩
  · rw [List.eq_nil_iff_forall_not_mem]
    intro r hr
    obtain ⟨_, h1, _⟩ := run_sub (d0 := ⟨e, inst, fun _ => false⟩) (s := { data := ⟨e, inst, fun _ => false⟩ }) (Sub.refl _)
      (fun r hr => by cases hr) r hr
    cases h1
  · rw [List.eq_nil_iff_forall_not_mem]
    intro r hr
    obtain ⟨_, h1, _⟩ := sendRun_sub (d0 := ⟨e, inst, fun _ => false⟩) (s := { data := ⟨e, inst, fun _ => false⟩ }) (Sub.refl _)
      (fun r hr => by cases hr) r hr
    cases h1

example : (load conf none).isSome = true ∧ (load { conf with enabled := false } (some file)).isSome = true := by decide +kernel

/-- If the trace subsystem answers a record of a consumer's call with "disable this trace point", this trace point is never recorded
again for the element; with "disable all", nothing is. -/
theorem calls_switched_off {s : Proxy} {o : Op} {n : Notif} {a : Answer} (ha : Says o n a) {new : List Rec}
    (hl : (run s [o]).log = s.log ++ new) (hn : ∃ r ∈ new, r.point = proxyPt s.data.elem.field n) (l : List Op) :
    ∃ rest, (run s (o :: l)).log = s.log ++ new ++ rest ∧ (a = .disablePoint → ∀ r ∈ rest, r.point ≠ proxyPt s.data.elem.field n) ∧
      (a = .disableAll → rest = []) := by
  obtain ⟨r, hr, hp⟩ := hn
  have hoff := step_offs ha hl hr hp
  obtain ⟨rest, h1, h2⟩ := run_later l (step s o)
  refine ⟨rest, ?_, fun e r hr hp => ?_, fun e => ?_⟩
  · rw [← hl]; exact h1
  · obtain ⟨x, hx, e'⟩ := h2 r hr
    rw [e'] at hp
    cases proxyPoint_inj (b' := s.data.elem.field) hp
    rw [hoff.1 e] at hx
    cases hx
  · rw [List.eq_nil_iff_forall_not_mem]
    intro r hr
    obtain ⟨x, hx, _⟩ := h2 r hr
    rw [hoff.2 e x] at hx
    cases hx

example : let s : Proxy := { data := ⟨⟨"S", "e", false⟩, "i", fun _ => true⟩ }
    Says (.getNew 3 2 .ok [.disablePoint]) .callback .disablePoint ∧
    (run s [.getNew 3 2 .ok [.disablePoint]]).log = s.log ++
      [⟨⟨"S", "e", false⟩, "i", .proxyEvent .getNew⟩, ⟨⟨"S", "e", false⟩, "i", .proxyEvent .callback⟩] := by
  exact ⟨.callback, by decide +kernel⟩

/-- The same for a provider. -/
theorem sends_switched_off {s : Skel} {o : Send} (hok : o.ok = true) (hon : s.data.on o.kind = true) (l : List Send) :
    ∃ rest, (sendRun s (o :: l)).log = s.log ++ [⟨s.data.elem, s.data.inst, skelPt s.data.elem.field o.kind⟩] ++ rest ∧
      (o.a = .disablePoint → ∀ r ∈ rest, r.point ≠ skelPt s.data.elem.field o.kind) ∧ (o.a = .disableAll → rest = []) := by
  obtain ⟨rest, h1, h2⟩ := sendRun_later l (sendStep s o)
  have hs : sendStep s o = { data := (trace skelPoint s.data o.kind o.a).1, log := s.log ++ (trace skelPoint s.data o.kind o.a).2 } := by
    unfold sendStep; rw [if_pos hok, if_pos hon]
  have ht : (trace skelPoint s.data o.kind o.a).2 = [⟨s.data.elem, s.data.inst, skelPt s.data.elem.field o.kind⟩] := by
    unfold trace; rw [if_pos hon]; rfl
  refine ⟨rest, ?_, fun e r hr hp => ?_, fun e => ?_⟩
  · show (sendRun (sendStep s o) l).log = _
    rw [h1, hs, ht]
  · obtain ⟨x, hx, e'⟩ := h2 r hr
    rw [hs] at hx e'
    unfold trace at hx e'
    rw [if_pos hon, e] at hx e'
    dsimp only at hx e'
    rw [e'] at hp
    have : x = o.kind := by
      revert hp; unfold skelPoint skelPt
      cases s.data.elem.field <;> intro hp <;> cases hp <;> rfl
    rw [if_pos this] at hx
    cases hx
  · rw [List.eq_nil_iff_forall_not_mem]
    intro r hr
    obtain ⟨x, hx, _⟩ := h2 r hr
    rw [hs] at hx
    unfold trace at hx
    rw [if_pos hon, e] at hx
    cases hx

example : let s : Skel := { data := ⟨⟨"S", "e", false⟩, "i", fun _ => true⟩ }
    s.data.on .copy = true ∧ (sendRun s [⟨.copy, true, .disableAll⟩, ⟨.allocate, true, .ok⟩]).log.length = 1 := by decide +kernel

/-- **Violated.** The trace filter file can ask for the trace points of the subscription state. They are accepted and enabled. But
whatever happens, they are never traced: the flags are read into the tracing data and nobody uses them. -/
theorem state_points_fails :
    ∃ c j f d, load c (some j) = some (some f) ∧ PlainConf c ∧ Wanted c j ⟨"S", "e", false⟩ "i" (.proxyEvent .stateChange) ∧
      isEnabled f "S" "e" "i" (.proxyEvent .stateChange) = some true ∧ proxyData (some f) ⟨"S", "e", false⟩ "i" = some d ∧
      .stateChange ∈ history {} [.stateChange] ∧
      ∀ l, ∀ r ∈ (run { data := d } l).log, ∀ n, OfState n = true → r.point ≠ proxyPt false n := by
  obtain ⟨f, h1, h2⟩ := answer_some (show answer conf file "S" "e" "i" (.proxyEvent .stateChange) = some (some true) by decide +kernel)
  have hs : Short "S" "e" := by unfold Short; decide +kernel
  obtain ⟨b, h3, h4⟩ := enabled_iff_partial h1 plain ⟨"S", "e", false⟩ hs "i" (.proxyEvent .stateChange) rfl
  obtain ⟨d, hd⟩ := proxyData_some (f := some f) (e := ⟨"S", "e", false⟩) (inst := "i") hs
  refine ⟨conf, file, f, d, h1, plain, h4.mp ?_, h2, hd, List.mem_cons_self .., fun l r hr n hn e => ?_⟩
  · have : some b = some true := h3.symm.trans h2
    cases this; rfl
  · have := run_noState (s := { data := d }) (fun r hr => by cases hr) r hr false n e
    rw [this] at hn
    cases hn

/-- **Violated.** An event whose name contains a zero character: the file asks for a trace point, tracing is configured, and yet the
trace point is not enabled. It is enabled for a name that no file mentions: the name up to the zero character. The stored names are
views that are made from a pointer. -/
theorem nul_fails :
    ∃ c j f, load c (some j) = some (some f) ∧ Wanted c j ⟨"S", "a\x00b", false⟩ "i" (.skelEvent .copy) ∧
      isEnabled f "S" "a\x00b" "i" (.skelEvent .copy) = some false ∧
      ¬ Asked j "S" "a" (.skelEvent .copy) ∧ isEnabled f "S" "a" "i" (.skelEvent .copy) = some true := by
  obtain ⟨f, h1, h2⟩ := answer_some (show answer nulConf nulFile "S" "a\x00b" "i" (.skelEvent .copy) = some (some false) by decide +kernel)
  obtain ⟨f', h1', h3⟩ := answer_some (show answer nulConf nulFile "S" "a" "i" (.skelEvent .copy) = some (some true) by decide +kernel)
  rw [h1] at h1'
  cases h1'
  refine ⟨nulConf, nulFile, f, h1, ⟨⟨_, _, _, _, ⟨_, rfl, rfl⟩, ⟨_, rfl, List.mem_cons_self ..⟩, ⟨_, rfl, rfl⟩, ⟨_, rfl, rfl⟩,
    ⟨_, rfl, List.mem_cons_self ..⟩, ⟨_, rfl, rfl⟩, ⟨_, rfl, rfl⟩⟩, rfl, ⟨_, List.mem_cons_self .., rfl, rfl, 1, by decide,
    List.mem_cons_self ..⟩, _, List.mem_cons_self .., rfl, List.mem_cons_self ..⟩, h2, ?_, h3⟩
  rintro ⟨ss, s, es, e, h4, ⟨_, e5, h5⟩, _, h7, ⟨_, e8, h8⟩, h9, _⟩
  cases at_obj.mp h4
  cases e5
  cases List.mem_singleton.mp h5
  cases at_obj.mp h7
  cases e8
  cases List.mem_singleton.mp h8
  have := at_obj.mp h9
  have : some (Json.str "a\x00b") = some (Json.str "a") := this
  simp only [Option.some.injEq, Json.str.injEq] at this
  exact absurd this (by decide +kernel)

/-- **Violated.** A service and an event whose names have together 1023 bytes or more: the configuration and the filter file are
accepted by all checks, but adding a trace point ends the process. -/
theorem long_fails (n : Nat) (hn : 1022 ≤ n) :
    ∃ c j name, Plain name ∧ name.utf8ByteSize = n ∧ Wanted c j ⟨"S", name, false⟩ "i" (.skelEvent .copy) ∧ load c (some j) = none := by
  refine ⟨longConf (String.ofList (List.replicate n 'x')), longFile (String.ofList (List.replicate n 'x')), _, long_plain n, long_size n,
    ⟨⟨_, _, _, _, ⟨_, rfl, rfl⟩, ⟨_, rfl, List.mem_cons_self ..⟩, ⟨_, rfl, rfl⟩, ⟨_, rfl, rfl⟩,
    ⟨_, rfl, List.mem_cons_self ..⟩, ⟨_, rfl, rfl⟩, ⟨_, rfl, rfl⟩⟩, rfl, ⟨_, List.mem_cons_self .., rfl, rfl, 1, by decide,
    List.mem_cons_self ..⟩, _, List.mem_cons_self .., rfl, List.mem_cons_self ..⟩, long_load (long_plain n) (by rw [long_size]; exact hn)⟩

end Verif.Props.C108
