import Verif.Proofs.IdentCreate
import Verif.Proofs.IdentOrder
/-!
# C97, C98, C99: instance identifiers and instance specifiers

C97: an identifier that is turned into text and back is the same identifier.
C98: comparison and hash of identifiers are what sets, maps and hash maps need.
C99: which names are instance specifiers.
-/

namespace Verif.Demo.C97
open Verif.Ident Verif.Spec.Ident

/-- A service. -/
def radar : Service := { name := "/score/Radar", version := { major := 1, minor := 7 } }

/-- Another one. -/
def camera : Service := { name := "/score/Camera", version := { major := 2, minor := 0 } }

/-- An event with tracing slots. -/
def traced (n : UInt8) : EventDep :=
  { slots := some 10, subscribers := some 3, allocations := none, enforce := true, tracing := n }

/-- A Lola deployment with two events, a field, a method and permissions. -/
def lola (n : UInt8) (id : Option UInt16) : Lola :=
  { id := id, shmSize := some 5000000000, ctlBSize := none, ctlQmSize := some 65536
    events := [("objects", traced n), ("state", traced 0)]
    fields := [("mode", { event := traced 0, useGet := true, useSet := false })]
    methods := [("reset", { queue := some 4, enabled := true })]
    strict := true
    consumers := [(.qm, [1000, 1001]), (.b, [])]
    providers := [(.qm, [0])]
    interVm := false, forwarded := true }

/-- A deployment. -/
def inst (n : UInt8) (id : Option UInt16) : InstDep :=
  { service := radar, binding := .lola (lola n id), asil := .qm, specifier := "/vehicle/front_radar" }

/-- A type. -/
def type : TypeDep :=
  .lola { id := 6432, events := [("objects", 1), ("state", 2)], fields := [("mode", 3)], methods := [] }

/-- The configuration of a process that knows another service. -/
def config : Config :=
  { types := [[], [(camera, type)]]
    insts := [[("/vehicle/camera", { inst 0 (some 9) with service := camera, specifier := "/vehicle/camera" })]]
    asil := .qm }

theorem proper (n : UInt8) (id : Option UInt16) : Proper (inst n id) := by
  refine ⟨show shortNameValid "/vehicle/front_radar".toList = true by decide +kernel, ?_⟩
  intro l hl
  have e : l = lola n id := by
    simp only [inst, Binding.lola.injEq] at hl
    exact hl.symm
  subst e
  refine ⟨?_, ?_, ?_, ?_, ?_⟩ <;> simp [IsMap, lola]

theorem properType : ProperType type := by
  intro l hl
  simp only [type, TypeDep.lola.injEq] at hl
  subst hl
  refine ⟨?_, ?_, ?_⟩ <;> simp [IsMap]

theorem usable : Usable config := ⟨by simp [config], by simp [config]⟩

theorem newType : ¬ KnowsType config radar := by
  simp [KnowsType, config, lookup, Json.find, camera, radar]

theorem newInst : ¬ KnowsInstance config "/vehicle/front_radar" := by
  simp [KnowsInstance, config, lookup, Json.find]

end Verif.Demo.C97

namespace Verif.Props.C97
open Verif.Ident Verif.Spec.Ident

/-- The text of an identifier, given to `Create` in a process that knows neither the
service type nor the instance, makes an identifier with the same text, the same
deployments except that it has no tracing slots, and adds just these deployments to the
configuration of the process. -/
theorem text_round_trip_partial (c : Config) (i : InstDep) (t : TypeDep) (hi : Proper i)
    (ht : ProperType t) (hc : Usable c) (h1 : ¬ KnowsType c i.service)
    (h2 : ¬ KnowsInstance c i.specifier) :
    ∃ c', create (some c) (make i t).text =
        .ok c' { inst := untraced i, type := t, text := (make i t).text } ∧
      (∀ s, lookup c'.types s = if s = i.service then some t else lookup c.types s) ∧
      (∀ s, lookup c'.insts s = if s = i.specifier then some (untraced i) else lookup c.insts s) := by
  have hl1 : lookup c.types i.service = none := by
    cases h : lookup c.types i.service with
    | none => rfl
    | some v => exact absurd (by simp [KnowsType, h]) h1
  have hl2 : lookup c.insts i.specifier = none := by
    cases h : lookup c.insts i.specifier with
    | none => rfl
    | some v => exact absurd (by simp [KnowsInstance, h]) h2
  obtain ⟨types, a1, a2⟩ := addEntry_some c.types i.service t hc.1 hl1
  obtain ⟨insts, b1, b2⟩ := addEntry_some c.insts i.specifier (untraced i) hc.2 hl2
  refine ⟨{ c with types, insts }, ?_, a2, b2⟩
  rw [create_of_read (read_text i t hi ht), untraced_service, untraced_specifier, a1, b1]

example := text_round_trip_partial Demo.C97.config (Demo.C97.inst 4 (some 1)) Demo.C97.type
  (Demo.C97.proper 4 (some 1)) Demo.C97.properType Demo.C97.usable Demo.C97.newType Demo.C97.newInst

/-- Without tracing slots the new identifier is the old one, part by part. -/
theorem untraced_round_trip_partial (c : Config) (i : InstDep) (t : TypeDep) (hi : Proper i)
    (ht : ProperType t) (hc : Usable c) (h1 : ¬ KnowsType c i.service)
    (h2 : ¬ KnowsInstance c i.specifier) (hn : NoTracing i) :
    ∃ c' x, create (some c) (make i t).text = .ok c' x ∧ x = make i t ∧
      x.eq (make i t) = true ∧ x.lt (make i t) = false ∧ (make i t).lt x = false ∧
      ∀ h, x.hash h = (make i t).hash h := by
  obtain ⟨c', h, _⟩ := text_round_trip_partial c i t hi ht hc h1 h2
  refine ⟨c', _, h, ?_, ?_⟩
  · rw [untraced_of_noTracing i hn]
    rfl
  · rw [untraced_of_noTracing i hn]
    have p1 : Proper (make i t).inst := hi
    have hlt : (make i t).lt (make i t) = false := by
      cases hl : (make i t).lt (make i t) with
      | false => rfl
      | true =>
        rcases (identLt_iff _ _ p1 p1).mp hl with h | ⟨_, ⟨_, h⟩ | h⟩
        · exact absurd h (ServiceBefore.irrefl _)
        · exact absurd h (Nat.lt_irrefl _)
        · exact absurd h (BindingBefore.irrefl _)
    exact ⟨(identEq_iff _ _ p1 p1).mpr ⟨rfl, rfl, SameBinding.refl _⟩, hlt, hlt, fun _ => rfl⟩

example : NoTracing (Demo.C97.inst 0 (some 1)) := by
  intro l hl
  simp only [Demo.C97.inst, Binding.lola.injEq] at hl
  subst hl
  simp [Demo.C97.lola, Demo.C97.traced]

/-- Different deployments have different texts, apart from their tracing slots. -/
theorem text_tells_apart (i j : InstDep) (t u : TypeDep) (hi : Proper i) (hj : Proper j)
    (ht : ProperType t) (hu : ProperType u) (h : (make i t).text = (make j u).text) :
    untraced i = untraced j ∧ t = u := by
  have h1 := read_text i t hi ht
  rw [h, read_text j u hj hu] at h1
  simp only [Option.some.injEq, Prod.mk.injEq] at h1
  exact ⟨h1.1.symm, h1.2.symm⟩

example : (make (Demo.C97.inst 3 (some 1)) Demo.C97.type).text =
    (make (Demo.C97.inst 4 (some 1)) Demo.C97.type).text := rfl

/-- Whatever identifier `Create` returns keeps the text it was made of, and is then known
to the configuration; the deployments known before are as before. -/
theorem created_is_known (c : Config) (text : Text) (c' : Config) (x : Ident)
    (h : create (some c) text = .ok c' x) :
    x.text = text ∧ lookup c'.types x.inst.service = some x.type ∧
      lookup c'.insts x.inst.specifier = some x.inst ∧
      (∀ s, KnowsType c s → lookup c'.types s = lookup c.types s) ∧
      (∀ s, KnowsInstance c s → lookup c'.insts s = lookup c.insts s) := by
  obtain ⟨c0, o, hc, _, _, ht, h1, h2, _⟩ := create_ok_inv h
  simp only [Option.some.injEq] at hc
  subst hc
  obtain ⟨_, _, a1, a2⟩ := addEntry_inv h1
  obtain ⟨_, _, b1, b2⟩ := addEntry_inv h2
  refine ⟨ht, by rw [a2, if_pos rfl], by rw [b2, if_pos rfl], ?_, ?_⟩
  · intro s hs
    rw [a2, if_neg]
    intro e
    subst e
    simp [KnowsType, a1] at hs
  · intro s hs
    rw [b2, if_neg]
    intro e
    subst e
    simp [KnowsInstance, b1] at hs

example : ∃ c' x, create (some Demo.C97.config)
    (make (Demo.C97.inst 4 (some 1)) Demo.C97.type).text = .ok c' x :=
  (text_round_trip_partial Demo.C97.config (Demo.C97.inst 4 (some 1)) Demo.C97.type
    (Demo.C97.proper 4 (some 1)) Demo.C97.properType Demo.C97.usable Demo.C97.newType
    Demo.C97.newInst).imp fun _ h => ⟨_, h.1⟩

/-- Text that is no JSON object is refused with an error. -/
theorem bad_text_is_refused (c : Config) (text : Text) :
    create (some c) text = .badText ↔ ∀ o, text ≠ .doc (.obj o) := by
  cases text with
  | garbage s => simp [create]
  | doc j =>
    cases j with
    | obj o =>
      simp only [create, Json.asObj, ne_eq, Text.doc.injEq, Json.Json.obj.injEq, forall_eq',
        not_true_eq_false, iff_false]
      split <;> simp
    | _ => simp [create, Json.asObj]

/-- Text of another version of the format is never taken for an identifier: it and both
deployments in it say version 1. -/
theorem accepted_has_version (c : Config) (o : Json.Obj) (c' : Config) (x : Ident)
    (h : create (some c) (.doc (.obj o)) = .ok c' x) :
    ∃ i t, Json.find o "serviceInstanceDeployment" = some (.obj i) ∧
      Json.find o "serviceTypeDeployment" = some (.obj t) ∧
      Json.find o "serializationVersion" = some (.num 1) ∧
      Json.find i "serializationVersion" = some (.num 1) ∧
      Json.find t "serializationVersion" = some (.num 1) := create_versions h

/-- Without a configuration there is an error, whatever the text. -/
theorem needs_configuration (c : Option Config) (text : Text) :
    create c text = .noConfiguration ↔ c = none := by
  cases c with
  | none => simp [create]
  | some c =>
    simp only [create, reduceCtorEq, iff_false]
    split
    · simp
    · split
      · simp
      · split <;> simp

/-- **Violated.**  Tracing slots are not part of the text: the identifier that is read
back is not equal to the original, whenever one of its events or fields has tracing
slots. -/
theorem tracing_slots_are_lost_fails (c : Config) (i : InstDep) (t : TypeDep) (hi : Proper i)
    (ht : ProperType t) (hc : Usable c) (h1 : ¬ KnowsType c i.service)
    (h2 : ¬ KnowsInstance c i.specifier) (hn : ¬ NoTracing i) :
    ∃ c' x, create (some c) (make i t).text = .ok c' x ∧ x.eq (make i t) = false := by
  obtain ⟨c', h, _⟩ := text_round_trip_partial c i t hi ht hc h1 h2
  refine ⟨c', _, h, ?_⟩
  cases he : Ident.eq { inst := untraced i, type := t, text := (make i t).text } (make i t) with
  | false => rfl
  | true =>
    exfalso
    apply hn
    simp only [Ident.eq, InstDep.eq, Bool.and_eq_true] at he
    have hb : (untraced i).binding.eq i.binding = true := he.2.2
    intro l hl
    simp only [untraced, hl, Binding.eq, Lola.eq, Bool.and_eq_true, beq_iff_eq] at hb
    obtain ⟨m1, m2, _⟩ := hi.2 l hl
    constructor
    · intro p hp
      have hm := hb.1.1.1.1.1.2
      simp only [Json.mapEq, Bool.and_eq_true, List.all_eq_true] at hm
      have := hm.2 (p.1, untracedEvent p.2) (List.mem_map_of_mem (f := fun p => (p.1, untracedEvent p.2)) hp)
      simp only [find_of_mem m1 (show (p.1, p.2) ∈ l.events from hp), eventEq_iff] at this
      rw [← this]
      rfl
    · intro p hp
      have hm := hb.1.1.1.1.2
      simp only [Json.mapEq, Bool.and_eq_true, List.all_eq_true] at hm
      have := hm.2 (p.1, { p.2 with event := untracedEvent p.2.event })
        (List.mem_map_of_mem (f := fun p => (p.1, { p.2 with event := untracedEvent p.2.event })) hp)
      simp only [find_of_mem m2 (show (p.1, p.2) ∈ l.fields from hp), fieldEq_iff] at this
      rw [← this]
      rfl

example : ¬ NoTracing (Demo.C97.inst 4 (some 1)) := by
  intro h
  have := (h (Demo.C97.lola 4 (some 1)) rfl).1 ("objects", Demo.C97.traced 4)
    (by simp [Demo.C97.lola])
  simp [Demo.C97.traced] at this

/-- **Violated.**  A process that knows the service type, e.g. because it provides or
uses another instance of it, or that knows the instance, is terminated when it gives the
text of the identifier to `Create`. -/
theorem known_service_terminates_fails (c : Config) (i : InstDep) (t : TypeDep) (hi : Proper i)
    (ht : ProperType t) (h : KnowsType c i.service ∨ KnowsInstance c i.specifier) :
    create (some c) (make i t).text = .terminated := by
  rw [create_of_read (read_text i t hi ht), untraced_service, untraced_specifier]
  rcases h with h | h
  · rw [addEntry_none t h]
  · rw [addEntry_none _ h]
    cases addEntry c.types i.service t <;> rfl

example : create (some { Demo.C97.config with types := [[(Demo.C97.radar, Demo.C97.type)]] })
    (make (Demo.C97.inst 0 (some 1)) Demo.C97.type).text = .terminated :=
  known_service_terminates_fails _ _ _ (Demo.C97.proper 0 (some 1)) Demo.C97.properType
    (Or.inl (by simp [KnowsType, lookup, Json.find, Demo.C97.inst]))

/-- **Violated.**  A text can be read only once: the second `Create` with the same text
terminates the process. -/
theorem second_time_terminates_fails (c : Config) (text : Text) (c' : Config) (x : Ident)
    (h : create (some c) text = .ok c' x) : create (some c') text = .terminated := by
  obtain ⟨_, _, _, _, hr, _, _, _, _⟩ := create_ok_inv h
  have hk := created_is_known c text c' x h
  rw [create_of_read hr, addEntry_none x.type (by simp [hk.2.1])]

/-- **Violated.**  So does the text of another instance of the same service. -/
theorem second_instance_terminates_fails (c : Config) (text : Text) (c' : Config) (x : Ident)
    (h : create (some c) text = .ok c' x) (i : InstDep) (t : TypeDep) (hi : Proper i)
    (ht : ProperType t) (hs : i.service = x.inst.service) :
    create (some c') (make i t).text = .terminated := by
  have hk := created_is_known c text c' x h
  exact known_service_terminates_fails c' i t hi ht (Or.inl (by simp [KnowsType, hs, hk.2.1]))

/-- **Violated.**  An object that is no identifier terminates the process, it does not give
an error: the empty object, for example. -/
theorem empty_object_terminates_fails (c : Config) :
    create (some c) (.doc (.obj [])) = .terminated := by
  simp [create, Json.asObj, build, checkVersion, Json.get, Json.find]

end Verif.Props.C97

namespace Verif.Demo.C98
open Verif.Ident Verif.Spec.Ident

/-- An identifier with the instance id 1. -/
def ident (n : UInt8) (q : Quality) (name : String) : Ident :=
  make { Demo.C97.inst n (some 1) with asil := q, specifier := name } Demo.C97.type

theorem proper (n : UInt8) (q : Quality) : Proper (ident n q "/vehicle/front_radar").inst :=
  Demo.C97.proper n (some 1)

end Verif.Demo.C98

namespace Verif.Props.C98
open Verif.Ident Verif.Spec.Ident

/-- Two identifiers are equal just if they agree in service, version, quality, instance id,
sizes, events, fields, methods and permissions. -/
theorem equal_iff_same (a b : Ident) (ha : Proper a.inst) (hb : Proper b.inst) :
    a.eq b = true ↔ Same a.inst b.inst := identEq_iff a b ha hb

example : Proper (Demo.C98.ident 2 .qm "/vehicle/front_radar").inst := Demo.C98.proper 2 .qm

/-- Equality is an equivalence. -/
theorem equal_is_equivalence (a b c : Ident) (ha : Proper a.inst) (hb : Proper b.inst)
    (hc : Proper c.inst) :
    a.eq a = true ∧ (a.eq b = true → b.eq a = true) ∧
      (a.eq b = true → b.eq c = true → a.eq c = true) := by
  rw [identEq_iff a a ha ha, identEq_iff a b ha hb, identEq_iff b a hb ha, identEq_iff b c hb hc,
    identEq_iff a c ha hc]
  exact ⟨⟨rfl, rfl, SameBinding.refl _⟩, fun h => ⟨h.1.symm, h.2.1.symm, SameBinding.symm h.2.2⟩,
    fun h g => ⟨h.1.trans g.1, h.2.1.trans g.2.1, SameBinding.trans h.2.2 g.2.2⟩⟩

/-- What the order is: by service, then by instance id; equal deployments by quality. -/
theorem less_iff (a b : Ident) (ha : Proper a.inst) (hb : Proper b.inst) :
    a.lt b = true ↔ ServiceBefore a.inst.service b.inst.service ∨
      (a.inst.service = b.inst.service ∧
        ((SameBinding a.inst.binding b.inst.binding ∧ a.inst.asil.num < b.inst.asil.num) ∨
          BindingBefore a.inst.binding b.inst.binding)) := identLt_iff a b ha hb

/-- The order is irreflexive, asymmetric and transitive, and equal identifiers are not in
order. -/
theorem less_is_strict (a b c : Ident) (ha : Proper a.inst) (hb : Proper b.inst)
    (hc : Proper c.inst) :
    a.lt a = false ∧ (a.lt b = true → b.lt a = false) ∧
      (a.lt b = true → b.lt c = true → a.lt c = true) ∧
      (a.eq b = true → a.lt b = false) := by
  have irr : ∀ x : Ident, Proper x.inst → ¬ (x.lt x = true) := by
    intro x hx hl
    rcases (identLt_iff x x hx hx).mp hl with h | ⟨_, ⟨_, h⟩ | h⟩
    · exact ServiceBefore.irrefl _ h
    · exact Nat.lt_irrefl _ h
    · exact BindingBefore.irrefl _ h
  have tr : ∀ x y z : Ident, Proper x.inst → Proper y.inst → Proper z.inst →
      x.lt y = true → y.lt z = true → x.lt z = true := by
    intro x y z hx hy hz h g
    rw [identLt_iff x z hx hz]
    rcases (identLt_iff x y hx hy).mp h with h | ⟨h0, h⟩
    · rcases (identLt_iff y z hy hz).mp g with g | ⟨g0, g⟩
      · exact Or.inl (ServiceBefore.trans h g)
      · exact Or.inl (g0 ▸ h)
    · rcases (identLt_iff y z hy hz).mp g with g | ⟨g0, g⟩
      · exact Or.inl (h0 ▸ g)
      · refine Or.inr ⟨h0.trans g0, ?_⟩
        rcases h with ⟨h1, h⟩ | h
        · rcases g with ⟨g1, g⟩ | g
          · exact Or.inl ⟨SameBinding.trans h1 g1, Nat.lt_trans h g⟩
          · exact Or.inr (BindingBefore.same_left (SameBinding.symm h1) g)
        · rcases g with ⟨g1, g⟩ | g
          · exact Or.inr (BindingBefore.same_right g1 h)
          · exact Or.inr (BindingBefore.trans h g)
  refine ⟨Bool.eq_false_iff.mpr (irr a ha), ?_, tr a b c ha hb hc, ?_⟩
  · intro h
    exact Bool.eq_false_iff.mpr fun g => irr a ha (tr a b a ha hb ha h g)
  · intro h
    obtain ⟨e1, e2, e3⟩ := (identEq_iff a b ha hb).mp h
    refine Bool.eq_false_iff.mpr fun g => ?_
    rcases (identLt_iff a b ha hb).mp g with g | ⟨_, ⟨_, g⟩ | g⟩
    · rw [e1] at g
      exact ServiceBefore.irrefl _ g
    · rw [e2] at g
      exact Nat.lt_irrefl _ g
    · exact BindingBefore.not_same g e3

example : (Demo.C98.ident 0 .qm "/vehicle/front_radar").lt
    (Demo.C98.ident 0 .b "/vehicle/front_radar") = true := by decide +kernel

/-- Among identifiers of which those with the same service and instance id have the same
binding, the order is total up to equality, so that sets and maps of identifiers keep
apart what is different and hold what is equal only once. -/
theorem sets_work_partial (a b : Ident) (ha : Proper a.inst) (hb : Proper b.inst)
    (hu : a.inst.service = b.inst.service → instanceId a.inst = instanceId b.inst →
      SameBinding a.inst.binding b.inst.binding)
    (h1 : a.lt b = false) (h2 : b.lt a = false) : a.eq b = true := by
  have h1' : ¬ (a.lt b = true) := by simp [h1]
  have h2' : ¬ (b.lt a = true) := by simp [h2]
  rw [identLt_iff a b ha hb] at h1'
  rw [identLt_iff b a hb ha] at h2'
  rw [identEq_iff a b ha hb]
  rcases ServiceBefore.total a.inst.service b.inst.service with h | h | h
  · exact absurd (Or.inl h) h1'
  · have hid : ¬ BindingBefore a.inst.binding b.inst.binding := fun g => h1' (Or.inr ⟨h, Or.inr g⟩)
    have hid' : ¬ BindingBefore b.inst.binding a.inst.binding :=
      fun g => h2' (Or.inr ⟨h.symm, Or.inr g⟩)
    have hsame : SameBinding a.inst.binding b.inst.binding := by
      apply hu h
      unfold instanceId
      cases hA : a.inst.binding with
      | blank =>
        cases hB : b.inst.binding with
        | blank => rfl
        | lola r => rw [hA, hB] at hid'; exact absurd trivial hid'
      | lola l =>
        cases hB : b.inst.binding with
        | blank => rw [hA, hB] at hid; exact absurd trivial hid
        | lola r =>
          rw [hA, hB] at hid hid'
          rcases IdBefore.total l.id r.id with g | g | g
          · exact absurd g hid
          · exact g
          · exact absurd g hid'
    refine ⟨h, ?_, hsame⟩
    apply quality_num_inj
    have q1 : ¬ a.inst.asil.num < b.inst.asil.num := fun g => h1' (Or.inr ⟨h, Or.inl ⟨hsame, g⟩⟩)
    have q2 : ¬ b.inst.asil.num < a.inst.asil.num :=
      fun g => h2' (Or.inr ⟨h.symm, Or.inl ⟨SameBinding.symm hsame, g⟩⟩)
    omega
  · exact absurd (Or.inl h) h2'

/-- Identifiers with the same deployments have the same hash, whatever the hash function; so
have those that differ in tracing slots only, such as an identifier and the one made of its
text. -/
theorem same_hash_partial (i j : InstDep) (t : TypeDep) (e : untraced i = untraced j)
    (h : Text → UInt64) : (make i t).hash h = (make j t).hash h := by
  have ht : ∀ i : InstDep, (make i t).text = (make (untraced i) t).text := by
    intro i
    simp only [make]
    rw [identToJson_untraced]
  simp only [Ident.hash]
  rw [ht i, ht j, e]

example : untraced (Demo.C97.inst 3 none) = untraced (Demo.C97.inst 4 none) := by decide +kernel

/-- Compatibility is symmetric, equal identifiers with a binding are compatible, and two
identifiers with different instance ids or qualities are not. -/
theorem compatible_is (a b : Ident) (ha : Proper a.inst) (hb : Proper b.inst) :
    (a.compatible b = b.compatible a) ∧
      (a.eq b = true → a.inst.binding ≠ .blank → a.compatible b = true) ∧
      (a.compatible b = true → a.inst.asil = b.inst.asil ∧
        ∀ x y, instanceId a.inst = some x → instanceId b.inst = some y → x = y) := by
  refine ⟨?_, ?_, ?_⟩
  · simp only [Ident.compatible, InstDep.compatible]
    rw [Bool.beq_comm (a := a.inst.asil)]
    congr 1
    cases a.inst.binding with
    | blank => cases b.inst.binding <;> rfl
    | lola l =>
      cases b.inst.binding with
      | blank => rfl
      | lola r =>
        simp only [Lola.compatible]
        cases l.id <;> cases r.id <;> simp [Bool.beq_comm]
  · intro he hne
    obtain ⟨_, e2, e3⟩ := (identEq_iff a b ha hb).mp he
    simp only [Ident.compatible, InstDep.compatible, e2, beq_self_eq_true, Bool.true_and]
    cases hA : a.inst.binding with
    | blank => exact absurd hA hne
    | lola l =>
      cases hB : b.inst.binding with
      | blank => rw [hA, hB] at e3; exact e3.elim
      | lola r =>
        rw [hA, hB] at e3
        have := e3.id
        simp [Lola.compatible, this]
  · intro hc
    simp only [Ident.compatible, InstDep.compatible, Bool.and_eq_true, beq_iff_eq] at hc
    refine ⟨hc.1, ?_⟩
    intro x y hx hy
    unfold instanceId at hx hy
    cases hA : a.inst.binding with
    | blank => simp [hA] at hx
    | lola l =>
      cases hB : b.inst.binding with
      | blank => simp [hB] at hy
      | lola r =>
        simp only [hA] at hx
        simp only [hB] at hy
        have := hc.2
        simp only [hA, hB, Lola.compatible, hx, hy] at this
        simpa using this

/-- **Violated.**  Equal identifiers may have different hashes: the name of the instance is
part of the hash, but not of the comparison.  A hash map does not find the one under the
other. -/
theorem equal_but_different_hash_fails :
    ∃ (a b : Ident) (h : Text → UInt64), Proper a.inst ∧ Proper b.inst ∧ a.eq b = true ∧
      a.hash h ≠ b.hash h := by
  refine ⟨Demo.C98.ident 0 .qm "/vehicle/front_radar", Demo.C98.ident 0 .qm "/vehicle/radar",
    fun t => match readText t with
      | some p => if p.1.specifier = "/vehicle/radar" then 1 else 0
      | none => 2, Demo.C98.proper 0 .qm, ?_, by decide +kernel, ?_⟩
  · exact ⟨by decide +kernel, (Demo.C97.proper 0 (some 1)).2⟩
  · have r1 := read_text (Demo.C97.inst 0 (some 1)) Demo.C97.type
      (Demo.C97.proper 0 (some 1)) Demo.C97.properType
    have r2 := read_text { Demo.C97.inst 0 (some 1) with specifier := "/vehicle/radar" }
      Demo.C97.type ⟨by decide +kernel, (Demo.C97.proper 0 (some 1)).2⟩ Demo.C97.properType
    have e1 : readText (Demo.C98.ident 0 .qm "/vehicle/front_radar").text =
        some (untraced (Demo.C97.inst 0 (some 1)), Demo.C97.type) := r1
    have e2 : readText (Demo.C98.ident 0 .qm "/vehicle/radar").text =
        some (untraced { Demo.C97.inst 0 (some 1) with specifier := "/vehicle/radar" },
          Demo.C97.type) := r2
    simp only [Ident.hash, e1, e2, untraced_specifier]
    decide +kernel

/-- **Violated.**  "Neither is less" is not transitive: three identifiers of one instance id,
the middle one with other tracing slots.  A sorted container may lose or duplicate
entries. -/
theorem order_is_not_weak_fails :
    ∃ a b c : Ident, Proper a.inst ∧ Proper b.inst ∧ Proper c.inst ∧
      (a.lt b = false ∧ b.lt a = false) ∧ (b.lt c = false ∧ c.lt b = false) ∧ a.lt c = true :=
  ⟨Demo.C98.ident 0 .qm "/vehicle/front_radar", Demo.C98.ident 1 .qm "/vehicle/front_radar",
    Demo.C98.ident 0 .b "/vehicle/front_radar", Demo.C98.proper 0 .qm, Demo.C98.proper 1 .qm,
    Demo.C98.proper 0 .b, by decide +kernel, by decide +kernel, by decide +kernel⟩

/-- **Violated.**  Different identifiers may be neither less nor equal, so that a set of
identifiers holds only one of them. -/
theorem different_but_not_ordered_fails :
    ∃ a b : Ident, Proper a.inst ∧ Proper b.inst ∧ a.eq b = false ∧ a.lt b = false ∧ b.lt a = false :=
  ⟨Demo.C98.ident 0 .qm "/vehicle/front_radar", Demo.C98.ident 1 .qm "/vehicle/front_radar",
    Demo.C98.proper 0 .qm, Demo.C98.proper 1 .qm, by decide +kernel, by decide +kernel,
    by decide +kernel⟩

end Verif.Props.C98

namespace Verif.Props.C99
open Verif.Ident Verif.Spec.Ident

/-- A name is an instance specifier just if it is not empty, consists of letters, digits,
underscores and slashes, does not start with a digit, does not end with a slash and has no
two slashes side by side. -/
theorem valid_iff (s : String) :
    (makeSpecifier s).isSome = true ↔
      s.toList ≠ [] ∧ (∀ c ∈ s.toList, c.isAlpha ∨ c.isDigit ∨ c = '_' ∨ c = '/') ∧
      (∀ c, s.toList.head? = some c → ¬ c.isDigit) ∧ s.toList.getLast? ≠ some '/' ∧
      ¬ ['/', '/'] <:+: s.toList := by
  rw [← shortNameValid_iff]
  unfold makeSpecifier
  split <;> simp_all

/-- What is accepted is kept as it is. -/
theorem name_is_kept (s t : String) (h : makeSpecifier s = some t) : t = s := by
  unfold makeSpecifier at h
  split at h
  · simpa using h.symm
  · simp at h

example : makeSpecifier "/vehicle/front_radar" = some "/vehicle/front_radar" := by decide +kernel
example : makeSpecifier "9lives" = none := by decide +kernel

end Verif.Props.C99
