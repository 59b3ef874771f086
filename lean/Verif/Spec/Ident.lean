import Verif.Model.Ident
/-!
# What is said about instance identifiers

`IsMap`: no key occurs twice.  `Proper`: what a deployment in a configuration always
meets.  `untraced`: the deployment without tracing slots.  `Same`: the two deployments
agree in what identifies and sizes an instance.
-/
namespace Verif.Spec.Ident
open Verif.Ident Verif.Json

/-- No key occurs twice. -/
def IsMap {κ α : Type} (l : List (κ × α)) : Prop := (l.map Prod.fst).Nodup

/-- The maps of a deployment are maps, and its specifier is a valid name. -/
def Proper (i : InstDep) : Prop :=
  shortNameValid i.specifier.toList = true ∧
  ∀ l, i.binding = .lola l →
    IsMap l.events ∧ IsMap l.fields ∧ IsMap l.methods ∧ IsMap l.consumers ∧ IsMap l.providers

/-- The maps of a service type are maps. -/
def ProperType (t : TypeDep) : Prop :=
  ∀ l, t = .lola l → IsMap l.events ∧ IsMap l.fields ∧ IsMap l.methods

/-- An event without tracing slots. -/
def untracedEvent (e : EventDep) : EventDep := { e with tracing := 0 }

/-- The deployment with all tracing slots taken away. -/
def untraced (i : InstDep) : InstDep :=
  match i.binding with
  | .blank => i
  | .lola l =>
    { i with binding := .lola { l with
        events := l.events.map fun p => (p.1, untracedEvent p.2)
        fields := l.fields.map fun p => (p.1, { p.2 with event := untracedEvent p.2.event }) } }

/-- No event and no field has tracing slots. -/
def NoTracing (i : InstDep) : Prop :=
  ∀ l, i.binding = .lola l →
    (∀ p ∈ l.events, p.2.tracing = 0) ∧ (∀ p ∈ l.fields, p.2.event.tracing = 0)

/-- Two Lola deployments agree: instance id, sizes, events, fields, methods and
permissions. -/
structure SameLola (a b : Lola) : Prop where
  id : a.id = b.id
  shmSize : a.shmSize = b.shmSize
  ctlBSize : a.ctlBSize = b.ctlBSize
  ctlQmSize : a.ctlQmSize = b.ctlQmSize
  events : ∀ n, find a.events n = find b.events n
  fields : ∀ n, find a.fields n = find b.fields n
  methods : ∀ n, find a.methods n = find b.methods n
  strict : a.strict = b.strict
  consumers : ∀ q, find a.consumers q = find b.consumers q
  providers : ∀ q, find a.providers q = find b.providers q

/-- Two bindings agree. -/
def SameBinding : Binding → Binding → Prop
  | .lola a, .lola b => SameLola a b
  | .blank, .blank => True
  | _, _ => False

/-- Two deployments agree: service with version, quality and binding. -/
def Same (a b : InstDep) : Prop :=
  a.service = b.service ∧ a.asil = b.asil ∧ SameBinding a.binding b.binding

/-- Services are in order by name, major version and minor version. -/
def ServiceBefore (a b : Service) : Prop :=
  a.name < b.name ∨ (a.name = b.name ∧
    (a.version.major < b.version.major ∨
      (a.version.major = b.version.major ∧ a.version.minor < b.version.minor)))

/-- An instance without id is before all with an id, the others are in order by id. -/
def IdBefore : Option UInt16 → Option UInt16 → Prop
  | none, some _ => True
  | some a, some b => a < b
  | _, none => False

/-- Bindings are in order by instance id; a missing binding is last. -/
def BindingBefore : Binding → Binding → Prop
  | .lola a, .lola b => IdBefore a.id b.id
  | .lola _, .blank => True
  | _, _ => False

/-- The instance id of a deployment. -/
def instanceId (i : InstDep) : Option UInt16 :=
  match i.binding with
  | .lola l => l.id
  | .blank => none

/-- A configuration of which lookups can be made: it has at least one generation of each
map, as every configuration has. -/
def Usable (c : Config) : Prop := c.types ≠ [] ∧ c.insts ≠ []

/-- The service type is in the configuration. -/
def KnowsType (c : Config) (s : Service) : Prop := (lookup c.types s).isSome = true

/-- The instance specifier is in the configuration. -/
def KnowsInstance (c : Config) (s : String) : Prop := (lookup c.insts s).isSome = true

end Verif.Spec.Ident
