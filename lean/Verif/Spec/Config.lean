import Verif.Model.Config

/-!
# What a configuration has to be

`typeOf c s` and `instanceOf c n` are the public lookups `GetServiceTypeDeployment` and
`GetServiceInstanceDeployment`.
-/
namespace Verif.Spec.Config
open Verif.Json Verif.Ident Verif.Config

/-- The deployment of a service type. -/
def typeOf (c : Config) (s : Service) : Option TypeDep := lookup c.types s

/-- The deployment of an instance. -/
def instanceOf (c : Config) (name : String) : Option InstDep := lookup c.insts name

/-- Each name of the first list is a name of the second. -/
def NamesIn {α β : Type} (l : List (String × α)) (r : List (String × β)) : Prop :=
  ∀ n ∈ l.map Prod.fst, n ∈ r.map Prod.fst

/-- An instance fits to a type: both have a binding, and the events and fields of the
instance are events and fields of the type. -/
def Fits (i : InstDep) (t : TypeDep) : Prop :=
  ∃ d l, i.binding = .lola d ∧ t = .lola l ∧ NamesIn d.events l.events ∧ NamesIn d.fields l.fields

/-- The methods of the instance are methods of the type, too. -/
def MethodsFit (i : InstDep) (t : TypeDep) : Prop :=
  ∀ d l, i.binding = .lola d → t = .lola l → NamesIn d.methods l.methods

/-- An instance is in order, with these types and in a process of this quality. -/
def InOrder (types : Service → Option TypeDep) (process : Quality) (i : InstDep) : Prop :=
  (i.asil = .b → process = .b) ∧ ∃ t, types i.service = some t ∧ Fits i t

/-- Each instance of the configuration is in order. -/
def Consistent (c : Config) : Prop :=
  ∀ name i, instanceOf c name = some i → InOrder (typeOf c) c.asil i

/-- An add-on has no service type and no instance that is there already. -/
def NoClash (c add : Config) : Prop :=
  (∀ s, typeOf add s ≠ none → typeOf c s = none) ∧
    ∀ n, instanceOf add n ≠ none → instanceOf c n = none

/-- The types of two configurations together. -/
def typesOfBoth (c add : Config) (s : Service) : Option TypeDep := (typeOf c s).or (typeOf add s)

/-- An add-on fits to a configuration: no clash, and its instances are in order with the
types of both. -/
def Compatible (c add : Config) : Prop :=
  NoClash c add ∧ ∀ name i, instanceOf add name = some i → InOrder (typesOfBoth c add) c.asil i

/-- `c'` is `c` with the entries of `add`. -/
def IsUnion (c add c' : Config) : Prop :=
  c'.asil = c.asil ∧ (∀ s, typeOf c' s = (typeOf c s).or (typeOf add s)) ∧
    ∀ n, instanceOf c' n = (instanceOf c n).or (instanceOf add n)

/-- Whatever the first configuration knows, the second knows with the same deployment. -/
def Keeps (c c' : Config) : Prop :=
  (∀ s t, typeOf c s = some t → typeOf c' s = some t) ∧
    ∀ n i, instanceOf c n = some i → instanceOf c' n = some i

end Verif.Spec.Config
