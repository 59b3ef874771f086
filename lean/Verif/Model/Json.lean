/-!
# JSON values and maps

The text of an identifier is JSON.  The JSON library is not part of the code; a
value of it is a tree here.

Simplifications:
* `score::json::Object` and `std::unordered_map` are lists of pairs of a key and a
  value, in the order in which the keys were added.
* Numbers are integers.
-/
namespace Verif.Json

/-! ### Maps -/

/-- `find` of a map. -/
def find {κ α : Type} [DecidableEq κ] : List (κ × α) → κ → Option α
  | [], _ => none
  | (k', v) :: l, k => if k' = k then some v else find l k

/-- `json_object[key] = value`: the value of the key is replaced or the key is added. -/
def put {κ α : Type} [DecidableEq κ] : List (κ × α) → κ → α → List (κ × α)
  | [], k, v => [(k, v)]
  | (k', v') :: l, k, v => if k' = k then (k, v) :: l else (k', v') :: put l k v

/-- `operator==` of two maps: they have as many keys, and each key of one has an
equal value in the other (std::unordered_map). -/
def mapEq {κ α : Type} [DecidableEq κ] (eq : α → α → Bool) (l r : List (κ × α)) : Bool :=
  l.length == r.length &&
    l.all fun p => match find r p.1 with
      | some v => eq p.2 v
      | none => false

/-! ### Values -/

/-- A JSON value (`score::json::Any`). -/
inductive Json where
  | null
  | bool (b : Bool)
  | num (n : Int)
  | str (s : String)
  | list (l : List Json)
  | obj (o : List (String × Json))

/-- `score::json::Object`. -/
abbrev Obj := List (String × Json)

/-- `Any::As<json::Object>`. -/
def asObj : Json → Option Obj
  | .obj o => some o
  | _ => none

/-- `Any::As<json::List>`. -/
def asList : Json → Option (List Json)
  | .list l => some l
  | _ => none

/-- `Any::As<std::string>`. -/
def asStr : Json → Option String
  | .str s => some s
  | _ => none

/-- `Any::As<bool>`. -/
def asBool : Json → Option Bool
  | .bool b => some b
  | _ => none

/-- `Any::As<T>` of an unsigned type with values below `limit`. -/
def asNat (limit : Nat) : Json → Option Nat
  | .num n => if 0 ≤ n ∧ n < limit then some n.toNat else none
  | _ => none

/-- `Any::As<std::uint8_t>`. -/
def asU8 (j : Json) : Option UInt8 := (asNat 256 j).map UInt8.ofNat

/-- `Any::As<std::uint16_t>`. -/
def asU16 (j : Json) : Option UInt16 := (asNat 65536 j).map UInt16.ofNat

/-- `Any::As<std::uint32_t>`. -/
def asU32 (j : Json) : Option UInt32 := (asNat 4294967296 j).map UInt32.ofNat

/-- `Any::As<std::size_t>`. -/
def asU64 (j : Json) : Option UInt64 := (asNat 18446744073709551616 j).map UInt64.ofNat

/-- `Any::As<std::ptrdiff_t>`. -/
def asInt : Json → Option Int
  | .num n => if -9223372036854775808 ≤ n ∧ n < 9223372036854775808 then some n else none
  | _ => none

/-- `score::json::Any{value}` of a number. -/
def num8 (n : UInt8) : Json := .num n.toNat

/-- `score::json::Any{value}` of a number. -/
def num16 (n : UInt16) : Json := .num n.toNat

/-- `score::json::Any{value}` of a number. -/
def num32 (n : UInt32) : Json := .num n.toNat

/-- `score::json::Any{value}` of a number. -/
def num64 (n : UInt64) : Json := .num n.toNat

/-! ### Reading an object

`none`: the process is terminated. -/

/-- `GetValueFromJson` (configuration/configuration_common_resources.h 45-93): the
key must exist and its value must have the type. -/
def get {α : Type} (as : Json → Option α) (o : Obj) (k : String) : Option α :=
  match find o k with
  | some j => as j
  | none => none

/-- `GetOptionalValueFromJson` (configuration_common_resources.h 95-112): a value
that exists must have the type. -/
def getOpt {α : Type} (as : Json → Option α) (o : Obj) (k : String) : Option (Option α) :=
  match find o k with
  | some j => (as j).map some
  | none => some none

/-- Assignment of a value that may be missing: `if (value.has_value())
json_object[key] = Any{value.value()}`. -/
def putOpt {α : Type} (to : α → Json) (o : Obj) (k : String) : Option α → Obj
  | some v => put o k (to v)
  | none => o

/-- `ConvertServiceElementMapToJson` (configuration_common_resources.h 181-192),
`ConvertServiceElementIdMapToJson` (configuration/binding_service_type_deployment_impl.h
47-57): an entry for each entry.  The keys of a map are different, so that the
insertions succeed. -/
def mapToJson {κ α : Type} (name : κ → String) (to : α → Json) (l : List (κ × α)) : Obj :=
  l.map fun p => (name p.1, to p.2)

/-- `ConvertJsonToServiceElementMap` (configuration_common_resources.h 194-212),
`ConvertJsonToServiceElementIdMap` (binding_service_type_deployment_impl.h 59-85),
`ConvertJsonToUidMap` (configuration/lola_service_instance_deployment.cpp 50-81):
each entry is read and added to the map; a key that is in it already terminates. -/
def collect {κ α : Type} [DecidableEq κ] (name : String → Option κ) (as : Json → Option α) :
    Obj → List (κ × α) → Option (List (κ × α))
  | [], acc => some acc
  | (s, j) :: l, acc =>
    match name s, as j with
    | some k, some v =>
      match find acc k with
      | none => collect name as l (acc ++ [(k, v)])
      | some _ => none
    | _, _ => none

/-- The map under a key. -/
def getMap {κ α : Type} [DecidableEq κ] (name : String → Option κ) (as : Json → Option α)
    (o : Obj) (k : String) : Option (List (κ × α)) :=
  match get asObj o k with
  | some m => collect name as m []
  | none => none

end Verif.Json
