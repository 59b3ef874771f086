import Verif.Model.RegionTable
/-! The registry of memory resources (/repo/score/memory/shared/memory_resource_registry.cpp): resources by identifier, and the
table of the regions that take part in bounds checking. The calls hold the registry's mutex, so they are atomic here; the
versions behind the table are in Model/RegionVersions.lean. -/
namespace Verif.Registry
open Verif.RegionTable

/-- A registered resource: its identifier, `getBaseAddress`, `getEndAddress`, `IsOffsetPtrBoundsCheckBypassingEnabled`. -/
structure Entry where
  id : Nat
  base : Nat
  endp : Nat
  bypass : Bool
  deriving DecidableEq, Repr

structure St where
  reg : List Entry
  tab : Table
  dead : Bool
  deriving DecidableEq, Repr

def init : St := ⟨[], [], false⟩

inductive Op where
  | insert (e : Entry)
  | remove (id : Nat)
  | clear
  deriving DecidableEq, Repr

def found (s : St) (id : Nat) : Option Entry := s.reg.find? (fun e => e.id == id)

/-- insert_resource (memory_resource_registry.cpp:49-84); the result is what the caller gets. A null address terminates (66-72). -/
def insertRes (s : St) (e : Entry) : St × Bool :=
  match found s e.id with
  | some _ => (s, false)
  | none =>
    let s1 := { s with reg := e :: s.reg }
    if e.bypass then (s1, true)
    else if e.base = 0 ∨ e.endp = 0 then ({ s1 with dead := true }, false)
    else match apply s.tab (.add e.base e.endp) with
      | .ok t => ({ s1 with tab := t }, true)
      | .rejected => (s1, false)
      | .abort => ({ s1 with dead := true }, false)

/-- remove_resource (memory_resource_registry.cpp:86-100). -/
def removeRes (s : St) (id : Nat) : St :=
  match found s id with
  | none => s
  | some e =>
    let s1 := { s with reg := s.reg.filter (fun x => x.id ≠ id) }
    if e.bypass then s1
    else match apply s.tab (.remove e.base) with
      | .ok t => { s1 with tab := t }
      | _ => { s with dead := true }

/-- One call; a dead process does nothing. `clear` is memory_resource_registry.cpp:102-107. -/
def step (s : St) (o : Op) : St × Bool :=
  if s.dead then (s, false) else
  match o with
  | .insert e => insertRes s e
  | .remove id => (removeRes s id, true)
  | .clear => ({ s with reg := [], tab := [] }, true)

def run (s : St) (ops : List Op) : St := ops.foldl (fun s o => (step s o).1) s

/-- GetBoundsFromIdentifier (memory_resource_registry.cpp:109-128): the bounds of the resource itself. -/
def boundsOf (s : St) (id : Nat) : Option (Nat × Nat) := (found s id).map (fun e => (e.base, e.endp))

end Verif.Registry
