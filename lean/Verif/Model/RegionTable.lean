import Verif.Lib.Fn
/-! The table of known memory regions (/repo/score/memory/shared/memory_region_map.cpp), one version of it: a
`std::map<std::uintptr_t, std::uintptr_t>` from start to end addresses, here a list of pairs in ascending order of the starts. -/
namespace Verif.RegionTable

abbrev Table := List (Nat × Nat)

/-- std::map::insert for a key that is not present. -/
def insert (s e : Nat) : Table → Table
  | [] => [(s, e)]
  | (a, b) :: t => if s < a then (s, e) :: (a, b) :: t else (a, b) :: insert s e t

/-- Is the start present? -/
def hasKey (t : Table) (s : Nat) : Bool := t.any (fun r => r.1 == s)

/-- The entries before and after the inserted one, `std::prev` and `std::next` (memory_region_map.cpp:49, 62). -/
def prevOf (s : Nat) (t : Table) : Option (Nat × Nat) := (t.filter (fun r => r.1 < s)).getLast?
def nextOf (s : Nat) (t : Table) : Option (Nat × Nat) := t.find? (fun r => s < r.1)

/-- DoesRegionIteratorOverlapWithExistingRegionInMap (memory_region_map.cpp:36-74); `t` is the map before the insertion. -/
def overlaps (s e : Nat) (t : Table) : Bool :=
  (match prevOf s t with
   | some r => decide (s < r.2)
   | none => false) ||
  (match nextOf s t with
   | some r => decide (r.1 < e)
   | none => false)

/-- Changes of the table. -/
inductive Upd where
  | add (s e : Nat)
  | remove (s : Nat)
  | clear
  deriving DecidableEq, Repr

inductive Res where
  | ok (t : Table)
  | rejected
  | abort
  deriving DecidableEq, Repr

/-- What UpdateKnownRegion (memory_region_map.cpp:137-172), RemoveKnownRegion (176-206) and ClearKnownRegions (210-232) do to
the latest version. -/
def apply (t : Table) : Upd → Res
  | .add s e => if hasKey t s then .abort else if overlaps s e t then .rejected else .ok (insert s e t)
  | .remove s => if hasKey t s then .ok (t.filter (fun r => r.1 ≠ s)) else .abort
  | .clear => .ok []

/-- The search in GetBoundsFromAddress (memory_region_map.cpp:250-277): the entry before `upper_bound`. -/
def lookup (t : Table) (p : Nat) : Option (Nat × Nat) :=
  match (t.filter (fun r => r.1 ≤ p)).getLast? with
  | none => none
  | some r => if r.1 ≤ p ∧ p ≤ r.2 then some r else none

/-- The table after a sequence of successful changes; `none` if one of them would abort or be rejected. -/
def build : Table → List Upd → Option Table
  | t, [] => some t
  | t, u :: us =>
    match apply t u with
    | .ok t' => build t' us
    | _ => none

end Verif.RegionTable
