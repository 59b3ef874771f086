import Verif.Model.RegionTable
/-! The versioned table of memory regions (/repo/score/memory/shared/memory_region_map.{h,cpp}): one writer, any number of
readers, ten versions with reference counters. Steps are atomic accesses in a sequentially consistent order (the code uses
relaxed loads of the index of the latest version and acquire-release accesses of the counters; weaker orders are not modelled).
Loads that only the writer can invalidate are merged with the writer's next access. -/
namespace Verif.RegionVersions
open Verif.RegionTable

/-- VERSION_COUNT, INVALID_REF_COUNT_INTERVAL_START/END and INITIAL_REF_COUNT_VALUE (memory_region_map.h:131-160). -/
def versions : Nat := 10
def invEnd : Nat := 4294967295
def inv : Nat := 2147483647
def initial : Nat := inv
/-- The retries of readers (memory_region_map.cpp:306) and of the writer (343). -/
def readTries : Nat := 255
def writeTries : Nat := 10

/-- Where the writer is. -/
inductive W where
  | idle
  /-- About to look at the counter of the next candidate (memory_region_map.cpp:353-357). -/
  | look (u : Upd) (round loop : Nat)
  /-- Has seen a zero counter, about to compare and swap (358-367). -/
  | cas (u : Upd) (round loop v : Nat)
  /-- Owns version `v`, is about to overwrite it or is overwriting it (145-156). -/
  | copy (u : Upd) (v : Nat)
  /-- Has completed version `v`, about to reset its counter (159-161). -/
  | publish (u : Upd) (v : Nat)
  /-- About to make version `v` the latest one (164). -/
  | setLatest (u : Upd) (v : Nat)
  deriving DecidableEq, Repr

/-- Where a reader is. `start` is a ghost: the history of completed changes when its lookup began. -/
inductive R where
  | idle
  /-- About to load the index of the latest version (memory_region_map.cpp:309). -/
  | load (start : List Upd) (tries : Nat)
  /-- About to increment the counter of version `v` (310-311). -/
  | add (start : List Upd) (tries v : Nat)
  /-- Owns an AcquiredRefcountIndex for version `v` (324). -/
  | hold (start : List Upd) (v : Nat)
  deriving DecidableEq, Repr

/-- Ghost record of one search in a version. -/
structure Read where
  addr : Nat
  res : Option (Nat × Nat)
  start : List Upd
  deriving DecidableEq, Repr

structure St where
  tab : Nat → Table
  refc : Nat → Nat
  latest : Nat
  w : W
  r : Nat → R
  dead : Bool
  /-- Ghost: the changes version `v` was built from, newest first. -/
  vers : Nat → List Upd
  /-- Ghost: the completed changes, newest first. -/
  done : List Upd
  /-- Ghost: the results of all searches, newest first. -/
  log : List Read

/-- The constructor (memory_region_map.cpp:120-127). -/
def init : St where
  tab _ := []
  refc v := if v = 0 then 0 else initial
  latest := 0
  w := .idle
  r _ := .idle
  dead := false
  vers _ := []
  done := []
  log := []

inductive Op where
  /-- UpdateKnownRegion, RemoveKnownRegion or ClearKnownRegions is called; calls are serialised by the registry. -/
  | wStart (u : Upd)
  /-- The writer's next access. -/
  | wStep
  /-- The weak compare-and-swap fails spuriously. -/
  | wSpurious
  /-- The content of the version being overwritten while the map is copied and edited. -/
  | scribble (t : Table)
  /-- Reader `i` starts a lookup, makes its next access, searches the version it holds, releases it. -/
  | rStart (i : Nat)
  | rStep (i : Nat)
  | rRead (i p : Nat)
  | rRelease (i : Nat)
  deriving DecidableEq, Repr

/-- The writer goes to the next candidate (memory_region_map.cpp:344-376); after the last round UpdateKnownRegion terminates. -/
def next (s : St) (u : Upd) (round loop : Nat) : St :=
  if loop + 1 < versions then { s with w := .look u round (loop + 1) }
  else if round + 1 < writeTries then { s with w := .look u (round + 1) 1 }
  else { s with dead := true }

/-- What the overwritten version holds after a rejected insertion (memory_region_map.cpp:147-156). -/
def leftover (t : Table) : Upd → Table
  | .add a e => insert a e t
  | _ => t

/-- The writer's next access (AcquireRegionVersionForOverwrite memory_region_map.cpp:339-378, UpdateKnownRegion 137-172,
RemoveKnownRegion 176-206, ClearKnownRegions 210-232). -/
def wStep (s : St) : St :=
  match s.w with
  | .idle => s
  | .look u round loop =>
    let v := (loop + s.latest) % versions
    if s.refc v = 0 then { s with w := .cas u round loop v }
    else if s.refc v = initial then { s with w := .copy u v }
    else next s u round loop
  | .cas u round loop v =>
    if s.refc v = 0 then { s with refc := upd s.refc v inv, w := .copy u v } else next s u round loop
  | .copy u v =>
    match apply (s.tab s.latest) u with
    | .abort => { s with dead := true }
    | .rejected => { s with tab := upd s.tab v (leftover (s.tab s.latest) u), w := .idle }
    | .ok t => { s with tab := upd s.tab v t, vers := upd s.vers v (u :: s.vers s.latest), w := .publish u v }
  | .publish u v => { s with refc := upd s.refc v 0, w := .setLatest u v }
  | .setLatest u v => { s with latest := v, w := .idle, done := u :: s.done }

/-- A reader's next access (AcquireLatestRegionVersionForRead memory_region_map.cpp:299-335; the caller terminates when the tries
are exhausted, 240-245). -/
def rStep (s : St) (i : Nat) : St :=
  match s.r i with
  | .load start tries => { s with r := upd s.r i (.add start tries s.latest) }
  | .add start tries v =>
    let prev := s.refc v
    let s := { s with refc := upd s.refc v (prev + 1) }
    if prev = inv - 1 ∨ prev = invEnd then { s with dead := true }
    else if prev < inv - 1 then { s with r := upd s.r i (.hold start v) }
    else if tries + 1 < readTries then { s with r := upd s.r i (.load start (tries + 1)) }
    else { s with dead := true }
  | _ => s

/-- One step; `n` is the number of readers. A dead process does nothing. -/
def step (n : Nat) (s : St) (o : Op) : St :=
  if s.dead then s else
  match o with
  | .wStart u => match s.w with
    | .idle => { s with w := .look u 0 1 }
    | _ => s
  | .wStep => wStep s
  | .wSpurious => match s.w with
    | .cas u round loop _ => next s u round loop
    | _ => s
  | .scribble t => match s.w with
    | .copy _ v => { s with tab := upd s.tab v t }
    | _ => s
  | .rStart i => if i < n then
      match s.r i with
      | .idle => { s with r := upd s.r i (.load s.done 0) }
      | _ => s
    else s
  | .rStep i => if i < n then rStep s i else s
  | .rRead i p => if i < n then
      match s.r i with
      | .hold start v => { s with log := ⟨p, lookup (s.tab v) p, start⟩ :: s.log }
      | _ => s
    else s
  | .rRelease i => if i < n then
      match s.r i with
      | .hold _ v => { s with refc := upd s.refc v (s.refc v - 1), r := upd s.r i .idle }
      | _ => s
    else s

def run (n : Nat) (s : St) (ops : List Op) : St := ops.foldl (step n) s

end Verif.RegionVersions
