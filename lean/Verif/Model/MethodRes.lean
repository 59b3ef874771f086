import Verif.Lib.Fn
/-! The table of the shared memory regions that proxies of a service have set up for method calls
(/repo/score/mw/com/impl/bindings/lola/methods/method_resource_map.cpp). Regions are numbers. -/
namespace Verif.MethodRes

/-- ProcessSpecificResourceMap (method_resource_map.h:46-54): the pid and, per proxy instance counter, a region. -/
structure Proc where
  pid : Nat
  regions : List (Nat × Nat)
  deriving DecidableEq, Repr

/-- resource_map_: by application id. -/
abbrev Map := Nat → Option Proc

def empty : Map := fun _ => none

/-- find in the inner std::unordered_map. -/
def find (l : List (Nat × Nat)) (ctr : Nat) : Option Nat := (l.find? (fun e => e.1 == ctr)).map (·.2)

/-- The region that the table holds for a proxy. -/
def Map.at (m : Map) (app ctr : Nat) : Option Nat := (m app).bind (fun p => find p.regions ctr)

/-- Contains (method_resource_map.cpp:23-38). -/
def contains (m : Map) (app ctr pid : Nat) : Bool :=
  match m app with
  | none => false
  | some p => if p.pid ≠ pid then false else (find p.regions ctr).isSome

/-- std::unordered_map::insert: keeps an existing element. -/
def insertInner (l : List (Nat × Nat)) (ctr r : Nat) : List (Nat × Nat) := if (find l ctr).isSome then l else (ctr, r) :: l

/-- Insert (method_resource_map.cpp:40-53). -/
def insert (m : Map) (app ctr pid r : Nat) : Map :=
  let p := (m app).getD ⟨0, []⟩
  upd m app (some ⟨pid, insertInner p.regions ctr r⟩)

/-- EraseRegionsFromCrashedProcesses (method_resource_map.cpp:65-87). -/
def eraseCrashed (m : Map) (app pid : Nat) : Map :=
  match m app with
  | none => m
  | some p => if p.pid ≠ pid then upd m app none else m

/-- CleanUpOldRegions (method_resource_map.cpp:55-63); `none`: the precondition fails. -/
def cleanUp (m : Map) (app ctr pid : Nat) : Option Map := if contains m app ctr pid then none else some (eraseCrashed m app pid)

/-- Clear (method_resource_map.cpp:89-92). -/
def clear (_ : Map) : Map := empty

/-- Remove (method_resource_map.cpp:94-108). -/
def remove (m : Map) (app ctr : Nat) : Map :=
  match m app with
  | none => m
  | some p =>
    let l := p.regions.filter (fun e => e.1 != ctr)
    if l.isEmpty then upd m app none else upd m app (some ⟨p.pid, l⟩)

/-- What the skeleton does with the table. -/
inductive Op where
  /-- OnServiceMethodsSubscribed (skeleton.cpp:674-698): `r` is the opened region, or `none` if it cannot be opened. -/
  | subscribe (app ctr pid : Nat) (r : Option Nat)
  /-- OnServiceMethodsUnsubscribed (skeleton.cpp:715). -/
  | unsubscribe (app ctr : Nat)
  /-- PrepareStopOffer (skeleton.cpp:474). -/
  | stopOffer
  deriving DecidableEq, Repr

/-- The table after an operation; `none`: the process terminates. -/
def step (m : Map) : Op → Option Map
  | .subscribe app ctr pid r =>
    if contains m app ctr pid then some m
    else
      match cleanUp m app ctr pid with
      | none => none
      | some m' =>
        match r with
        | none => some m'
        | some r => some (insert m' app ctr pid r)
  | .unsubscribe app ctr => some (remove m app ctr)
  | .stopOffer => some (clear m)

def run (m : Map) : List Op → Option Map
  | [] => some m
  | o :: os => (step m o).bind (fun m' => run m' os)

end Verif.MethodRes
