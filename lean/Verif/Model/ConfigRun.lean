import Verif.Model.Config

/-!
# Threads that resolve names while add-ons are loaded

The lists of the configuration are behind two shared pointers, which are loaded and stored
atomically; a mutex orders the writers (configuration.h 249-275).  The steps are these loads
and stores.

Simplifications:
* The checks of `MergeServiceEntries` and the store that follows are one step: the mutex
  keeps other writers away, and readers change nothing.
* `InstanceIdentifier::Create` is left out: it changes the maps without the mutex
  (configuration.cpp 52-105), which is a data race with each other thread.
* `resolve` returns in the step of its last load.
-/
namespace Verif.ConfigRun
open Verif.Json Verif.Ident Verif.Config

/-- Where a thread is. -/
inductive Thread where
  /-- in no call -/
  | idle
  /-- in `Runtime::resolve`, after the instance has been found (runtime.cpp 258-259) -/
  | found (name : String) (i : InstDep)
  /-- in `MergeServiceEntries`, with the mutex (configuration.cpp 109) -/
  | locked (add : Config)
  /-- the types have been stored (configuration.cpp 145) -/
  | typed (add : Config)
  /-- `MergeServiceEntries` has returned (runtime.cpp 289) -/
  | merged (add : Config)
  /-- in `Validate`, after `CrossCheckAsilLevels` (configuration.cpp 191) -/
  | levelled (add : Config)
  /-- in `CrossCheckServiceInstancesToTypes`, with the instances to look at
  (configuration.cpp 219) -/
  | checking (add : Config) (rest : List InstDep)

/-- What a caller sees. -/
inductive Ev where
  /-- `resolve` returns -/
  | resolved (t : Nat) (name : String) (ids : List Ident)
  /-- `InitializeRuntimeAddonConfiguration` returns -/
  | loaded (t : Nat) (add : Config)

/-- Why the process ends. -/
inductive Fault where
  | clash
  | invalid
deriving DecidableEq, Repr

structure World where
  config : Config
  lock : Option Nat := none
  threads : Nat → Thread := fun _ => .idle
  log : List Ev := []
  fault : Option Fault := none

/-- The thread goes on at another place. -/
def World.goto (w : World) (t : Nat) (x : Thread) : World :=
  { w with threads := fun u => if u = t then x else w.threads u }

/-- A call returns. -/
def World.ret (w : World) (t : Nat) (e : Ev) : World :=
  { w.goto t .idle with log := w.log ++ [e] }

/-- The process ends. -/
def World.fail (w : World) (f : Fault) : World := { w with fault := some f }

inductive Step where
  /-- a thread that is in no call calls `resolve`, which looks for the instance
  (runtime.cpp 255-259, configuration.cpp 441-458) -/
  | find (t : Nat) (name : String)
  /-- `resolve` looks for the type (runtime.cpp 261-282, configuration.cpp 422-439) -/
  | type (t : Nat)
  /-- a thread that is in no call loads an add-on, when it gets the mutex (runtime.cpp 152-168,
  configuration.cpp 107-109) -/
  | load (t : Nat) (add : Config)
  /-- the thread that loads an add-on goes on -/
  | next (t : Nat)

/-- The steps of a thread that loads an add-on (configuration.cpp 111-271, runtime.cpp 287-303). -/
def goOn (w : World) (t : Nat) : Thread → World
  | .locked add =>
    match mergeMaps w.config.types add.types with
    | none => w.fail .clash
    | some types => World.goto { w with config := { w.config with types } } t (.typed add)
  | .typed add =>
    match mergeMaps w.config.insts add.insts with
    | none => w.fail .clash
    | some insts => World.goto { w with config := { w.config with insts }, lock := none } t (.merged add)
  | .merged add =>
    match (flatten w.config.insts).findSome? (fun p => checkAsil w.config.asil p.2) with
    | some _ => w.fail .invalid
    | none => w.goto t (.levelled add)
  | .levelled add => w.goto t (.checking add ((flatten w.config.insts).map Prod.snd))
  | .checking add (i :: rest) =>
    match checkType (flatten w.config.types) i with
    | some _ => w.fail .invalid
    | none => w.goto t (.checking add rest)
  | .checking add [] => w.ret t (.loaded t add)
  | .idle => w
  | .found _ _ => w

/-- The second half of `resolve`. -/
def goFound (w : World) (t : Nat) : Thread → World
  | .found name i =>
    match lookup w.config.types i.service with
    | none => w.ret t (.resolved t name [])
    | some ty => w.ret t (.resolved t name [make i ty])
  | _ => w

/-- What a thread in no call begins. -/
def goIdle (w : World) : Thread → World → World
  | .idle, v => v
  | _, _ => w

/-- The first half of `resolve`. -/
def goFind (w : World) (t : Nat) (name : String) : World :=
  match lookup w.config.insts name with
  | none => w.ret t (.resolved t name [])
  | some i => w.goto t (.found name i)

/-- The mutex is taken, if it is free. -/
def goLoad (w : World) (t : Nat) (add : Config) : World :=
  match w.lock with
  | some _ => w
  | none => World.goto { w with lock := some t } t (.locked add)

def step (w : World) (x : Step) : World :=
  if w.fault.isSome then w else
  match x with
  | .find t name => goIdle w (w.threads t) (goFind w t name)
  | .type t => goFound w t (w.threads t)
  | .load t add => goIdle w (w.threads t) (goLoad w t add)
  | .next t => goOn w t (w.threads t)

/-- A process that starts with this configuration. -/
def run (c : Config) (l : List Step) : World := l.foldl step { config := c }

end Verif.ConfigRun
