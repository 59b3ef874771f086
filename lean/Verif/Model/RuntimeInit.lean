/-!
# Initialisation of the runtime

The program names a configuration file with `InitializeRuntime`, or leaves this to the first
use of the library.  The runtime is made once, at its first use, from what has been named.
The steps are those of the threads that call; they meet at a mutex and at the guard that the
compiler puts around a static variable.

Simplifications:
* A configuration is a value of any type `C`, with the result of `Validate`; what a file
  says is the matter of C117, what add-ons change is the matter of C102.
* A file gives a configuration, or the parser ends the process (config_parser.cpp).
* The filter of tracing is left out: if it cannot be read, tracing stays off.
* Mocks and the end of the process are left out.
-/
namespace Verif.RuntimeInit

/-! ## The command line -/

/-- The key of the path of the configuration (runtime_configuration.cpp 34). -/
def key : String := "--service_instance_manifest"

/-- The old key (runtime_configuration.cpp 33). -/
def oldKey : String := "-service_instance_manifest"

/-- The path that is taken if there is no key (runtime_configuration.cpp 32). -/
def defaultPath : String := "./etc/mw_com_config.json"

/-- What the constructor of `RuntimeConfiguration` ends with. -/
inductive Named where
  | path (p : String)
  | terminate
deriving DecidableEq, Repr

/-- `ParseConfigurationPath` (runtime_configuration.cpp 76-119). -/
def parsePath : List String → Option Named
  | [] => none
  | a :: rest =>
    if a = key then
      match rest with
      | [] => some .terminate
      | p :: _ => some (.path p)
    else if a = oldKey then
      match rest with
      | [] => some .terminate
      | p :: _ => some (.path p)
    else parsePath rest

/-- The constructor with the arguments of the program
(runtime_configuration.cpp 46-69; the old one with `argc` and `argv` makes the same list). -/
def ofArgs (args : List String) : Named :=
  match parsePath args with
  | some n => n
  | none => .path defaultPath

/-! ## The threads -/

/-- Where a thread is. -/
inductive Pc (C : Type) where
  /-- in no call -/
  | idle
  /-- in `Runtime::Initialize`, before the mutex (runtime.cpp 113) -/
  | initWait (p : String)
  /-- with the mutex (runtime.cpp 114) -/
  | initHeld (p : String)
  /-- the file has been parsed (runtime.cpp 125) -/
  | initParsed (p : String) (c : C)
  /-- in `getInstanceInternal`, before the guard of the static variable (runtime.cpp 192) -/
  | useWait
  /-- in the function that makes the runtime, before the mutex (runtime.cpp 193) -/
  | making
  /-- with the mutex, and the initialisation is locked (runtime.cpp 194) -/
  | makingHeld
  /-- the configuration is there, `Runtime` is constructed (runtime.cpp 200, 208) -/
  | built (c : C)

/-- What can be seen. -/
inductive Ev (C : Type) where
  /-- a file gets another content, or goes away -/
  | file (p : String) (c : Option C)
  /-- `InitializeRuntime` is called with this path -/
  | callInit (t : Nat) (p : String)
  /-- it returns, and the configuration is kept -/
  | kept (t : Nat) (p : String) (c : C)
  /-- it returns with the error in the log, that the runtime is locked already -/
  | ignored (t : Nat)
  /-- a function is called that needs the runtime -/
  | callUse (t : Nat)
  /-- it has got the runtime, which has this configuration -/
  | used (t : Nat) (c : C)

/-- Why the process ends. -/
inductive Fault where
  | parse
  | invalid
deriving DecidableEq, Repr

structure World (C : Type) where
  files : String → Option C
  /-- `mutex_` -/
  mutex : Option Nat := none
  /-- the thread that makes the static variable -/
  guard : Option Nat := none
  /-- `runtime_initialization_locked_` -/
  locked : Bool := false
  /-- `initialization_config_` -/
  config : Option C := none
  /-- the configuration of the static variable, if it has been made -/
  runtime : Option C := none
  threads : Nat → Pc C := fun _ => .idle
  /-- the newest first -/
  log : List (Ev C) := []
  fault : Option Fault := none

/-- The thread goes on at another place. -/
def World.goto {C : Type} (w : World C) (t : Nat) (x : Pc C) : World C :=
  { w with threads := fun u => if u = t then x else w.threads u }

/-- Something happens that can be seen. -/
def World.say {C : Type} (w : World C) (e : Ev C) : World C :=
  { w with log := e :: w.log }

/-- `Runtime::Initialize` after the mutex (runtime.cpp 114-125). -/
def initHeld {C : Type} (w : World C) (t : Nat) (p : String) : World C :=
  if w.locked then ({ w with mutex := none }.goto t .idle).say (.ignored t)
  else match w.files p with
    | none => { w with fault := some .parse }
    | some c => w.goto t (.initParsed p c)

/-- `Runtime::Initialize` after the parser (runtime.cpp 126-134). -/
def initParsed {C : Type} (valid : C → Bool) (w : World C) (t : Nat) (p : String) (c : C) :
    World C :=
  if valid c then
    ({ w with config := some c, mutex := none }.goto t .idle).say (.kept t p c)
  else { w with fault := some .invalid }

/-- The guard of the static variable (runtime.cpp 192): who comes first makes it, the others
wait, and later ones get it. -/
def useWait {C : Type} (w : World C) (t : Nat) : World C :=
  match w.runtime with
  | some c => (w.goto t .idle).say (.used t c)
  | none =>
    match w.guard with
    | none => { w with guard := some t }.goto t .making
    | some _ => w

/-- The function that makes the runtime, with the mutex (runtime.cpp 195-209). -/
def makingHeld {C : Type} (w : World C) (t : Nat) : World C :=
  match w.config with
  | some c => { w with config := none }.goto t (.built c)
  | none =>
    match w.files defaultPath with
    | none => { w with fault := some .parse }
    | some c => w.goto t (.built c)

/-- One step of a thread. -/
def stepThread {C : Type} (valid : C → Bool) (w : World C) (t : Nat) : World C :=
  match w.threads t with
  | .idle => w
  | .initWait p =>
    match w.mutex with
    | none => { w with mutex := some t }.goto t (.initHeld p)
    | some _ => w
  | .initHeld p => initHeld w t p
  | .initParsed p c => initParsed valid w t p c
  | .useWait => useWait w t
  | .making =>
    match w.mutex with
    | none => { w with mutex := some t, locked := true }.goto t .makingHeld
    | some _ => w
  | .makingHeld => makingHeld w t
  | .built c =>
    ({ w with mutex := none, guard := none, runtime := some c }.goto t .idle).say (.used t c)

/-- What happens. -/
inductive Op (C : Type) where
  /-- a file changes -/
  | file (p : String) (c : Option C)
  /-- a thread calls `InitializeRuntime` (runtime.cpp 111) -/
  | initCall (t : Nat) (p : String)
  /-- a thread calls a function that needs the runtime (runtime.cpp 168) -/
  | use (t : Nat)
  | step (t : Nat)

/-- One operation. -/
def step {C : Type} (valid : C → Bool) (w : World C) (o : Op C) : World C :=
  match w.fault with
  | some _ => w
  | none =>
    match o with
    | .file p c => { w with files := fun q => if q = p then c else w.files q }.say (.file p c)
    | .initCall t p =>
      match w.threads t with
      | .idle => (w.goto t (.initWait p)).say (.callInit t p)
      | _ => w
    | .use t =>
      match w.threads t with
      | .idle => (w.goto t .useWait).say (.callUse t)
      | _ => w
    | .step t => stepThread valid w t

/-- All operations, from the start of the process with these files. -/
def run {C : Type} (valid : C → Bool) (files : String → Option C) (ops : List (Op C)) : World C :=
  ops.foldl (step valid) { files := files }

end Verif.RuntimeInit
