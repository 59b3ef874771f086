import Verif.Model.RuntimeInit

/-!
# What a user expects of the initialisation

Told in terms of the events that can be seen, the newest first.
-/
namespace Verif.RuntimeInit

/-- What a file says after these events. -/
def content {C : Type} (files : String → Option C) (p : String) : List (Ev C) → Option C
  | [] => files p
  | .file q c :: rest => if q = p then c else content files p rest
  | _ :: rest => content files p rest

/-- The thread an event belongs to. -/
def Ev.thread {C : Type} : Ev C → Option Nat
  | .file _ _ => none
  | .callInit t _ => some t
  | .kept t _ _ => some t
  | .ignored t => some t
  | .callUse t => some t
  | .used t _ => some t

/-- The configuration of the last initialisation that has been kept. -/
def lastKept {C : Type} : List (Ev C) → Option C
  | [] => none
  | .kept _ _ c :: _ => some c
  | _ :: rest => lastKept rest

/-- Some thread has called a function that needs the runtime. -/
def Wanted {C : Type} (log : List (Ev C)) : Prop := ∃ t, Ev.callUse t ∈ log

/-- Some thread has got the runtime. -/
def Used {C : Type} (log : List (Ev C)) : Prop := ∃ t c, Ev.used t c ∈ log

/-- The configuration the runtime should have: that of the last initialisation, and without
any what the default file said at a time after the runtime was first asked for. -/
def Expected {C : Type} (files : String → Option C) (log : List (Ev C)) (c : C) : Prop :=
  match lastKept log with
  | some d => c = d
  | none => ∃ later earlier, log = later ++ earlier ∧ Wanted earlier ∧
      content files defaultPath earlier = some c

/-- The newest event of a thread. -/
def lastOf {C : Type} (t : Nat) (log : List (Ev C)) : Option (Ev C) :=
  log.find? (fun e => e.thread = some t)

/-- The last call of the thread has returned, or it has made none. -/
def Returned {C : Type} (t : Nat) (log : List (Ev C)) : Prop :=
  (∀ p, lastOf t log ≠ some (.callInit t p)) ∧ lastOf t log ≠ some (.callUse t)

/-- The thread `t` is in a call of `InitializeRuntime` with path `p`, and can have read `c` in
it: the file said so at some time after the call. -/
def ReadInCall {C : Type} (files : String → Option C) (log : List (Ev C)) (t : Nat) (p : String)
    (c : C) : Prop :=
  ∃ later earlier, log = later ++ earlier ∧ (∀ e ∈ later, e.thread ≠ some t) ∧
    lastOf t earlier = some (.callInit t p) ∧ content files p earlier = some c

/-- An argument that announces the path. -/
def IsKey (a : String) : Prop := a = "--service_instance_manifest" ∨ a = "-service_instance_manifest"

/-- Steps of threads only: nobody calls and no file changes. -/
def steps {C : Type} (ts : List Nat) : List (Op C) := ts.map .step

end Verif.RuntimeInit
