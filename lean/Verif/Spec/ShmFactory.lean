import Verif.Model.ShmFactory
/-! Vocabulary for the properties of the shared memory factory. -/
namespace Verif.ShmFactory

/-- No RemoveStaleArtefacts in the run. -/
def NoStale (ops : List Op) : Prop := ∀ p, Op.stale p ∉ ops

/-- No Remove and no RemoveStaleArtefacts in the run. -/
def NoRemoval (ops : List Op) : Prop := ∀ p, Op.stale p ∉ ops ∧ Op.remove p ∉ ops

/-- The user of process `p` holds a pointer to resource `r`. -/
def Holds (s : St) (p r : Nat) : Prop := ((s.procs p).res r).refs ≠ 0

/-- The process is in no call and holds no memory of the path. -/
def Fresh (s : St) (p : Nat) : Prop := (s.procs p).pc = .idle ∧ ∀ r, ¬ Holds s p r

/-- The process runs, is in no call, holds no memory of the path, and none is registered. -/
def Ready (s : St) (p : Nat) : Prop := (s.procs p).over = none ∧ Fresh s p ∧ (s.procs p).reg = none

/-- The initialisation of the object has been done, once. -/
def Initialised (s : St) (o : Nat) : Prop := (s.objs o).made = 1

/-- Resource `r` is the one that is registered for the path, so that pointers into its memory are known. -/
def Registered (s : St) (p r : Nat) : Prop := (s.procs p).reg = some r

/-- The list of allowed providers of the call, if it has one, allows the user that made the object. -/
def Allowed (cfg : Cfg) (s : St) (p : Nat) (c : Call) (o : Nat) : Prop :=
  ∀ l, c.allowed = some l → cfg.uid (s.objs o).creator = cfg.uid p ∨ cfg.uid (s.objs o).creator ∈ l

/-- The call asks the typed memory daemon about objects in typed memory. -/
def AsksDaemon (cfg : Cfg) (p : Nat) (c : Call) : Prop := cfg.prov p = true ∧ (c.kind = .open ∨ c.typed = true)

/-- A call that is to be in typed memory has a provider for it. -/
def HasProvider (cfg : Cfg) (p : Nat) (c : Call) : Prop := c.kind ≠ .open → c.typed = true → cfg.prov p = true

/-- How many steps process `p` does in its calls. -/
def stepsOf (p : Nat) : List Op → Nat
  | [] => 0
  | .step q _ :: ops => (if q = p then 1 else 0) + stepsOf p ops
  | _ :: ops => stepsOf p ops

/-- How many times process `p` has got a pointer to resource `r`. -/
def timesGot (p r : Nat) : List Ret → Nat
  | [] => 0
  | x :: l => (if x.proc = p ∧ x.got.map (·.res) = some r then 1 else 0) + timesGot p r l

/-- How many times process `p` has given up a pointer to resource `r`. -/
def timesGivenUp (p r : Nat) : List Op → Nat
  | [] => 0
  | .release q x :: ops | .drop q x :: ops => (if q = p ∧ x = r then 1 else 0) + timesGivenUp p r ops
  | _ :: ops => timesGivenUp p r ops

/-- The lock file is there and the process that made it has ended. -/
def LeftBehind (s : St) (q : Nat) : Prop := (s.procs q).over ≠ none ∧
  match (s.procs q).pc with
  | .idle | .opLock .. | .opWait .. | .mkLock .. => False
  | _ => True

end Verif.ShmFactory
