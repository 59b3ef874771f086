import Verif.Model.TraceCall

/-! What users rely on when traces fail. -/
namespace Verif.TraceCallSpec
open Verif.TraceCall

/-- The subsystem reported an error that is not terminal. -/
def Failed (a : Answer) : Bool := a = .recoverable || a = .nonRecoverable

/-- Traces were lost since the last successful trace. -/
def lossSince : List Ev → Bool
  | log => log.foldl (fun lost e => match e with
      | .called _ _ _ a => if a = .ok then false else if a = .terminal then lost else true
      | .dropped _ => true
      | _ => lost) false

/-- The number of failed traces since the last successful one. -/
def failures : List Ev → Nat
  | log => log.foldl (fun n e => match e with
      | .called _ _ _ a => if a = .ok then 0 else if a = .terminal then n else n + 1
      | _ => n) 0

/-- The subsystem reported a terminal error. -/
def sawTerminal (log : List Ev) : Bool := log.any fun e => match e with
  | .called _ _ _ a => a = .terminal
  | .fatal => true
  | _ => false

/-- The registered shared memory object of an instance: handle and start address. -/
def object (i : Nat) : List Ev → Option (Nat × Nat)
  | log => log.foldl (fun o e => match e with
      | .registered j h st => if j = i then some (h, st) else o
      | .unregistered j => if j = i then none else o
      | _ => o) none

/-- The calls of the subsystem for one trace point. -/
def callsFor (p : Point) (log : List Ev) : List Ev := log.filter fun e => match e with
  | .called q _ _ _ => q = p
  | _ => false

/-- All threads have returned. -/
def Quiet (s : St) : Prop := ∀ t, s.pc t = .idle

/-- Calls are made only when all threads have returned. -/
def TurnAt (s : St) : Op → Prop
  | .next _ _ _ _ => True
  | _ => Quiet s

/-- The calls of the threads do not overlap. -/
def Turns : St → List Op → Prop
  | _, [] => True
  | s, o :: ops => TurnAt s o ∧ Turns (s.op o) ops

end Verif.TraceCallSpec
