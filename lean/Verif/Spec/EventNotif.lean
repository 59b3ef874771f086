import Verif.Model.EventNotif
/-! Vocabulary for receive handlers and remote registrations. -/
namespace Verif.EventNotif

/-- What a user expects the registered handlers to be: registering appends a handler with the next number, unregistering removes
the handler with that number. -/
structure Book where
  regs : Nat → List Reg
  count : Nat

def Book.empty : Book := { regs := fun _ => [], count := 0 }

def Book.step (b : Book) : Op → Book
  | .register e h _ => { regs := upd b.regs e (b.regs e ++ [{ no := b.count, h }]), count := b.count + 1 }
  | .unregister e no _ _ => { b with regs := upd b.regs e ((b.regs e).filter (·.no != no)) }
  | .reregister _ _ => b

def Book.run (b : Book) : List Op → Book
  | [] => b
  | o :: os => Book.run (b.step o) os

/-- The handlers registered for an event after these calls. -/
def registered (ops : List Op) (e : Nat) : List Reg := (Book.empty.run ops).regs e

/-- The messages about an event to a node, newest first: `true` for start, `false` for stop. -/
def talk (msgs : List Msg) (e n : Nat) : List Bool :=
  msgs.filterMap (fun m => match m with
    | .start e' n' => if e' = e ∧ n' = n then some true else none
    | .stop e' n' _ => if e' = e ∧ n' = n then some false else none)

/-- Newest first: starts and stops alternate, and the first one is a start. -/
def Alternates : List Bool → Prop
  | [] => True
  | [b] => b = true
  | b :: b' :: l => b ≠ b' ∧ Alternates (b' :: l)

/-- The node has been told to notify and not been told to stop since. -/
def Told (msgs : List Msg) (e n : Nat) : Prop := (talk msgs e n).head? = some true

/-- The proxy has a receive handler registered. -/
def World.HasHandler (w : World) (p : Nat) : Prop := (w.mgr p).reg ≠ none

/-- An orderly operation: proxies are numbered below 65535; every process that provides an event has a new pid, different from the
own one; a handler is set only by a proxy that has noticed the present provider process; a proxy is re-offered the service only when the
provider process has changed, and the application has not replaced a registered handler meanwhile; a handler is unset only while all
proxies with handlers for the event know the same provider process. -/
def Orderly (self : Nat) (ev : Nat → Nat) (w : World) : WOp → Prop
  | .set p _ _ => p < 65535 ∧ (w.mgr p).pid = w.cur (ev p)
  | .unset p _ => p < 65535 ∧ ∀ q, ev q = ev p → w.HasHandler q → (w.mgr q).pid = (w.mgr p).pid
  | .reoffer p newH _ => p < 65535 ∧ (w.mgr p).pid ≠ w.cur (ev p) ∧ (newH = none ∨ ¬ w.HasHandler p)
  | .restart e n => n ∉ w.used e ∧ n ≠ self

def OrderlyRun (self : Nat) (ev : Nat → Nat) (w : World) : List WOp → Prop
  | [] => True
  | o :: os => Orderly self ev w o ∧ OrderlyRun self ev (wstep self ev w o) os

end Verif.EventNotif
