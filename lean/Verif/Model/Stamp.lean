/-!
# Timestamps of the samples of a field

Model of `SkeletonEventCommon::Send` (lola/skeleton_event_common.h 393-408) as
it is reached by `Update` of the provider (impl/skeleton_field.h 368-381) and by
the handler of a setter (impl/skeleton_field.h 176-201), which runs on a thread
of the middleware.  The handlers of one field exclude each other by a mutex;
`Update` does not take it.

Simplifications:
* A slot has been allocated before; the allocation is in `Model/EventCtrl.lean`.
* The plain integer `current_timestamp_` is read and written in single steps, in
  any interleaving of the threads.  In C++ such an access without
  synchronisation is undefined behaviour.
* Published samples stay; reuse of slots is in `Model/EventCtrl.lean`.
-/
namespace Verif.Stamp

/-- The number of values of `EventSlotStatus::EventTimeStamp`, a 32-bit integer
(lola/event_slot_status.h). -/
def modulus : Nat := 2 ^ 32

/-- Who sends. -/
inductive Kind where
  | update
  | set
  deriving DecidableEq, Repr

/-- Where a thread is. -/
inductive Pc (V : Type) where
  | idle
  /-- before the mutex of the set handlers (impl/skeleton_field.h 184) -/
  | wait (v : V)
  /-- before `++current_timestamp_` -/
  | ready (k : Kind) (v : V)
  /-- within `++current_timestamp_`, value read -/
  | loaded (k : Kind) (v : V) (r : Nat)
  /-- after `++current_timestamp_` -/
  | stored (k : Kind) (v : V)
  /-- the argument of `EventReady` has been read -/
  | read (k : Kind) (v : V) (r : Nat)
  deriving DecidableEq, Repr

/-- The state. -/
structure St (V : Type) where
  /-- `current_timestamp_` -/
  stamp : Nat := 0
  /-- `set_handler_mutex_`: the thread that holds it -/
  lock : Option Nat := none
  pc : Nat → Pc V := fun _ => .idle
  /-- the published samples, oldest first, with their timestamps -/
  sent : List (Nat × V) := []

/-- Steps: a thread calls `Update`, a thread starts a set handler whose result
is `v`, a thread goes on. -/
inductive Op (V : Type) where
  | call (t : Nat) (k : Kind) (v : V)
  | next (t : Nat)
  deriving Repr

/-- Changes where a thread is. -/
def St.at {V : Type} (s : St V) (t : Nat) (p : Pc V) : St V :=
  { s with pc := fun j => if j = t then p else s.pc j }

/-- The end of a send; a set handler releases the mutex. -/
def St.leave {V : Type} (s : St V) (t : Nat) : Kind → St V
  | .update => s.at t .idle
  | .set => { s.at t .idle with lock := none }

/-- One step of a thread (lola/skeleton_event_common.h 405-406). -/
def St.next {V : Type} (s : St V) (t : Nat) : St V :=
  match s.pc t with
  | .idle => s
  | .wait v => if s.lock = none then { s.at t (.ready .set v) with lock := some t } else s
  | .ready k v => s.at t (.loaded k v s.stamp)
  | .loaded k v r => { s.at t (.stored k v) with stamp := (r + 1) % modulus }
  | .stored k v => s.at t (.read k v s.stamp)
  | .read k v r => { s.leave t k with sent := s.sent ++ [(r, v)] }

/-- One step. -/
def St.step {V : Type} (s : St V) : Op V → St V
  | .call t k v =>
    match s.pc t with
    | .idle => s.at t (if k = .update then .ready .update v else .wait v)
    | _ => s
  | .next t => s.next t

/-- A run. -/
def run {V : Type} (s : St V) (ops : List (Op V)) : St V := ops.foldl St.step s

/-- What a consumer that has seen the timestamp `last` is given: the samples
with a greater one (`ReferenceNextEvent`,
lola/consumer_event_data_control_local_view.cpp). -/
def unseen {V : Type} (last : Nat) (sent : List (Nat × V)) : List V :=
  (sent.filter fun p => last < p.1).map (·.2)

end Verif.Stamp
