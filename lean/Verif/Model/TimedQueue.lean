/-!
/repo/score/message_passing/timed_command_queue.cpp (the command queue of the message passing engines), the computation of
the waiting time in the engines, and the connect retry delay of client_connection.cpp.

The queue is protected by a mutex; the atomic steps are the critical sections. ProcessQueue releases the mutex while a
callback runs, so it is a sequence of steps between which any other operation can happen, also one from the callback
itself. ProcessQueue is only called on the engine's thread. Times are integers (nanoseconds), owners are numbers with 0
for the null pointer. CleanUpOwner releases the mutex while it destroys a callback; this is modelled as one step.
-/
namespace Verif.TimedQueue

/-- TimedCommandQueueEntry; `seq` is a ghost number of the registration. Re-registering an entry object that is still queued
is outside the contract, so every registration is a new entry. -/
structure Entry where
  seq : Nat
  until_ : Int
  owner : Nat
  deriving DecidableEq, Repr

/-- `now`: the argument of a running ProcessQueue. `ran`: commands run so far with the time given to them; `removed`:
commands removed by CleanUpOwner; `next`: ghost registration counter. -/
structure St where
  queue : List Entry
  now : Option Int
  ran : List (Entry × Int)
  removed : List Entry
  next : Nat
  deriving DecidableEq, Repr

def init : St := { queue := [], now := none, ran := [], removed := [], next := 0 }

/-- queue_.insert(find_if(begin, end, until < queue_entry.until_), entry) (timed_command_queue.cpp:36-41). -/
def insert (e : Entry) : List Entry → List Entry
  | [] => [e]
  | x :: l => if e.until_ < x.until_ then e :: x :: l else x :: insert e l

inductive Op where
  | register (until_ : Int) (owner : Nat)
  | begin (now : Int)
  | turn
  | cleanUp (owner : Nat)
  deriving DecidableEq, Repr

/-- `register`: RegisterTimedEntry, or RegisterImmediateEntry with the clock's epoch (timed_command_queue.cpp:20-42).
`begin`, `turn`: one round of ProcessQueue's loop (lines 44-64): return, or remove the first entry and run its callback.
`cleanUp`: CleanUpOwner (lines 66-78). -/
def step (s : St) : Op → St
  | .register u o => { s with queue := insert ⟨s.next, u, o⟩ s.queue, next := s.next + 1 }
  | .begin n => if s.now = none then { s with now := some n } else s
  | .turn =>
    match s.now, s.queue with
    | none, _ => s
    | some _, [] => { s with now := none }
    | some n, e :: q => if e.until_ > n then { s with now := none } else { s with queue := q, ran := s.ran ++ [(e, n)] }
  | .cleanUp o =>
    { s with queue := s.queue.filter (fun e => !(e.owner == o)), removed := s.removed ++ s.queue.filter (fun e => e.owner == o) }

def run (s : St) (ops : List Op) : St := ops.foldl step s

/-- Return value of ProcessQueue when it returns in this state: the due time of the first entry, or the epoch
(timed_command_queue.cpp:52-55, 63). -/
def returned (s : St) : Int :=
  match s.queue with
  | [] => 0
  | e :: _ => e.until_

/-- UnixDomainEngine::CleanUpOwner guards against the null pointer (unix_domain/unix_domain_engine.cpp:164-169), then cleans
up on the engine's thread (lines 295-309; the endpoints are not modelled here). -/
def engineCleanUp (s : St) (owner : Nat) : St := if owner = 0 then s else step s (.cleanUp owner)

/-- UnixDomainEngine::ProcessTimerQueue (unix_domain/unix_domain_engine.cpp:342-357): the argument for poll, given the
result of ProcessQueue and the second reading of the clock, both in nanoseconds. duration_cast truncates towards zero. -/
def pollTimeout (then_ now2 : Int) : Int :=
  if then_ = 0 then -1
  else
    let d := (then_ - now2).tdiv 1000000
    if d ≥ 2147483647 then 2147483647 else d + 1

/-- How long poll(timeout) may block at most, in nanoseconds; `none`: no limit (negative timeout). -/
def pollBlocks (timeout : Int) : Option Int := if timeout < 0 then none else some (timeout * 1000000)

/-- QnxDispatchEngine::ProcessTimerQueue (qnx_dispatch/qnx_dispatch_engine.cpp:538-552): the relative time written to the
timer, an unsigned 64-bit number of nanoseconds; `none`: the timer is not set. -/
def qnxTimer (then_ now2 : Int) : Option Int :=
  if then_ = 0 then none else some ((then_ - now2 + 1) % 18446744073709551616)

/-- Retry delay of ClientConnection::TryConnect (client_connection.cpp:376-403): connect_retry_ms_ after one more failed
attempt; the delay used for an attempt is the value before it. The code computes in 64 bits, the values stay far below. -/
def grow (d : Int) : Int :=
  let inc := (d + 3 - 1) / 3
  if inc ≤ 5000 then if d ≤ 5000 - inc then d + inc else d else d

/-- Delay after the `k`-th failed attempt since the connection was (re)started with kConnectRetryMsStart
(client_connection.cpp:31-33, 331). -/
def delay : Nat → Int
  | 0 => 50
  | k + 1 => grow (delay k)

end Verif.TimedQueue
