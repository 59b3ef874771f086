/-!
# Receiving samples with the Rust API

`try_receive`, `cancellable_receive` and `to_stream` of a subscription
(score/mw/com/impl/rust/com-api/com-api-runtime-lola/consumer.rs, "consumer.rs" below), the
sample container (score/mw/com/rust/score_com_concept/concept.rs 662-737) and what they use of
`ProxyEvent::GetNewSamples` (score/mw/com/impl/proxy_event.h 189-230).

A poll of a future or of a stream is three steps (validation and set-up, registration of the
waker, fetching the samples).  The provider and the thread that calls the receive handler run
between any two of them.

Simplifications:
* One subscription, one task, one container.  Samples are numbered in the order of sending.
* The provider looks for receive handlers after it has stored a sample (`signal`), and the
  handler is called later (`notify`); both happen for each sample.  That the flags of the
  provider are right is C55 and C57.
* A sample that is not got yet may be lost because the provider needs its slot (`lose`).
* `AtomicWaker::register` and `wake` are atomic, and the runtime polls a task that is woken.
* Sequence numbers of samples and the type operations are not modelled.
-/
namespace Verif.RustReceive

/-- `maxNum`: the argument of `subscribe`.  `cap`: the capacity of the user's container. -/
structure Cfg where
  maxNum : Nat
  cap : Nat
deriving DecidableEq, Repr

inductive Err where
  /-- `InputValueOutOfBounds` -/
  | bounds
  | cancelled
  /-- `SampleCountOutOfBounds` after an error of the binding, or `ReceiveError` -/
  | failed
deriving DecidableEq, Repr

inductive Res where
  | ok (n : Nat)
  | err (e : Err)
deriving DecidableEq, Repr

/-- Where a future or a stream is: not polled since it was made (or since it returned a sample);
`Pending` was returned; the poll is before the registration of the waker; before fetching. -/
inductive Pc where
  | fresh
  | waiting
  | started
  | polling
deriving DecidableEq, Repr

/-- `ReceiveFuture` (consumer.rs 721-732) -/
structure Fut where
  new : Nat
  max : Nat
  total : Nat
  pc : Pc
deriving DecidableEq, Repr

/-- `SampleStream` (consumer.rs 814-817) -/
structure Str where
  buf : List Nat
  pc : Pc
deriving DecidableEq, Repr

/-- What the user sees: the result of a `try_receive`, the result of a receive future with the
container that comes back, an item of the stream. -/
inductive Ev where
  | tried (max : Nat) (r : Res)
  | received (new max : Nat) (r : Res) (box : List Nat)
  | item (x : Nat)
  | itemErr
deriving DecidableEq, Repr

/-- `unread`: samples that the next `GetNewSamples` can find, oldest first.  `box`: the
container (while there is a future, it is in the future).  `user`: samples that the user has
taken out.  `got`: all samples that `GetNewSamples` has handed over (ghost), `out`: all samples
that streams have yielded (ghost). -/
structure St where
  unread : List Nat
  next : Nat
  toSignal : Nat
  due : Nat
  handler : Bool
  waker : Bool
  woken : Bool
  cancel : Bool
  fut : Option Fut
  stream : Option Str
  box : List Nat
  user : List Nat
  got : List Nat
  out : List Nat
  log : List Ev
  panic : Bool
deriving DecidableEq, Repr

def init : St :=
  { unread := [], next := 0, toSignal := 0, due := 0, handler := false, waker := false,
    woken := false, cancel := false, fut := none, stream := none, box := [], user := [],
    got := [], out := [], log := [], panic := false }

/-- Samples of the subscription that are still referenced. -/
def held (s : St) : Nat :=
  s.box.length + s.user.length + (match s.stream with | some r => r.buf.length | none => 0)

/-- The callback for a sample (consumer.rs 1212-1239): the oldest samples are dropped while the
container has `max` or more; none is the assertion. -/
def push (cap max : Nat) (box : List Nat) (x : Nat) : Option (List Nat) :=
  let b := box.drop (box.length + 1 - max)
  if b.length < cap then some (b ++ [x]) else none

def pushAll (cap max : Nat) : List Nat → List Nat → Option (List Nat)
  | box, [] => some box
  | box, x :: xs =>
    match push cap max box x with
    | none => none
    | some b => pushAll cap max b xs

/-- The last `n` elements. -/
def lastN (n : Nat) (l : List Nat) : List Nat := l.drop (l.length - n)

inductive Fetched where
  | error (e : Err)
  | assertion
  | got (xs box : List Nat)
deriving DecidableEq, Repr

/-- `try_receive_samples` (consumer.rs 1139-1188) with `GetNewSamples` (proxy_event.h 204-229;
the newest samples, oldest first: C05): `limit` is the number of samples asked for. -/
def fetch (cfg : Cfg) (s : St) (cap limit : Nat) (box : List Nat) : Fetched :=
  if limit = 0 then .error .bounds
  else if limit > cfg.maxNum then .error .failed
  else if cfg.maxNum - held s = 0 then .error .failed
  else
    let xs := lastN (min limit (cfg.maxNum - held s)) s.unread
    match pushAll cap limit box xs with
    | none => .assertion
    | some b => .got xs b

inductive Op where
  | store
  | lose
  | signal
  | notify
  | tryReceive (max : Nat)
  | start (new max : Nat)
  | poll (ok : Bool)
  | go
  | cancel
  | dropFut
  | take
  | release (x : Nat)
  | toStream (ok : Bool)
  | next
  | goStream
  | dropStream
deriving DecidableEq, Repr

/-- `validate_receive_params` (consumer.rs 563-593) -/
def valid (cfg : Cfg) (new max : Nat) : Bool :=
  decide (new ≠ 0) && decide (new ≤ max) && !(decide (max > cfg.maxNum) || decide (new > cfg.maxNum))

/-- The future returns; the guard is released (consumer.rs 745-754, 787-810). -/
def finish (s : St) (f : Fut) (r : Res) : St :=
  { s with fut := none, cancel := false, log := s.log ++ [.received f.new f.max r s.box] }

/-- `signal`: the provider has stored a sample and looks for handlers. -/
def signal (s : St) : St :=
  if s.toSignal = 0 then s
  else { s with toSignal := s.toSignal - 1, due := if s.handler then s.due + 1 else s.due }

/-- `notify`: the receive handler is called, which wakes (consumer.rs 533-536). -/
def notify (s : St) : St :=
  if s.due = 0 then s
  else { s with due := s.due - 1, waker := false, woken := s.woken || s.waker }

/-- `tryReceive` (consumer.rs 636-650).  With a future under way the guard ends the process
(429-442).  The container is in the future, if there is one, and a stream borrows the
subscription; then there is no such call. -/
def tryReceive (cfg : Cfg) (s : St) (max : Nat) : St :=
  match s.stream, s.fut with
  | none, some f => if f.pc = .fresh then s else { s with panic := true }
  | none, none =>
    match fetch cfg s cfg.cap max s.box with
    | .error e => { s with log := s.log ++ [.tried max (.err e)] }
    | .assertion => { s with panic := true }
    | .got xs b => { s with unread := [], box := b, got := s.got ++ xs,
                            log := s.log ++ [.tried max (.ok xs.length)] }
  | some _, _ => s

/-- `start`: `receive` or `cancellable_receive` is called; nothing runs before the first poll
(consumer.rs 657-664). -/
def start (s : St) (new max : Nat) : St :=
  match s.stream, s.fut with
  | none, none => { s with fut := some ⟨new, max, 0, .fresh⟩, cancel := false, woken := true }
  | _, _ => s

/-- `poll`: the runtime begins to poll the future.  The first time the parameters are checked and
the receive handler is set (consumer.rs 665-683, 532-558); `ok`: this succeeds. -/
def poll (cfg : Cfg) (s : St) (ok : Bool) : St :=
  match s.fut with
  | none => s
  | some f =>
    match f.pc with
    | .waiting => { s with woken := false, fut := some { f with pc := .started } }
    | .fresh =>
      if valid cfg f.new f.max then
        if s.handler || ok then
          { s with woken := false, handler := true, fut := some { f with pc := .started } }
        else finish { s with woken := false } f (.err .failed)
      else finish { s with woken := false } f (.err .bounds)
    | _ => s

/-- `go`: the poll goes on (`ReceiveFuture::poll`, consumer.rs 739-811): cancellation and
registration of the waker, then fetching. -/
def go (cfg : Cfg) (s : St) : St :=
  match s.fut with
  | none => s
  | some f =>
    match f.pc with
    | .started =>
      if s.cancel then finish s f (.err .cancelled)
      else { s with waker := true, fut := some { f with pc := .polling } }
    | .polling =>
      match fetch cfg s cfg.cap (f.max - f.total) s.box with
      | .error e => finish s f (.err e)
      | .assertion => { s with panic := true }
      | .got xs b =>
        let s := { s with unread := [], box := b, got := s.got ++ xs }
        let n := f.total + xs.length
        if n ≥ f.new then finish s f (.ok n)
        else { s with fut := some { f with total := n, pc := .waiting } }
    | _ => s

/-- `cancel`: the cancellation future is ready and wakes the task. -/
def cancel (s : St) : St :=
  match s.fut with
  | none => s
  | some _ => { s with cancel := true, woken := true }

/-- `dropFut`: the future is dropped between two polls, with the container in it; the guard is
released (consumer.rs 464-470). -/
def dropFut (s : St) : St :=
  match s.fut with
  | none => s
  | some f =>
    match f.pc with
    | .fresh | .waiting => { s with fut := none, cancel := false, box := [] }
    | _ => s

/-- `take`: the user takes the first sample out (concept.rs 699-701). -/
def take (s : St) : St :=
  match s.fut, s.box with
  | none, x :: b => { s with box := b, user := s.user ++ [x] }
  | _, _ => s

/-- `toStream` (consumer.rs 700-713); a handler that cannot be set ends the process. -/
def toStream (s : St) (ok : Bool) : St :=
  match s.stream, s.fut with
  | none, none =>
    if s.handler || ok then { s with handler := true, woken := true, stream := some ⟨[], .fresh⟩ }
    else { s with panic := true }
  | _, _ => s

/-- `next`: the runtime begins to poll the stream (`poll_next`, consumer.rs 822-826). -/
def nextItem (s : St) : St :=
  match s.stream with
  | none => s
  | some r =>
    match r.pc with
    | .fresh | .waiting =>
      match r.buf with
      | x :: b => { s with woken := false, user := s.user ++ [x], out := s.out ++ [x],
                           log := s.log ++ [.item x], stream := some ⟨b, .fresh⟩ }
      | [] => { s with woken := false, stream := some { r with pc := .started } }
    | _ => s

/-- `goStream`: the poll goes on (consumer.rs 828-855).  The buffer has the capacity
`max_num_samples` (711). -/
def goStream (cfg : Cfg) (s : St) : St :=
  match s.stream with
  | none => s
  | some r =>
    match r.pc with
    | .started => { s with waker := true, stream := some { r with pc := .polling } }
    | .polling =>
      match fetch cfg s cfg.maxNum cfg.maxNum r.buf with
      | .error _ => { s with log := s.log ++ [.itemErr], stream := some { r with pc := .fresh } }
      | .assertion => { s with panic := true }
      | .got xs b =>
        let s := { s with unread := [], got := s.got ++ xs }
        match b with
        | x :: b => { s with user := s.user ++ [x], out := s.out ++ [x],
                             log := s.log ++ [.item x], stream := some ⟨b, .fresh⟩ }
        | [] => { s with stream := some ⟨[], .waiting⟩ }
    | _ => s

/-- `dropStream`: the stream is dropped between two polls, with the samples in it. -/
def dropStream (s : St) : St :=
  match s.stream with
  | none => s
  | some r =>
    match r.pc with
    | .fresh | .waiting => { s with stream := none }
    | _ => s

/-- A process that has ended does nothing. -/
def step (cfg : Cfg) (s : St) (op : Op) : St :=
  if s.panic then s else
  match op with
  | .store => { s with unread := s.unread ++ [s.next], next := s.next + 1, toSignal := s.toSignal + 1 }
  | .lose => { s with unread := s.unread.tail }
  | .signal => signal s
  | .notify => notify s
  | .tryReceive max => tryReceive cfg s max
  | .start new max => start s new max
  | .poll ok => poll cfg s ok
  | .go => go cfg s
  | .cancel => cancel s
  | .dropFut => dropFut s
  | .take => take s
  | .release x => { s with user := s.user.erase x }
  | .toStream ok => toStream s ok
  | .next => nextItem s
  | .goStream => goStream cfg s
  | .dropStream => dropStream s

def run (cfg : Cfg) (s : St) (ops : List Op) : St := ops.foldl (step cfg) s

end Verif.RustReceive
