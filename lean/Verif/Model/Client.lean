import Verif.Lib.Fn
/-!
/repo/score/message_passing/client_connection.cpp: sending, replies, and stopping of a client connection.

Any number of user threads call Send, SendWithCallback and SendWaitReply; the engine's callback thread processes input, the
asynchronous send command and the stop. The atomic steps are the critical sections under send_mutex_, each transmission
(SendProtocolMessage) and each call of a reply callback. An execution is a list of steps; a step that is not possible
leaves the state unchanged.

Simplifications: messages are numbered by the calls that submit them, and their contents and size checks are left out (see
C36). The state changes (state_, stop_reason_) are modelled coarsely here and in detail in Model/ClientState.lean. A failed
transmission puts nothing on the wire. Notifications are left out. A reply callback may call the asynchronous send methods
(as documented): this is a step of another thread. Calling Stop() or the destructor from a reply callback is not documented
as allowed and not modelled. The destructor is not modelled.
-/
namespace Verif.Client

/-- ClientConfig: fully_ordered, truly_async, and the number of entries of send_storage_
(client_connection.cpp:55-57). -/
structure Cfg where
  ordered : Bool
  async : Bool
  cap : Nat
  deriving DecidableEq, Repr

/-- Send, SendWithCallback, SendWaitReply. -/
inductive Kind where
  | plain
  | cb
  | wait
  deriving DecidableEq, Repr

/-- SendCommand (client_connection.h:118-128): a queued message; `req`: it has a callback. -/
structure Item where
  id : Nat
  req : Bool
  deriving DecidableEq, Repr

/-- What a reply callback is called with: the reply to request `q`, an unsolicited reply, or an error. -/
inductive Res where
  | reply (q : Nat)
  | bogus
  | err
  deriving DecidableEq, Repr

inductive CState where
  | starting
  | ready
  | stopping
  | stopped
  deriving DecidableEq, Repr

/-- Where a user thread is: outside, past the state check of a send method, in SendWaitReply before / after the unlocked
transmission, or waiting for the future. -/
inductive U where
  | idle
  | checked (id : Nat) (k : Kind)
  | sending (id : Nat)
  | sent (id : Nat) (ok : Bool)
  | blocked (id : Nat)
  deriving DecidableEq, Repr

/-- What remains to do after ProcessSendQueueUnderLock: call the callback taken by ProcessInputEvent (`none` inside: an
empty callback), or nothing for the asynchronous command. -/
abbrev Cont := Option (Option Nat × Res)

/-- Where the engine's thread is. `xmit`, `fin`: before / after the unlocked transmission in ProcessSendQueueUnderLock
(client_connection.cpp:540-543, 566-568). `err`, `errDone`: before / after calling the callback of a request that could not
be sent (552-556). `deliver`: about to call the callback of a reply (487). `take`, `drain`, `stopCall`: in
SwitchToStopState (587-610). -/
inductive E where
  | idle
  | xmit (m : Item) (c : Cont)
  | fin (m : Item) (ok : Bool) (c : Cont)
  | err (r : Option Nat) (c : Cont)
  | errDone (c : Cont)
  | deliver (c : Option Nat) (res : Res)
  | take
  | stopCall (r : Nat)
  | drain
  deriving DecidableEq, Repr

/-- `open_`: client_fd_ is a live connection. `pool`: number of entries in send_pool_. `waiting`: waiting_for_reply_, the
inner `none` is an empty callback. `armed`: async_send_command_ is in the engine's queue. `stopCmd`: disconnection_command_
is in the engine's queue. `wire`: messages transmitted on the current connection; `out`: requests on the current connection
without reply. Ghosts: `kind`, `ret` (result of the call: accepted or error), `got` (what the callback was called with),
`order` (order in which calls were admitted, since the last connect), `leaked` (entries popped from the queue by
SwitchToStopState), `next`. `dead`: undefined behaviour (calling an empty callback, inserting a command twice). `dbg`: a
debug assertion failed. -/
structure St where
  conn : CState
  open_ : Bool
  stopCmd : Bool
  pool : Nat
  queue : List Item
  waiting : Option (Option Nat)
  armed : Bool
  uth : Nat → U
  eng : E
  wire : List Nat
  out : List Nat
  kind : Nat → Kind
  ret : Nat → Option Bool
  got : Nat → List Res
  order : List Nat
  leaked : Nat
  next : Nat
  dead : Bool
  dbg : Bool

/-- Constructor (client_connection.cpp:38-73). -/
def init (c : Cfg) : St :=
  { conn := .stopped, open_ := false, stopCmd := false, pool := c.cap, queue := [], waiting := none, armed := false,
    uth := fun _ => .idle, eng := .idle, wire := [], out := [], kind := fun _ => .plain, ret := fun _ => none,
    got := fun _ => [], order := [], leaked := 0, next := 0, dead := false, dbg := false }

/-- SendProtocolMessage with the outcome `ok`: fails if the connection is closed. -/
def transmit (s : St) (id : Nat) (req ok : Bool) : St × Bool :=
  if ok && s.open_ then ({ s with wire := s.wire ++ [id], out := if req then s.out ++ [id] else s.out }, true)
  else (s, false)

/-- TryQueueMessage (client_connection.cpp:93-105). -/
def tryQueue (s : St) (id : Nat) (req : Bool) : Option St :=
  if s.pool = 0 then none
  else some { s with pool := s.pool - 1, queue := s.queue ++ [⟨id, req⟩], order := s.order ++ [id] }

/-- ArmSendQueueUnderLock (client_connection.cpp:509-524). -/
def arm (s : St) : St :=
  { s with dbg := s.dbg || s.waiting.isSome, waiting := some none, dead := s.dead || s.armed, armed := true }

/-- Head of the loop in ProcessSendQueueUnderLock up to the transmission (client_connection.cpp:528-540, 558-565); at the end
of the loop, what follows in the caller: call the reply's callback (487), or nothing. -/
def loopHead (s : St) (c : Cont) : St :=
  match s.queue with
  | [] =>
    match c with
    | none => { s with eng := .idle }
    | some (cb, res) => { s with eng := .deliver cb res }
  | m :: q => { s with queue := q, waiting := some (if m.req then some m.id else none), eng := .xmit m c }

/-- Return of a send method of thread `t` for message `id`. -/
def ret (s : St) (t id : Nat) (ok : Bool) : St := { s with uth := upd s.uth t .idle, ret := upd s.ret id (some ok) }

/-- Send after the state check (client_connection.cpp:118-145); `ok`: outcome of a direct transmission. -/
def enterPlain (c : Cfg) (s : St) (t id : Nat) (ok : Bool) : St :=
  if c.ordered = false ∧ c.async = false then
    ret (transmit s id false ok).1 t id (transmit s id false ok).2
  else
    match s.waiting with
    | none =>
      if c.async then
        match tryQueue s id false with
        | none => ret s t id false
        | some s' => ret (arm s') t id true
      else ret { (transmit s id false ok).1 with order := s.order ++ [id] } t id (transmit s id false ok).2
    | some _ =>
      match tryQueue s id false with
      | none => ret s t id false
      | some s' => ret s' t id true

/-- SendWithCallback after the state check (client_connection.cpp:244-271). -/
def enterCb (c : Cfg) (s : St) (t id : Nat) (ok : Bool) : St :=
  match s.waiting with
  | some _ =>
    match tryQueue s id true with
    | none => ret s t id false
    | some s' => ret s' t id true
  | none =>
    if c.async then
      match tryQueue s id true with
      | none => ret s t id false
      | some s' => ret (arm s') t id true
    else if (transmit s id true ok).2 = true then
      ret { (transmit s id true ok).1 with waiting := some (some id), order := s.order ++ [id] } t id true
    else ret { s with order := s.order ++ [id] } t id false

/-- SendWaitReply: first critical section (client_connection.cpp:187-208). -/
def enterWait (s : St) (t id : Nat) : St :=
  match s.waiting with
  | some _ =>
    match tryQueue s id true with
    | none => ret s t id false
    | some s' => { s' with uth := upd s'.uth t (.blocked id), ret := upd s'.ret id (some true) }
  | none => { s with waiting := some (some id), order := s.order ++ [id], uth := upd s.uth t (.sending id) }

/-- SendWaitReply: second critical section after the transmission (client_connection.cpp:211-226). -/
def relock (s : St) (t id : Nat) (ok : Bool) : St :=
  if ok then { s with uth := upd s.uth t (.blocked id), ret := upd s.ret id (some true) }
  else if s.queue = [] then ret { s with waiting := none } t id false
  else ret (arm s) t id false

/-- A call of a reply callback; an empty one cannot be called. -/
def callback (s : St) (c : Option Nat) (res : Res) : St :=
  match c with
  | none => { s with dead := true }
  | some r => { s with got := upd s.got r (s.got r ++ [res]) }

inductive Op where
  | call (t : Nat) (k : Kind)
  | enter (t : Nat) (ok : Bool)
  | xmit (t : Nat) (ok : Bool)
  | relock (t : Nat)
  | wake (t : Nat)
  | stop
  | restart
  | connect
  | reply
  | bogusReply
  | async
  | engXmit (ok : Bool)
  | engFin
  | engCall
  | engNext
  | teardown (peer : Bool)
  | take
  | drain
  deriving DecidableEq, Repr

/-- One step.
`call`: entry of a send method up to its state check (client_connection.cpp:107-117, 148-163, 236-243); the methods return an
error if the connection is not ready.
`enter`, `xmit`, `relock`, `wake`: see the functions above; `wake` is the end of future.Wait() (227-229).
`stop`: Stop() (292-312). `restart`, `connect`: Restart/DoRestart/TryConnect (314-450).
`reply`: ProcessInputEvent receives the reply to the oldest request on the wire (472-493); `bogusReply`: a reply although
none is due (a faulty server). Without a waiting callback the connection is dropped.
`async`: the asynchronous send command (518-523). `engXmit`, `engFin`, `engCall`, `engNext`: the loop of
ProcessSendQueueUnderLock (526-573) and the callback of a reply (487).
`teardown`: SwitchToStopState begins (575-586), because of Stop() or (`peer`) because the connection was lost; it removes
the asynchronous command. `take`, `drain`: its critical sections (587-610). -/
def step (cfg : Cfg) (T : Nat) (s : St) (op : Op) : St :=
  if s.dead then s else
  match op with
  | .call t k =>
    if t < T ∧ s.uth t = .idle ∧ s.conn = .ready then
      { s with uth := upd s.uth t (.checked s.next k), kind := upd s.kind s.next k, next := s.next + 1 }
    else s
  | .enter t ok =>
    if t < T then
      match s.uth t with
      | .checked id .plain => enterPlain cfg s t id ok
      | .checked id .cb => enterCb cfg s t id ok
      | .checked id .wait => enterWait s t id
      | _ => s
    else s
  | .xmit t ok =>
    if t < T then
      match s.uth t with
      | .sending id => { (transmit s id true ok).1 with uth := upd s.uth t (.sent id (transmit s id true ok).2) }
      | _ => s
    else s
  | .relock t =>
    if t < T then
      match s.uth t with
      | .sent id ok => relock s t id ok
      | _ => s
    else s
  | .wake t =>
    if t < T then
      match s.uth t with
      | .blocked id => if s.got id ≠ [] then { s with uth := upd s.uth t .idle } else s
      | _ => s
    else s
  | .stop => if s.conn = .starting ∨ s.conn = .ready then { s with conn := .stopping, stopCmd := true } else s
  | .restart => if s.conn = .stopped then { s with conn := .starting } else s
  | .connect => if s.conn = .starting then { s with conn := .ready, open_ := true, wire := [], out := [], order := [] } else s
  | .reply =>
    match s.eng, s.out with
    | .idle, r :: rest =>
      if s.open_ then
        match s.waiting with
        | some c => loopHead { s with waiting := none, out := rest } (some (c, .reply r))
        | none => { s with out := rest, conn := .stopping, stopCmd := true }
      else s
    | _, _ => s
  | .bogusReply =>
    if s.eng = .idle ∧ s.open_ = true then
      match s.waiting with
      | some c => loopHead { s with waiting := none } (some (c, .bogus))
      | none => { s with conn := .stopping, stopCmd := true }
    else s
  | .async => if s.eng = .idle ∧ s.armed = true then loopHead { s with armed := false } none else s
  | .engXmit ok =>
    match s.eng with
    | .xmit m c => { (transmit s m.id m.req ok).1 with eng := .fin m (transmit s m.id m.req ok).2 c }
    | _ => s
  | .engFin =>
    match s.eng with
    | .fin m ok c =>
      if m.req then
        if ok then
          match c with
          | none => { s with pool := s.pool + 1, eng := .idle }
          | some (cb, res) => { s with pool := s.pool + 1, eng := .deliver cb res }
        else { s with pool := s.pool + 1, waiting := some none, eng := .err (s.waiting.getD none) c }
      else loopHead { s with pool := s.pool + 1, waiting := none } c
    | _ => s
  | .engCall =>
    match s.eng with
    | .err r c => { callback s r .err with eng := .errDone c }
    | .deliver c res => { callback s c res with eng := .idle }
    | .stopCall r => { callback s (some r) .err with eng := .drain }
    | _ => s
  | .engNext =>
    match s.eng with
    | .errDone c => loopHead { s with waiting := none } c
    | _ => s
  | .teardown peer =>
    if s.eng = .idle ∧ (s.stopCmd = true ∨ (peer = true ∧ s.conn = .ready)) then
      { s with conn := .stopping, stopCmd := false, armed := false, open_ := false, out := [], eng := .take }
    else s
  | .take =>
    if s.eng = .take then
      match s.waiting with
      | some (some r) => { s with waiting := none, eng := .stopCall r }
      | some none => { s with waiting := none, eng := .drain }
      | none => { s with eng := .drain }
    else s
  | .drain =>
    if s.eng = .drain then
      match s.queue with
      | [] => { s with conn := .stopped, eng := .idle }
      | m :: q =>
        if m.req then { s with queue := q, leaked := s.leaked + 1, eng := .stopCall m.id }
        else { s with queue := q, leaked := s.leaked + 1 }
    else s

def run (cfg : Cfg) (T : Nat) (s : St) (ops : List Op) : St := ops.foldl (step cfg T) s

end Verif.Client
