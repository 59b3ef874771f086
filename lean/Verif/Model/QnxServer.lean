/-!
# Sessions of a server on QNX

Files: `score/message_passing/qnx_dispatch/qnx_dispatch_server.cpp` and
`score/message_passing/qnx_dispatch/qnx_dispatch_engine.cpp`.

A server on QNX is a resource manager: the operating system calls it when a client opens, writes and
closes.  A session is the `ServerConnection` object made when a client opens.

Simplifications:
* The calls of the resource manager come one after the other from one thread (qnx_dispatch_engine.h,
  `server_runner_`).  `StartListening`, `StopListening` and the destructor fall between two of them.
* `resmgr_detach` with `_RESMGR_DETACH_CLOSE` closes every session of that attachment before it returns, as
  the QNX documentation says.
* What the server sends to the client (`io_read`, `io_msg`, `Reply`, `Notify`) is the subject of C110.
* A write is not part of a combined message (`ctp->offset` is zero).
* The destructor of a session that was never attached makes a reference to the server from a null pointer
  (qnx_dispatch_server.cpp 285); it does not use it, and that is left out.
-/
namespace Verif.QnxServer

/-- `ClientIdentity` (score/message_passing/client_identity.h). -/
structure Client where
  pid : Nat
  uid : Nat
  gid : Nat
  deriving DecidableEq, Repr

/-- `UserData`: a handler of its own, or something else (score/message_passing/server_types.h 24-28). -/
inductive User where
  | handler (h : Nat)
  | other
  deriving DecidableEq, Repr

/-- Who is called: the handler of the session, or the callback given in the `g`-th call of `StartListening`. -/
inductive To where
  | handler (h : Nat)
  | server (g : Nat)
  deriving DecidableEq, Repr

/-- What the user of the server sees, with the number of the session. -/
inductive Event where
  /-- the connect callback given in the `g`-th call of `StartListening`, and its answer -/
  | connect (id : Nat) (c : Client) (g : Nat) (answer : Option User)
  /-- a message without reply -/
  | sent (id : Nat) (to : To) (body : List UInt8)
  /-- a message with reply -/
  | request (id : Nat) (to : To) (body : List UInt8)
  | disconnect (id : Nat) (to : To)
  /-- the user has replied -/
  | reply (id : Nat)
  deriving DecidableEq, Repr

/-- A session that is open (qnx_dispatch_server.h 73-110). -/
structure Conn where
  id : Nat
  /-- the attachment through which it was opened -/
  att : Nat
  user : User
  deriving DecidableEq, Repr

/-- Results of the calls by the operating system. -/
inductive Err where
  | ok
  | einval
  | eacces
  | ebadmsg
  | emsgsize
  | enosys
  /-- an error that the operating system gave -/
  | os
  /-- memory that is not part of the message buffer, or a destroyed server, is used -/
  | undefined
  deriving DecidableEq, Repr

/-- A server and the part of the operating system it uses. -/
structure St where
  /-- the message buffer behind the header of a write -/
  buf : List UInt8
  /-- `resmgr_id_` (qnx_dispatch_engine.h 128); `none` stands for -1 -/
  mgr : Option Nat
  /-- attachments at the path of the server, held by the operating system -/
  atts : List Nat
  /-- how often `StartListening` has been called: which callbacks are stored -/
  gen : Nat
  conns : List Conn
  nextAtt : Nat
  nextId : Nat
  /-- the server object exists -/
  alive : Bool
  /-- history -/
  log : List Event
  /-- something undefined has happened -/
  ub : Bool
  deriving DecidableEq, Repr

/-- A new server; the message buffer has room for `cap` bytes behind the header
(qnx_dispatch_server.cpp 303-323). -/
def start (cap : Nat) : St :=
  { buf := List.replicate cap 0, mgr := none, atts := [], gen := 0, conns := [], nextAtt := 0, nextId := 0,
    alive := true, log := [], ub := false }

/-- The room behind the header in the buffer that the engine asks for: `msg_max_size` less the header of a
write (qnx_dispatch_engine.cpp 140, 712). -/
def cap : Nat := 2088 - 16

/-- `StartListening` and `StartServer` (qnx_dispatch_server.cpp 332-348, qnx_dispatch_engine.cpp 574-607).  `ok`:
the operating system attaches the server to its path. -/
def startListening (s : St) (ok : Bool) : St × Bool :=
  let s := { s with gen := s.gen + 1 }
  if ok then ({ s with mgr := some s.nextAtt, atts := s.nextAtt :: s.atts, nextAtt := s.nextAtt + 1 }, true) else (s, false)

/-- Which object gets the callbacks of a session (qnx_dispatch_server.cpp 157-164, 175-182, 289-297). -/
def whom (s : St) : User → To
  | .handler h => .handler h
  | .other => .server s.gen

/-- `resmgr_detach` with all sessions of the attachment closed by `io_close_ocb`, `ProcessDisconnect` and the
destructor of the session (qnx_dispatch_engine.cpp 615-616, 830-851, qnx_dispatch_server.cpp 272-302). -/
def detach (s : St) (a : Nat) : St :=
  { s with atts := s.atts.erase a, conns := s.conns.filter (·.att != a),
           log := s.log ++ (s.conns.filter (·.att == a)).map fun c => .disconnect c.id (whom s c.user) }

/-- `StopListening` and `StopServer` (qnx_dispatch_server.cpp 350-354, qnx_dispatch_engine.cpp 609-619). -/
def stopListening (s : St) : St :=
  match s.mgr with
  | none => s
  | some a => { detach s a with mgr := none }

/-- `io_open` and `ProcessConnect` (qnx_dispatch_engine.cpp 623-648, qnx_dispatch_server.cpp 363-397).  `opened`,
`info`, `attach`: what `iofunc_open`, `ConnectClientInfo` and `iofunc_ocb_attach` answer; `answer`: that of the
connect callback. -/
def ioOpen (s : St) (a : Nat) (c : Client) (opened info : Bool) (answer : Option User) (attach : Bool) : St × Err :=
  if s.alive = false then ({ s with ub := true }, .undefined)
  else if opened = false then (s, .os)
  else if info = false then (s, .einval)
  else
    let s := { s with nextId := s.nextId + 1, log := s.log ++ [.connect s.nextId c s.gen answer] }
    match answer with
    | none => (s, .eacces)
    | some u =>
      if attach = false then (s, .os)
      else ({ s with conns := s.conns ++ [⟨s.nextId - 1, a, u⟩] }, .ok)

/-- A write as the client sends it: so many bytes of the header (16 is all of it), the number of bytes and the
type that the server finds in the header, and the bytes behind the header. -/
structure Raw where
  header : Nat
  nbytes : Nat
  plain : Bool
  body : List UInt8
  deriving DecidableEq, Repr

/-- Bytes behind the header that are received: what fits into the buffer. -/
def received (s : St) (r : Raw) : List UInt8 := if r.header < 16 then [] else r.body.take s.buf.length

/-- `ctp->info.msglen`. -/
def msglen (s : St) (r : Raw) : Nat := min r.header 16 + (received s r).length

/-- `static_cast<std::size_t>`. -/
def toSize (x : Int) : Nat := (x % 18446744073709551616).toNat

/-- `ProcessInput` (qnx_dispatch_server.cpp 145-195).  The result is not used. -/
def processInput (s : St) (c : Conn) (code : UInt8) (body : List UInt8) : St :=
  if code = 1 then { s with log := s.log ++ [.request c.id (whom s c.user) body] }
  else if code = 0 then { s with log := s.log ++ [.sent c.id (whom s c.user) body] }
  else s

/-- `io_write` (qnx_dispatch_engine.cpp 665-738).  `verified`: the answer of `iofunc_write_verify`.  Before it,
the operating system stores what it received in the buffer. -/
def ioWrite (s : St) (c : Conn) (r : Raw) (verified : Bool) : St × Err :=
  let n := msglen s r
  let s := { s with buf := received s r ++ s.buf.drop (received s r).length }
  if s.alive = false then ({ s with ub := true }, .undefined)
  else if verified = false then (s, .os)
  else if r.plain = false then (s, .enosys)
  else if r.nbytes < 1 then (s, .ebadmsg)
  else if toSize ((n : Int) - 0 - 16) < r.nbytes then (s, .emsgsize)
  else if s.buf.length < r.nbytes then ({ s with ub := true }, .undefined)
  else
    match s.buf.take r.nbytes with
    | [] => (s, .ok)
    | code :: body => (processInput s c code body, .ok)

/-- `io_close_ocb` (qnx_dispatch_engine.cpp 830-851). -/
def ioClose (s : St) (c : Conn) : St × Err :=
  if s.alive = false then ({ s with ub := true }, .undefined)
  else ({ s with conns := s.conns.filter (·.id != c.id), log := s.log ++ [.disconnect c.id (whom s c.user)] }, .ok)

/-- What can happen. -/
inductive Op where
  | startListening (ok : Bool)
  | stopListening
  | destroy
  | opens (a : Nat) (c : Client) (opened info : Bool) (answer : Option User) (attach : Bool)
  | writes (id : Nat) (r : Raw) (verified : Bool)
  | closes (id : Nat)
  | reply (id : Nat)
  deriving DecidableEq, Repr

/-- One step.  What is not possible in a state changes nothing: calls of a destroyed server are errors of the
user, and the operating system knows its attachments and sessions. -/
def step (s : St) : Op → St
  | .startListening ok => if s.alive then (startListening s ok).1 else s
  | .stopListening => if s.alive then stopListening s else s
  | .destroy => if s.alive then { stopListening s with alive := false } else s
  | .opens a c o i an at' => if a ∈ s.atts then (ioOpen s a c o i an at').1 else s
  | .writes id r v =>
    match s.conns.find? (·.id == id) with
    | some c => (ioWrite s c r v).1
    | none => s
  | .closes id =>
    match s.conns.find? (·.id == id) with
    | some c => (ioClose s c).1
    | none => s
  | .reply id =>
    match s.conns.find? (·.id == id) with
    | some c => { s with log := s.log ++ [.reply c.id] }
    | none => s

/-- A sequence of steps. -/
def run (s : St) (ops : List Op) : St := ops.foldl step s

end Verif.QnxServer
