/-!
# Sessions of a server on Unix domain sockets

Files: `score/message_passing/unix_domain/unix_domain_engine.cpp` and
`score/message_passing/unix_domain/unix_domain_server.cpp`.

One thread, the callback thread, polls all endpoints of an engine and runs all callbacks.  Callbacks
may end sessions, and through clients that share the engine they may register and
unregister endpoints.  Other threads call `StartListening` and `StopListening`.

Simplifications:
* A step of the callback thread is the processing of one queued command, one call of `poll`, or
  one turn of the loop over the polled descriptors with everything called in it.  Other threads only add
  commands to the queue (under its mutex) and wait, so finer steps give nothing new.
* Queued commands are processed in any order here; C31 to C33 say which order it is.
* A process on the other side of a connection is a number.  Messages are numbers, the frames that
  carry them are the subject of C34 to C36.  The environment chooses what is received.
* Clients on the same engine are endpoints `other k`, whose callbacks do what they like to such
  endpoints and to sessions.
* `Reply` and `Notify` change nothing here.
* An act on a session that has been destroyed is an error of the user and left out; the documentation
  forbids it (client-server.md, "Server Connection").
* Construction and destruction of engine and servers are left out.
-/
namespace Verif.UnixServer

/-- Whose `PosixEndpointEntry` it is (i_shared_resource_engine.h 70-81): that of the engine's pipe, of
a server, of a session with number `c` of server `s`, or of somebody else. -/
inductive Ep where
  | command
  | listener (s : Nat)
  | conn (c s : Nat)
  | other (k : Nat)
  deriving DecidableEq, Repr

/-- One index of `poll_fds_` and `poll_endpoints_` (unix_domain_engine.h).  `fd = none` stands
for −1, `ready` for `revents != 0`. -/
structure Slot where
  fd : Option Nat := none
  ready : Bool := false
  ep : Option Ep := none
  deriving DecidableEq, Repr

/-- The life of a `ServerConnection`: created and in the connection callback, accepted, in its
destructor. -/
inductive Stage where
  | provisional
  | accepted
  | ending
  deriving DecidableEq, Repr

/-- A `ServerConnection` object (unix_domain_server.h 34-66). -/
structure Conn where
  id : Nat
  srv : Nat
  fd : Nat
  stage : Stage
  deriving DecidableEq, Repr

/-- What users see. -/
inductive Ev where
  /-- `StartListening` of a server returned without an error -/
  | started (s : Nat)
  /-- `StopListening` returned -/
  | stopped (s : Nat)
  /-- the connection callback is called with the identity of the other side -/
  | connect (s c peer : Nat)
  /-- the connection callback returned user data -/
  | accepted (c : Nat)
  /-- the connection callback returned an error -/
  | refused (c : Nat)
  /-- a message callback is called; `peer` is who has sent the message -/
  | message (c peer m : Nat)
  /-- the message callback returned -/
  | returned (c : Nat)
  /-- the disconnection callback is called -/
  | disconnect (c : Nat)
  deriving DecidableEq, Repr

/-- Queued commands (timed_command_queue.h): the registration of a listener
(unix_domain_server.cpp 215-221), the cleanup for a server (unix_domain_engine.cpp 176-186). -/
inductive Cmd where
  | listen (s fd : Nat)
  | cleanup (s : Nat)
  deriving DecidableEq, Repr

/-- Ends of the program that should not be. -/
inductive Fault where
  /-- an endpoint that is `nullptr` is called -/
  | nullCall
  /-- an object is used after its destruction -/
  | destroyed
  /-- the process is terminated: a failed assertion, or `value()` of an error -/
  | terminated
  deriving DecidableEq, Repr

structure World where
  slots : List Slot := [{ fd := some 0, ep := some .command }]
  live : List Conn := []
  /-- open descriptors of sessions, with the process on the other side -/
  fds : List (Nat × Nat) := []
  /-- `server_fd_` of the servers that listen -/
  listening : List (Nat × Nat) := []
  queue : List Cmd := []
  /-- servers whose `StopListening` waits -/
  stopping : List Nat := []
  /-- servers whose `StopListening` may go on: the promise is fulfilled -/
  cleaned : List Nat := []
  /-- position of the callback thread in the loop over the descriptors -/
  cursor : Option Nat := none
  next : Nat := 0
  fault : Option Fault := none
  log : List Ev := []
  deriving Repr

/-- What a callback does, one thing after the other: `RequestDisconnect` for a session, with what
the disconnection callback of that session does if it is called; registration and removal of
endpoints of others, with what their `disconnect` does. -/
inductive Do where
  | done
  | disconnect (c : Nat) (inner next : Do)
  | register (k fd : Nat) (next : Do)
  | unregister (k : Nat) (inner next : Do)
  deriving Repr

def World.note (w : World) (e : Ev) : World := { w with log := w.log ++ [e] }

/-- Is the slot one that `RegisterPosixEndpoint` reuses: `poll.fd < 0`? -/
def Slot.free (x : Slot) : Bool := x.fd.isNone

/-- The first slot with a property (`std::find_if`, `std::find`). -/
def firstSlot (p : Slot → Bool) (l : List Slot) : Option Nat := l.findIdx? p

/-- `UnixDomainEngine::RegisterPosixEndpoint` (unix_domain_engine.cpp 94-128).  All endpoints of this code have an
`input`, so `events` is `POLLIN`. -/
def register (w : World) (e : Ep) (fd : Nat) : World :=
  let x : Slot := { fd := some fd, ready := false, ep := some e }
  match firstSlot Slot.free w.slots with
  | some i => { w with slots := w.slots.set i x }
  | none => { w with slots := w.slots ++ [x] }

/-- The slot of an endpoint (unix_domain_engine.cpp 134). -/
def slotOf (w : World) (e : Ep) : Option Nat := firstSlot (fun x => x.ep == some e) w.slots

/-- `UnpollEndpoint` without the call of `disconnect` (unix_domain_engine.cpp 144-148). -/
def unpoll (w : World) (i : Nat) : World := { w with slots := w.slots.set i {} }

def conn? (w : World) (c : Nat) : Option Conn := w.live.find? (·.id == c)

def setStage (w : World) (c : Nat) (g : Stage) : World :=
  { w with live := w.live.map fun x => if x.id == c then { x with stage := g } else x }

/-- The end of `~ServerConnection`: `close` and the end of the object (unix_domain_server.cpp 149-150). -/
def destroy (w : World) (c : Nat) : World :=
  match conn? w c with
  | none => w
  | some x => { w with live := w.live.filter (·.id != c), fds := w.fds.filter (·.1 != x.fd) }

/-- The begin of `disconnect` of a session: `self_.reset()`, then
`~ServerConnection` calls the disconnection callback (unix_domain_server.cpp 55-57, 135-148). -/
def beginEnd (w : World) (c : Nat) : World := (setStage w c .ending).note (.disconnect c)

/-- What a callback does.  `RequestDisconnect` is unix_domain_server.cpp 95-99,
`UnregisterPosixEndpoint` unix_domain_engine.cpp 130-153. -/
def doAll : Do → World → World
  | .done, w => w
  | .disconnect c inner next, w =>
    match conn? w c with
    | none => doAll next w
    | some x =>
      match slotOf w (.conn c x.srv) with
      | none => doAll next w
      | some i => doAll next (destroy (doAll inner (beginEnd (unpoll w i) c)) c)
  | .register k fd next, w =>
    -- an endpoint is registered once
    match slotOf w (.other k) with
    | some _ => doAll next w
    | none => doAll next (register w (.other k) fd)
  | .unregister k inner next, w =>
    match slotOf w (.other k) with
    | none => doAll next w
    | some i => doAll next (doAll inner (unpoll w i))

/-- `UnpollEndpoint` for any endpoint (unix_domain_engine.cpp 142-153).  The listener has no
`disconnect` (unix_domain_server.cpp 213), nor has the pipe (unix_domain_engine.cpp 319). -/
def unpollWith (w : World) (i : Nat) (e : Ep) (bye : Do) : World :=
  match e with
  | .command => unpoll w i
  | .listener _ => unpoll w i
  | .conn c _ => destroy (doAll bye (beginEnd (unpoll w i) c)) c
  | .other _ => doAll bye (unpoll w i)

/-- Whose endpoint it is: `owner` (unix_domain_server.cpp 45, 207). -/
def ownedBy (s : Nat) : Option Ep → Bool
  | some (.listener t) => t == s
  | some (.conn _ t) => t == s
  | _ => false

/-- The number of the session of an endpoint (only to look up what its callback does). -/
def Ep.session : Ep → Nat
  | .conn c _ => c
  | _ => 0

/-- The next slot, from `i` on, of a server. -/
def nextOwned (s i : Nat) (l : List Slot) : Option Nat :=
  ((l.drop i).findIdx? fun x => ownedBy s x.ep).map (· + i)

/-- The loop of `ProcessCleanup` (unix_domain_engine.cpp 297-307).  The first argument bounds
the number of turns in which an endpoint is removed. `bye` is what the disconnection callback of a session does. -/
def cleanupFrom : Nat → World → Nat → Nat → (Nat → Do) → World
  | 0, w, _, _, _ => w
  | n + 1, w, s, i, bye =>
    match nextOwned s i w.slots with
    | none => w
    | some j =>
      match (w.slots[j]?).bind (·.ep) with
      | none => w
      | some e => cleanupFrom n (unpollWith w j e (bye e.session)) s (j + 1) bye

/-- A queued command of a server? -/
def Cmd.of (s : Nat) : Cmd → Bool
  | .listen t _ => t == s
  | .cleanup t => t == s

/-- `ProcessCleanup` (unix_domain_engine.cpp 295-309), then `done.set_value()` (181). -/
def cleanup (w : World) (s : Nat) (bye : Nat → Do) : World :=
  let w1 := cleanupFrom w.slots.length w s 0 bye
  { w1 with queue := w1.queue.filter (!·.of s), cleaned := s :: w1.cleaned }

/-- What the environment contributes to one turn of the loop: what `accept` returns (a descriptor and the
process on the other side), whether `getsockopt` succeeds; the message that is
received, if reading succeeds and the code is known; what the callback does, whether it returns a
success; what the disconnection callback does if the session ends for the result. -/
structure In where
  accept : Option (Nat × Nat) := none
  identified : Bool := true
  msg : Option Nat := none
  does : Do := .done
  success : Bool := true
  bye : Do := .done
  deriving Repr

/-- `ProcessConnect` (unix_domain_server.cpp 236-271) and `AcceptConnection` (41-61). -/
def processConnect (w : World) (s : Nat) (e : In) : World :=
  match e.accept with
  | none => { w with fault := some .terminated }
  | some (fd, peer) =>
    -- the operating system returns a descriptor that is not open
    if w.fds.any (·.1 == fd) then w else
    if !e.identified then w else
    let c := w.next
    let w1 : World := { w with
      next := c + 1
      fds := w.fds ++ [(fd, peer)]
      live := w.live ++ [{ id := c, srv := s, fd, stage := .provisional }] }
    let w2 := doAll e.does (w1.note (.connect s c peer))
    if e.success then
      register (setStage (w2.note (.accepted c)) c .accepted) (.conn c s) fd
    else
      destroy (w2.note (.refused c)) c

/-- Who is on the other side of a descriptor. -/
def peerOf (w : World) (fd : Nat) : Option Nat := (w.fds.find? (·.1 == fd)).map (·.2)

/-- `UnregisterPosixEndpoint` called by the input callback of a session (unix_domain_server.cpp 51).
When the session does not exist any more, `this` of the callback dangles. -/
def dropSession (w : World) (c s : Nat) (bye : Do) : World :=
  match conn? w c with
  | none => { w with fault := some .destroyed }
  | some _ =>
    match slotOf w (.conn c s) with
    | none => w
    | some i => unpollWith w i (.conn c s) bye

/-- The input callback of a session (unix_domain_server.cpp 48-53) with `ProcessInput` (101-131). -/
def processInput (w : World) (c s : Nat) (e : In) : World :=
  match conn? w c with
  | none => { w with fault := some .destroyed }
  | some x =>
    match e.msg, peerOf w x.fd with
    | some m, some p =>
      let w1 := (doAll e.does (w.note (.message c p m))).note (.returned c)
      if e.success then w1 else dropSession w1 c s e.bye
    | _, _ => dropSession w c s e.bye

/-- One turn of the loop over the descriptors (unix_domain_engine.cpp 328-335). -/
def turn (w : World) (i : Nat) (e : In) : World :=
  match w.slots[i]? with
  | none => w
  | some x =>
    if !x.ready then w else
    match x.ep with
    | none => { w with fault := some .nullCall }
    | some .command => w
    | some (.listener s) => processConnect w s e
    | some (.conn c s) => processInput w c s e
    | some (.other _) => doAll e.does w

inductive Step where
  /-- another thread: `StartListening` succeeds, with this descriptor (unix_domain_server.cpp 169-224) -/
  | start (s fd : Nat)
  /-- another thread: `StopListening` is called and queues the cleanup (unix_domain_server.cpp 226-230,
  unix_domain_engine.cpp 174-187) -/
  | stop (s : Nat)
  /-- another thread: `StopListening` goes on (unix_domain_server.cpp 231-232) -/
  | stopReturn (s : Nat)
  /-- the callback thread processes a command of the queue (unix_domain_engine.cpp 324) -/
  | command (i : Nat) (bye : Nat → Do)
  /-- `poll` (unix_domain_engine.cpp 325); no descriptor is ready if it fails -/
  | poll (ready : Nat → Bool)
  /-- one turn of the loop -/
  | turn (e : In)
  /-- another thread: `RequestDisconnect`, `UnregisterPosixEndpoint` asserts (unix_domain_engine.cpp 132) -/
  | outside (c : Nat)

def step (w : World) (x : Step) : World :=
  if w.fault.isSome then w else
  match x with
  | .start s fd =>
    -- a server is started when it does not listen
    if w.listening.any (·.1 == s) then w else
    World.note { w with listening := (s, fd) :: w.listening, queue := w.queue ++ [.listen s fd] } (.started s)
  | .stop s =>
    if w.listening.any (·.1 == s) && !w.stopping.contains s then
      { w with stopping := s :: w.stopping, queue := w.queue ++ [.cleanup s] }
    else w
  | .stopReturn s =>
    if w.cleaned.contains s then
      World.note { w with
        cleaned := w.cleaned.filter (· != s)
        stopping := w.stopping.filter (· != s)
        listening := w.listening.filter (·.1 != s) } (.stopped s)
    else w
  | .command i bye =>
    if w.cursor.isSome then w else
    match w.queue[i]? with
    | none => w
    | some (.listen s fd) => register { w with queue := w.queue.eraseIdx i } (.listener s) fd
    | some (.cleanup s) => cleanup { w with queue := w.queue.eraseIdx i } s bye
  | .poll ready =>
    if w.cursor.isSome then w else
    { w with cursor := some 0, slots := w.slots.mapIdx fun i x => { x with ready := x.fd.isSome && ready i } }
  | .turn e =>
    match w.cursor with
    | none => w
    | some i =>
      if i < w.slots.length then { turn w i e with cursor := some (i + 1) }
      else { w with cursor := none }
  | .outside _ => { w with fault := some .terminated }

/-- A run from the begin of `RunOnThread` (unix_domain_engine.cpp 311-320). -/
def run (l : List Step) : World := l.foldl step {}

end Verif.UnixServer
