import Verif.Model.UnixFrame

/-! Several threads that send on the same Unix domain connection, and writes that are cut short
(/repo/score/message_passing/unix_domain/unix_domain_engine.cpp:190-219).

`Send` of a client that is neither `fully_ordered` nor `truly_async`
(/repo/score/message_passing/client_connection.cpp:118-121) and `Reply` and `Notify` of a server
(/repo/score/message_passing/unix_domain/unix_domain_server.cpp:73-94) call SendProtocolMessage without a lock.  The
operating system stores a message of a stream socket in pieces: up to `chunk` bytes at once, larger ones in several
pieces, between which other threads may write.  When a signal or an error comes after the first piece, `sendmsg` returns
the number of bytes stored so far; SendProtocolMessage takes every number for success (lines 212-217). -/
namespace Verif.UnixWrite
open Verif.UnixFrame

/-- `running t`: the message that thread `t` is sending and the number of bytes stored already. `done`: the calls that have
returned, with thread, message and whether success was returned. `begun`: ghost, the calls made. -/
structure St where
  bytes : List UInt8
  running : Nat → Option (Msg × Nat)
  done : List (Nat × Msg × Bool)
  begun : List (Nat × Msg)

/-- A new connection. -/
def start : St := { bytes := [], running := fun _ => none, done := [], begun := [] }

def put (f : Nat → Option (Msg × Nat)) (t : Nat) (x : Option (Msg × Nat)) : Nat → Option (Msg × Nat) :=
  fun u => if u = t then x else f u

inductive Op where
  /-- a thread calls SendProtocolMessage -/
  | begin (t : Nat) (m : Msg)
  /-- the operating system stores a piece of the message; `n` is its size if there is more than `chunk` left -/
  | write (t : Nat) (n : Nat)
  /-- a signal or an error ends `sendmsg` -/
  | cut (t : Nat)
  deriving DecidableEq, Repr

/-- The size of the next piece. -/
def piece (chunk left n : Nat) : Nat := if left ≤ chunk then left else max 1 (min n left)

/-- One step of SendProtocolMessage on some thread (unix_domain_engine.cpp:190-219). -/
def step (chunk : Nat) (s : St) : Op → St
  | .begin t m =>
    match s.running t with
    | none => { s with running := put s.running t (some (m, 0)), begun := s.begun ++ [(t, m)] }
    | some _ => s
  | .write t n =>
    match s.running t with
    | none => s
    | some (m, i) =>
      let k := piece chunk ((frame m).length - i) n
      let s := { s with bytes := s.bytes ++ ((frame m).drop i).take k }
      if i + k < (frame m).length then { s with running := put s.running t (some (m, i + k)) }
      else { s with running := put s.running t none, done := s.done ++ [(t, m, true)] }
  | .cut t =>
    match s.running t with
    | none => s
    | some (m, i) => { s with running := put s.running t none, done := s.done ++ [(t, m, decide (0 < i))] }

def run (chunk : Nat) (s : St) (ops : List Op) : St := ops.foldl (step chunk) s

/-- ReceiveProtocolMessage (unix_domain_engine.cpp:221-274) when a signal ends the first `recvmsg` after `got` of the three
bytes of the header, and the second one after `got2` bytes.  MSG_WAITALL does not prevent that.  The first number is compared
with zero only (line 245), the second one with the size (line 269). -/
def receiveCut (cap got got2 : Nat) (bytes : List UInt8) : Except Err Msg × List UInt8 :=
  match bytes.take got with
  | [] => (.error .eio, bytes)
  | code :: r =>
    let size := (r.getD 0 0).toNat + 256 * (r.getD 1 0).toNat
    let body := bytes.drop got
    if size = 0 then (.ok (code, []), body)
    else if cap % 65536 < size then (.error .emsgsize, body)
    else if (body.take got2).length ≠ size then (.error .eio, body.drop got2)
    else (.ok (code, body.take size), body.drop size)

end Verif.UnixWrite
