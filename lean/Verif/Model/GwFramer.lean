import Verif.Model.GwSerial
/-! The message framer of the gateway's sample transport
(/repo/score/mw/com/gateway/transport_layer/sample/message_framer.cpp, messages/transport_message.h).

The receiving socket is the list of chunks in which the operating system will deliver the stream, followed by the end of the
connection; each recv returns at most the requested number of bytes of the first non-empty chunk.  The sending socket accepts
any positive number of bytes per sendto, or fails. -/
namespace Verif.GwFramer
open Verif.GwSerial

/-- One recv (Socket::recv) of at most `length` > 0 bytes: empty means that the peer closed the connection. -/
def recv (length : Nat) : List (List UInt8) → List UInt8 × List (List UInt8)
  | [] => ([], [])
  | [] :: cs => recv length cs
  | (b :: c) :: cs => ((b :: c).take length, (b :: c).drop length :: cs)

def total (cs : List (List UInt8)) : Nat := cs.flatten.length

theorem recv_total {length : Nat} {cs cs' : List (List UInt8)} {b : UInt8} {g : List UInt8}
    (h : recv length cs = (b :: g, cs')) : (b :: g) ++ cs'.flatten = cs.flatten ∧ g.length < length := by
  induction cs with
  | nil => simp [recv] at h
  | cons c cs ih =>
    cases c with
    | nil => simp only [recv] at h; simpa using ih h
    | cons x c =>
      simp only [recv, Prod.mk.injEq] at h
      constructor
      · rw [← h.1, ← h.2, List.flatten_cons, ← List.append_assoc, List.take_append_drop]; simp
      · have := congrArg List.length h.1
        simp at this
        omega

/-- ReceiveAll (message_framer.cpp:48-73): `none` if the peer closes the connection first.  (Errors of recv are not
modelled separately: like a close they make ReceiveMessage return null.) -/
def receiveAll (length : Nat) (cs : List (List UInt8)) : Option (List UInt8 × List (List UInt8)) :=
  if length = 0 then some ([], cs)
  else
    match h : recv length cs with
    | ([], _) => none
    | (b :: g, cs') =>
      match receiveAll (length - (b :: g).length) cs' with
      | none => none
      | some (rest, cs'') => some ((b :: g) ++ rest, cs'')
termination_by length
decreasing_by simp; omega

/-- SendAll (message_framer.cpp:29-44): `counts` are the results of the successive sendto calls (0 is a failure; more than
requested is the rest); what is written, and whether all of it was. -/
def sendAll (data : List UInt8) : List Nat → List UInt8 × Bool
  | [] => ([], data.isEmpty)
  | n :: ns =>
    if data.isEmpty then ([], true)
    else if n = 0 then ([], false)
    else
      let r := sendAll (data.drop n) ns
      (data.take n ++ r.1, r.2)

/-- MessageHeader::SerializeToBuffer (transport_message.h:96-106): type, sequence, payload size. -/
def header (code : UInt8) (sequence : UInt32) (size : Nat) : List UInt8 := code :: le 4 sequence.toNat ++ le 4 size

/-- The frame SendMessage (message_framer.cpp:101-126) sends; kMaxPayloadSize is 1024 (message_framer.h).  `none` is
kSendFailure without sending. -/
def frame (sequence : UInt32) (msg : Message) : Option (List UInt8) :=
  match msg.serialize 1024 with
  | none => none
  | some payload => some (header msg.kind.code sequence payload.length ++ payload)

/-- ReceiveMessage (message_framer.cpp:128-172); `none` is the null pointer.  The receive buffer is at address 0; what it
contains beyond the payload is `junk`. -/
def receiveMessage (junk : Nat → UInt8) (cs : List (List UInt8)) : Option (UInt32 × Message) × List (List UInt8) :=
  match receiveAll 9 cs with
  | none => (none, [])
  | some (h, cs1) =>
    let size := fromLe (h.drop 5)
    if size > 1024 then (none, cs1)
    else
      match receiveAll size cs1 with
      | none => (none, [])
      | some (payload, cs2) =>
        match kindOfCode (h.getD 0 0) with
        | none => (none, cs2)
        | some k =>
          if size = 0 then (some (UInt32.ofNat (fromLe ((h.drop 1).take 4)), default k), cs2)
          else
            match (deserialize k (memOf junk 0 payload) 0 size).res with
            | .ok msg _ => (some (UInt32.ofNat (fromLe ((h.drop 1).take 4)), msg), cs2)
            | _ => (none, cs2)

/-- The receive loop: messages until ReceiveMessage returns null; `fuel` bounds the number of messages. -/
def receiveLoop (junk : Nat → UInt8) : Nat → List (List UInt8) → List (UInt32 × Message)
  | 0, _ => []
  | fuel + 1, cs =>
    match receiveMessage junk cs with
    | (none, _) => []
    | (some m, cs') => m :: receiveLoop junk fuel cs'

/-- What a sequence of successful SendMessage calls puts on the stream. -/
def stream : List (UInt32 × Message) → Option (List UInt8)
  | [] => some []
  | (s, m) :: ms =>
    match frame s m, stream ms with
    | some f, some r => some (f ++ r)
    | _, _ => none

end Verif.GwFramer
