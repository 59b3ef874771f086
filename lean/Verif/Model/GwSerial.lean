/-! Serialisation of the gateway messages
(/repo/score/mw/com/gateway/transport_layer/sample/messages/serialization.h, gateway_messages.{h,cpp}).

The C++ templates dispatch on the C++ type; the universe `Ty` has one constructor for each of the four tags
(serialization.h:66-85).  Memory is a function from addresses to bytes, a span is an address and a length, and every
deserialisation also returns the addresses it has read. -/
namespace Verif.GwSerial

/-- The serialisable types (serialization.h:66-85): std::string, trivially copyable types of `n` bytes, std::vector, and
composite types, the list of the types of their members. -/
inductive Ty where
  | str
  | triv (n : Nat)
  | vec (e : Ty)
  | unit
  | cons (head tail : Ty)

/-- Values.  A trivially copyable value is its object representation. -/
def Val : Ty → Type
  | .str => List UInt8
  | .triv _ => List UInt8
  | .vec e => List (Val e)
  | .unit => Unit
  | .cons a b => Val a × Val b

/-- Little endian representation of `v` in `k` bytes (memcpy of an integer), and back. -/
def le : Nat → Nat → List UInt8
  | 0, _ => []
  | k + 1, v => UInt8.ofNat (v % 256) :: le k (v / 256)

def fromLe : List UInt8 → Nat
  | [] => 0
  | b :: l => b.toNat + 256 * fromLe l

/-- The loop of the vector serialisation (serialization.h:188-198); `room` is the size of the rest of the buffer. -/
def serList {α : Type} (f : α → Nat → Option (List UInt8)) : List α → Nat → Option (List UInt8)
  | [], _ => some []
  | x :: xs, room =>
    match f x room with
    | none => none
    | some b =>
      match serList f xs (room - b.length) with
      | none => none
      | some c => some (b ++ c)

/-- Serialize (serialization.h:138-245) into a buffer of `room` bytes: the bytes written; `none` is kBufferTooSmall. -/
def ser : (t : Ty) → Val t → Nat → Option (List UInt8)
  | .str, v, room =>
    let s : List UInt8 := v
    if room < s.length + 1 then none else some (s ++ [0])
  | .triv n, v, room => if room < n then none else some (show List UInt8 from v)
  | .vec e, v, room =>
    let l : List (Val e) := v
    if l.length > 65535 then none
    else if room < 2 then none
    else
      match serList (ser e) l (room - 2) with
      | none => none
      | some b => some (le 2 l.length ++ b)
  | .unit, _, _ => some []
  | .cons a b, v, room =>
    match ser a v.1 room with
    | none => none
    | some x =>
      match ser b v.2 (room - x.length) with
      | none => none
      | some y => some (x ++ y)

def sizeList {α : Type} (f : α → Nat) : List α → Nat
  | [] => 0
  | x :: xs => f x + sizeList f xs

/-- ComputeSerializedSize (serialization.h:250-290). -/
def size : (t : Ty) → Val t → Nat
  | .str, v => (show List UInt8 from v).length + 1
  | .triv n, _ => n
  | .vec e, l => 2 + sizeList (size e) l
  | .unit, _ => 0
  | .cons a b, v => size a v.1 + size b v.2

/-- SerializeWithTemplate (gateway_messages.cpp:25-43): `none` is the result 0 (failure). -/
def serialize (t : Ty) (v : Val t) (buffer : Nat) : Option (List UInt8) :=
  if size t v > buffer then none
  else
    match ser t v (size t v) with
    | none => none
    | some b => if b = [] then none else some b

/-- Result of a deserialisation: the value and the number of bytes consumed, kPayloadInvalid, or a violated precondition
of `subspan`. -/
inductive Res (α : Type) where
  | ok (v : α) (n : Nat)
  | invalid
  | ub

/-- A deserialisation: its result and the addresses read. -/
structure Out (α : Type) where
  res : Res α
  reads : List Nat

/-- Bytes [off, off + n). -/
def bytesAt (m : Nat → UInt8) (off n : Nat) : List UInt8 := (List.range n).map (fun i => m (off + i))
def range (off n : Nat) : List Nat := (List.range n).map (fun i => off + i)

/-- strnlen: the length, and the addresses read. -/
def strnlen (m : Nat → UInt8) (off : Nat) : Nat → Nat × List Nat
  | 0 => (0, [])
  | n + 1 =>
    if m off = 0 then (0, [off])
    else
      let r := strnlen m (off + 1) n
      (r.1 + 1, off :: r.2)

/-- The loop of the vector deserialisation (serialization.h:341-352): `n` elements to go, `consumed` bytes so far. -/
def deList {α : Type} (f : (Nat → UInt8) → Nat → Nat → Out α) (m : Nat → UInt8) (off len : Nat) :
    Nat → Nat → Out (List α)
  | 0, consumed => ⟨.ok [] consumed, []⟩
  | n + 1, consumed =>
    if consumed > len then ⟨.ub, []⟩
    else
      let x := f m (off + consumed) (len - consumed)
      match x.res with
      | .invalid => ⟨.invalid, x.reads⟩
      | .ub => ⟨.ub, x.reads⟩
      | .ok v k =>
        let y := deList f m off len n (consumed + k)
        match y.res with
        | .ok vs c => ⟨.ok (v :: vs) c, x.reads ++ y.reads⟩
        | .invalid => ⟨.invalid, x.reads ++ y.reads⟩
        | .ub => ⟨.ub, x.reads ++ y.reads⟩

/-- Deserialize (serialization.h:296-397) from the span [off, off + len). -/
def de : (t : Ty) → (Nat → UInt8) → Nat → Nat → Out (Val t)
  | .str, m, off, len =>
    let k := strnlen m off len
    if k.1 = len || k.1 = 0 then ⟨.invalid, k.2⟩
    else ⟨.ok (bytesAt m off k.1) (k.1 + 1), k.2 ++ range off k.1⟩
  | .triv n, m, off, len =>
    if len < n then ⟨.invalid, []⟩
    else ⟨.ok (bytesAt m off n) n, range off n⟩
  | .vec e, m, off, len =>
    if len < 2 then ⟨.invalid, []⟩
    else
      let r := deList (de e) m off len (fromLe (bytesAt m off 2)) 2
      ⟨r.res, range off 2 ++ r.reads⟩
  | .unit, _, _, _ => ⟨.ok () 0, []⟩
  | .cons a b, m, off, len =>
    let x := de a m off len
    match x.res with
    | .invalid => ⟨.invalid, x.reads⟩
    | .ub => ⟨.ub, x.reads⟩
    | .ok v k =>
      if k > len then ⟨.ub, x.reads⟩
      else
        let y := de b m (off + k) (len - k)
        match y.res with
        | .ok w c => ⟨.ok (v, w) (k + c), x.reads ++ y.reads⟩
        | .invalid => ⟨.invalid, x.reads ++ y.reads⟩
        | .ub => ⟨.ub, x.reads ++ y.reads⟩

/-- EventInfo (/repo/score/mw/com/impl/generic_skeleton.h:32-36, data_type_meta_info.h:27-32): a std::string_view, that is
the address and the length of the name, and two sizes; trivially copyable. -/
structure EventInfo where
  namePtr : UInt64
  nameLen : UInt64
  size : UInt64
  alignment : UInt64
  deriving DecidableEq, Repr

/-- The gateway messages (gateway_messages.h) with their members. -/
inductive Message where
  | provide (spec : List UInt8) (events : List EventInfo) (shmControl shmData : UInt32)
  | offer (spec : List UInt8)
  | stopOffer (spec : List UInt8)
  | register (spec : List UInt8) (type : UInt8) (name : List UInt8)
  | unregister (spec : List UInt8) (type : UInt8) (name : List UInt8)
  | update (spec : List UInt8) (type : UInt8) (name : List UInt8)
  | ack (sequence : UInt32)
  deriving DecidableEq, Repr

/-- MessageType (transport_message.h:30-64). -/
inductive Kind where
  | provide
  | offer
  | stopOffer
  | register
  | unregister
  | update
  | ack
  deriving DecidableEq, Repr

def Kind.code : Kind → UInt8
  | .provide => 1
  | .offer => 2
  | .stopOffer => 3
  | .register => 4
  | .unregister => 5
  | .update => 0x40
  | .ack => 0x80

/-- CreateMessageForType (message_framer.cpp:77-99). -/
def kindOfCode (c : UInt8) : Option Kind :=
  if c = 1 then some .provide
  else if c = 2 then some .offer
  else if c = 3 then some .stopOffer
  else if c = 4 then some .register
  else if c = 5 then some .unregister
  else if c = 0x40 then some .update
  else if c = 0x80 then some .ack
  else none

def Message.kind : Message → Kind
  | .provide .. => .provide
  | .offer .. => .offer
  | .stopOffer .. => .stopOffer
  | .register .. => .register
  | .unregister .. => .unregister
  | .update .. => .update
  | .ack .. => .ack

/-- GetSerializeMembers (gateway_messages.h): sizeof(EventInfo) is 32, sizeof(ServiceElementType) is 1. -/
def Kind.ty : Kind → Ty
  | .provide => .cons .str (.cons (.vec (.triv 32)) (.cons (.triv 4) (.cons (.triv 4) .unit)))
  | .offer => .cons .str .unit
  | .stopOffer => .cons .str .unit
  | .register => .cons .str (.cons (.triv 1) (.cons .str .unit))
  | .unregister => .cons .str (.cons (.triv 1) (.cons .str .unit))
  | .update => .cons .str (.cons (.triv 1) (.cons .str .unit))
  | .ack => .cons (.triv 4) .unit

def EventInfo.bytes (e : EventInfo) : List UInt8 :=
  le 8 e.namePtr.toNat ++ le 8 e.nameLen.toNat ++ le 8 e.size.toNat ++ le 8 e.alignment.toNat

def EventInfo.ofBytes (b : List UInt8) : EventInfo :=
  ⟨UInt64.ofNat (fromLe (b.take 8)), UInt64.ofNat (fromLe ((b.drop 8).take 8)), UInt64.ofNat (fromLe ((b.drop 16).take 8)),
    UInt64.ofNat (fromLe ((b.drop 24).take 8))⟩

/-- The members of a message, in the order of GetSerializeMembers, as values. -/
def Message.val : (msg : Message) → Val msg.kind.ty
  | .provide spec events c d =>
    show List UInt8 × List (List UInt8) × List UInt8 × List UInt8 × Unit from
      (spec, events.map EventInfo.bytes, le 4 c.toNat, le 4 d.toNat, ())
  | .offer spec => show List UInt8 × Unit from (spec, ())
  | .stopOffer spec => show List UInt8 × Unit from (spec, ())
  | .register spec t name => show List UInt8 × List UInt8 × List UInt8 × Unit from (spec, [t], name, ())
  | .unregister spec t name => show List UInt8 × List UInt8 × List UInt8 × Unit from (spec, [t], name, ())
  | .update spec t name => show List UInt8 × List UInt8 × List UInt8 × Unit from (spec, [t], name, ())
  | .ack n => show List UInt8 × Unit from (le 4 n.toNat, ())

/-- The message with the given members. -/
def ofVal : (k : Kind) → Val k.ty → Message
  | .provide, v =>
    let w : List UInt8 × List (List UInt8) × List UInt8 × List UInt8 × Unit := v
    .provide w.1 (w.2.1.map EventInfo.ofBytes) (UInt32.ofNat (fromLe w.2.2.1)) (UInt32.ofNat (fromLe w.2.2.2.1))
  | .offer, v => let w : List UInt8 × Unit := v; .offer w.1
  | .stopOffer, v => let w : List UInt8 × Unit := v; .stopOffer w.1
  | .register, v => let w : List UInt8 × List UInt8 × List UInt8 × Unit := v; .register w.1 (w.2.1.getD 0 0) w.2.2.1
  | .unregister, v => let w : List UInt8 × List UInt8 × List UInt8 × Unit := v; .unregister w.1 (w.2.1.getD 0 0) w.2.2.1
  | .update, v => let w : List UInt8 × List UInt8 × List UInt8 × Unit := v; .update w.1 (w.2.1.getD 0 0) w.2.2.1
  | .ack, v => let w : List UInt8 × Unit := v; .ack (UInt32.ofNat (fromLe w.1))

/-- The default constructed message of a kind. -/
def default : Kind → Message
  | .provide => .provide [] [] 0 0
  | .offer => .offer []
  | .stopOffer => .stopOffer []
  | .register => .register [] 0 []
  | .unregister => .unregister [] 0 []
  | .update => .update [] 0 []
  | .ack => .ack 0

/-- TransportMessage::Serialize of all message classes (gateway_messages.cpp:57-106). -/
def Message.serialize (msg : Message) (buffer : Nat) : Option (List UInt8) := GwSerial.serialize msg.kind.ty msg.val buffer

/-- TransportMessage::Deserialize of a received payload stored at address `off` (gateway_messages.cpp:45-53); trailing bytes
are ignored. -/
def deserialize (k : Kind) (m : Nat → UInt8) (off len : Nat) : Out Message :=
  let r := de k.ty m off len
  match r.res with
  | .ok v n => ⟨.ok (ofVal k v) n, r.reads⟩
  | .invalid => ⟨.invalid, r.reads⟩
  | .ub => ⟨.ub, r.reads⟩

/-- Memory with `b` at address `off` (the receive buffer) and `junk` elsewhere. -/
def memOf (junk : Nat → UInt8) (off : Nat) (b : List UInt8) : Nat → UInt8 :=
  fun a => if off ≤ a then (b[a - off]?).getD (junk a) else junk a

end Verif.GwSerial
