import Verif.Proofs.GwFramer
/-! C37, C38, C39: serialisation and framing of the gateway messages. -/
namespace Verif.Props.C37
open Verif.GwSerial

/-- Every message whose texts are C strings and that fits the payload limit is serialised, and whatever lies around the
received bytes, they deserialise to an equal message.
Missing for the full statement: texts that are empty or contain NUL, and the names of events (below). -/
theorem survives_partial (msg : Message) (h : Sendable msg) (hs : wireSize msg ≤ 1024) :
    ∃ b, msg.serialize 1024 = some b ∧ b.length = wireSize msg ∧
      ∀ (junk : Nat → UInt8) (off : Nat),
        (deserialize msg.kind (memOf junk off b) off b.length).res = .ok msg b.length := by
  obtain ⟨b, h1, h2, _⟩ := serialize_ok msg h 1024 hs
  exact ⟨b, h1, h2, fun junk off =>
    deserialize_serialize msg h 1024 b h1 _ off _ (memOf_holds junk off b) (Nat.le_refl _)⟩

/-- A message that does not fit is refused, never cut. -/
theorem too_large_refused (msg : Message) (buffer : Nat) (h : buffer < wireSize msg) : msg.serialize buffer = none := by
  unfold Message.serialize serialize
  rw [if_pos (by rw [val_size]; exact h)]

/-- Finding: a message with an empty text is sent, but its receiver rejects it (and drops the connection). -/
theorem empty_text_is_rejected :
    (Message.register [65] 1 []).serialize 1024 = some [65, 0, 1, 0] ∧
    ∀ junk, (deserialize .register (memOf junk 0 [65, 0, 1, 0]) 0 4).res = .invalid := by
  refine ⟨by decide, ?_⟩
  intro junk
  rw [deserialize_congr .register _ (memOf (fun _ => 0) 0 [65, 0, 1, 0]) 0 4 (fun a _ ha => by
    rw [show a = 0 + a by omega, memOf_holds junk 0 _ a (by simpa using ha), memOf_holds _ 0 _ a (by simpa using ha)])]
  rfl

/-- Finding: a text with a NUL is cut at the NUL, and what follows is taken for the next member. -/
theorem nul_is_cut :
    (Message.update [65, 0, 66] 1 [67]).serialize 1024 = some [65, 0, 66, 0, 1, 67, 0] ∧
    ∀ junk, (deserialize .update (memOf junk 0 [65, 0, 66, 0, 1, 67, 0]) 0 7).res = .invalid := by
  refine ⟨by decide, ?_⟩
  intro junk
  rw [deserialize_congr .update _ (memOf (fun _ => 0) 0 [65, 0, 66, 0, 1, 67, 0]) 0 7 (fun a _ ha => by
    rw [show a = 0 + a by omega, memOf_holds junk 0 _ a (by simpa using ha), memOf_holds _ 0 _ a (by simpa using ha)])]
  rfl

/-- The text of the name of an event in a process with memory `m`. -/
def nameIn (m : Nat → UInt8) (e : EventInfo) : List UInt8 := bytesAt m e.namePtr.toNat e.nameLen.toNat

/-- Finding: the names of the provided events are not transmitted, only their addresses in the sender's memory: the
receiver gets an equal message whose event has another name. -/
theorem event_names_are_not_transmitted :
    ∃ (e : EventInfo) (sender receiver : Nat → UInt8) (b : List UInt8),
      (Message.provide [65] [e] 0 0).serialize 1024 = some b ∧
      (deserialize .provide (memOf receiver 5000 b) 5000 b.length).res = .ok (.provide [65] [e] 0 0) b.length ∧
      nameIn sender e ≠ nameIn (memOf receiver 5000 b) e := by
  have h := survives_partial (.provide [65] [⟨100, 1, 4, 4⟩] 0 0) ⟨⟨by decide, by decide⟩, by decide⟩ (by decide)
  obtain ⟨b, h1, _, h3⟩ := h
  exact ⟨⟨100, 1, 4, 4⟩, fun _ => 66, fun _ => 67, b, h1, h3 (fun _ => 67) 5000, by
    have e1 : nameIn (fun _ => 66) ⟨100, 1, 4, 4⟩ = [66] := by decide
    have e2 : nameIn (memOf (fun _ => 67) 5000 b) ⟨100, 1, 4, 4⟩ = [67] := by
      have : memOf (fun _ => 67) 5000 b 100 = 67 := by unfold memOf; rw [if_neg (by omega)]
      show [memOf (fun _ => 67) 5000 b 100] = [67]
      rw [this]
    rw [e1, e2]
    decide⟩

example : Sendable (.register [65, 66] 1 [67]) ∧ wireSize (.register [65, 66] 1 [67]) = 6 := by
  simp [Sendable, CString, wireSize]
example : (Message.register [65, 66] 1 [67]).serialize 1024 = some [65, 66, 0, 1, 67, 0] := by decide
example : wireSize (.offer (List.replicate 2000 65)) > 1024 := by
  show 1024 < (List.replicate 2000 (65 : UInt8)).length + 1
  rw [List.length_replicate]; omega

end Verif.Props.C37

namespace Verif.Props.C38
open Verif.GwSerial

/-- For every memory and every received span, for every kind of message: deserialisation reads only bytes of the span,
keeps the preconditions of the spans it forms, and ends with a message made of at most the received bytes or with an
error. -/
theorem reads_only_the_span (k : Kind) (m : Nat → UInt8) (off len : Nat) :
    (∀ a ∈ (deserialize k m off len).reads, off ≤ a ∧ a < off + len) ∧
    ((deserialize k m off len).res = .invalid ∨
      ∃ msg n, (deserialize k m off len).res = .ok msg n ∧ n ≤ len) := by
  have h := deserialize_safe k m off len
  generalize deserialize k m off len = x at h
  obtain ⟨res, reads⟩ := x
  obtain ⟨h1, h2⟩ := h
  refine ⟨h1, ?_⟩
  cases res with
  | ub => exact h2.elim
  | invalid => exact Or.inl rfl
  | ok v n => exact Or.inr ⟨v, n, rfl, h2⟩

/-- The same for every type the serialisation supports, nested to any depth. -/
theorem reads_only_the_span_any_type (t : Ty) (m : Nat → UInt8) (off len : Nat) :
    (∀ a ∈ (de t m off len).reads, off ≤ a ∧ a < off + len) ∧
    ((de t m off len).res = .invalid ∨ ∃ v n, (de t m off len).res = .ok v n ∧ n ≤ len) := by
  have h := de_safe t m off len
  generalize de t m off len = x at h
  obtain ⟨res, reads⟩ := x
  obtain ⟨h1, h2⟩ := h
  refine ⟨h1, ?_⟩
  cases res with
  | ub => exact h2.elim
  | invalid => exact Or.inl rfl
  | ok v n => exact Or.inr ⟨v, n, rfl, h2⟩

/-- The result does not depend on anything but the received bytes. -/
theorem depends_on_span_only (k : Kind) (m m' : Nat → UInt8) (off len : Nat)
    (h : ∀ a, off ≤ a → a < off + len → m a = m' a) : deserialize k m off len = deserialize k m' off len :=
  deserialize_congr k m m' off len h

/-- A truncated message is not read past its end: a vector that announces 65535 elements. -/
example : ∀ junk, (deserialize .provide (memOf junk 10 [65, 0, 255, 255, 1, 2, 3]) 10 7).res = .invalid := by
  intro junk
  simp [deserialize, de, Kind.ty, strnlen, memOf, bytesAt, List.range_succ, fromLe, deList]

end Verif.Props.C38

namespace Verif.Props.C39
open Verif.GwSerial Verif.GwFramer

/-- For every byte stream, also one that is not made of well-formed messages, the messages received do not depend on the
chunks in which it is delivered (nor on what is left in the receive buffer). -/
theorem independent_of_chunking (junk junk' : Nat → UInt8) (n : Nat) (cs cs' : List (List UInt8))
    (h : cs.flatten = cs'.flatten) : receiveLoop junk n cs = receiveLoop junk' n cs' :=
  receiveLoop_congr junk junk' n cs cs' h

/-- Every sequence of messages with C string texts, sent completely, is received as the same sequence of messages and
sequence numbers, in whatever chunks it is delivered. -/
theorem reassembled (junk : Nat → UInt8) (ms : List (UInt32 × Message)) (hs : ∀ m ∈ ms, Sendable m.2) (st : List UInt8)
    (h : stream ms = some st) (n : Nat) (hn : ms.length < n) (cs : List (List UInt8)) (hc : cs.flatten = st) :
    receiveLoop junk n cs = ms :=
  receiveLoop_stream junk ms hs st h n hn cs hc

/-- SendAll writes all of the data if it reports success, and otherwise a prefix, whatever the operating system accepts
per call. -/
theorem send_all (data : List UInt8) (counts : List Nat) :
    ((sendAll data counts).2 = true → (sendAll data counts).1 = data) ∧ (sendAll data counts).1 <+: data :=
  sendAll_spec data counts

/-- Finding: if SendAll fails after a part of a frame and the same message is sent again on the connection, as SendRequest
does, the receiver loses track of the frames: here it takes the second copy for the payload of the first and
receives nothing. -/
theorem retry_after_partial_send_loses_framing :
    ∃ (f : List UInt8) (counts : List Nat), frame 1 (.offer [65]) = some f ∧ (sendAll f counts).2 = false ∧
      ∀ junk, receiveLoop junk 10 [(sendAll f counts).1 ++ f] ≠ [(1, .offer [65])] := by
  refine ⟨[2, 1, 0, 0, 0, 2, 0, 0, 0, 65, 0], [9, 0], by decide, by decide, ?_⟩
  intro junk
  rw [receiveLoop_congr junk (fun _ => 0) 10 _ [[2, 1, 0, 0, 0, 2, 0, 0, 0, 2, 1, 0, 0, 0, 2, 0, 0, 0, 65, 0]] (by decide)]
  decide +kernel

def demo : List (UInt32 × Message) := [(1, .offer [65]), (2, .ack 1), (3, .update [65] 1 [66])]

example : ∃ st, stream demo = some st ∧ (∀ m ∈ demo, Sendable m.2) ∧
    ∀ junk cs, cs.flatten = st → receiveLoop junk 4 cs = demo := by
  have hs : ∀ m ∈ demo, Sendable m.2 := by
    intro m hm
    simp only [demo, List.mem_cons, List.not_mem_nil, or_false] at hm
    rcases hm with rfl | rfl | rfl <;> simp [Sendable, CString]
  have h : stream demo = some [2, 1, 0, 0, 0, 2, 0, 0, 0, 65, 0, 128, 2, 0, 0, 0, 4, 0, 0, 0, 1, 0, 0, 0,
      64, 3, 0, 0, 0, 5, 0, 0, 0, 65, 0, 1, 66, 0] := by decide
  exact ⟨_, h, hs, fun junk cs hc => reassembled junk demo hs _ h 4 (by decide) cs hc⟩
example : (sendAll [1, 2, 3, 4] [1, 2, 5]).2 = true := by decide

end Verif.Props.C39
