import Verif.Proofs.LolaName
/-! C34, C35, C36: frames, addresses and size limits of the Unix domain transport. -/
namespace Verif.Props.C34
open Verif.UnixFrame Verif.SizedSend

/-- Every sequence of messages is received as the same sequence of codes and payloads, followed by the end of the stream.
Missing for the full statement: the configuration accepts limits above 65535 bytes, for which it is false (below). -/
theorem received_as_sent_partial (cap : Nat) (ms : List Msg) (hc : cap < 65536) (h : ∀ m ∈ ms, m.2.length ≤ cap) :
    receiveAll cap (stream ms) = (ms, .epipe) := by
  have := receiveAll_stream cap ms [] (fun m hm => by have := h m hm; omega)
  rw [List.append_nil, receiveAll_nil] at this
  simpa using this

/-- The same for everything a client puts on the wire, whatever it calls and whatever fails: a server whose receive
buffer has room for the client's limit receives exactly that sequence. -/
theorem client_to_server_partial (c : Cfg) (free cap : Nat) (ops : List Op) (h1 : c.maxSend ≤ cap) (h2 : cap < 65536) :
    receiveAll cap (stream (run c (init free) ops).wire) = ((run c (init free) ops).wire, .epipe) := by
  apply received_as_sent_partial cap _ h2
  intro m hm
  have hi : Inv c (init free) := ⟨by simp [init], by simp [init], by simp [init]⟩
  have := (run_inv hi ops).wire m hm
  omega

/-- And for everything a server puts on the wire of a connection with Reply and Notify. -/
theorem server_to_client_partial (c : SrvCfg) (cap : Nat) (ops : List SrvOp) (h1 : c.maxReply ≤ cap)
    (h2 : c.maxNotify ≤ cap) (h3 : cap < 65536) :
    receiveAll cap (stream (srvRun c ops)) = (srvRun c ops, .epipe) := by
  apply received_as_sent_partial cap _ h3
  intro m hm
  rcases srv_inv c ops [] (by simp) m hm with h | h <;> omega

/-- The engine's receive buffer is large enough for every endpoint registered with it, and no larger than the largest. -/
theorem buffer_fits (endpoints : List Nat) (M : Nat) (h : ∀ x ∈ endpoints, x ≤ M) :
    (∀ x ∈ endpoints, x ≤ bufferSize endpoints) ∧ bufferSize endpoints ≤ M := by
  obtain ⟨_, h2, h3⟩ := bufferSize_ge endpoints 0
  exact ⟨h2, h3 M (by omega) h⟩

/-- If the connection breaks after any number of bytes, the receiver has got exactly the messages that were sent
completely, except that it may get one more message, with the code of the next one but without payload. -/
theorem broken_connection_partial (cap : Nat) (ms : List Msg) (n : Nat) (hc : cap < 65536)
    (h : ∀ m ∈ ms, m.2.length ≤ cap) :
    ∃ k, (stream (ms.take k)).length ≤ n ∧ (ms.length ≤ k ∨ n < (stream (ms.take (k + 1))).length) ∧
      ((receiveAll cap ((stream ms).take n)).1 = ms.take k ∨
        ∃ m, ms[k]? = some m ∧ (receiveAll cap ((stream ms).take n)).1 = ms.take k ++ [(m.1, [])]) :=
  receiveAll_cut cap ms n (fun m hm => by have := h m hm; omega)

/-- Finding: if the connection breaks after the first byte of a frame, the receiver gets an empty message that was never
sent. -/
theorem broken_header_is_a_message (cap : Nat) (m : Msg) :
    (receiveAll cap ((frame m).take 1)).1 = [(m.1, [])] := by
  have : receive cap ((frame m).take 1) = (.ok (m.1, []), []) := by simp [frame, receive]
  rw [receiveAll_ok this, receiveAll_nil]

/-- Finding: a payload of 65536 bytes, which a configuration with max_send_size 65536 accepts, is announced as empty;
the receiver takes the payload itself for the following messages. -/
theorem oversized_payload_is_read_as_messages (cap : Nat) (c : UInt8) (p : List UInt8) (h : p.length = 65536) :
    receiveAll cap (stream [(c, p)]) = ((c, []) :: (receiveAll cap p).1, (receiveAll cap p).2) := by
  have h0 : receive cap (stream [(c, p)]) = (.ok (c, []), p) := by
    simp [stream, frame, receive, h]
  exact receiveAll_ok h0

/-- Finding: once an endpoint with max_receive_size 65536 is registered with an engine, that engine rejects every
non-empty message on all its connections. -/
theorem buffer_of_65536_rejects_everything (m : Msg) (r : List UInt8) (h0 : m.2 ≠ []) (h1 : m.2.length < 65536)
    (endpoints : List Nat) (h : bufferSize endpoints = 65536) :
    (receiveAll (bufferSize endpoints) (frame m ++ r)).1 = [] := by
  rw [h]
  obtain ⟨c, p⟩ := m
  simp only at h0 h1
  have hs : (UInt8.ofNat (p.length % 65536 % 256)).toNat + 256 * (UInt8.ofNat (p.length % 65536 / 256)).toNat
      = p.length := by
    simp only [UInt8.toNat_ofNat']
    omega
  have hp : 0 < p.length := List.length_pos_iff.mpr h0
  have : receive 65536 (frame (c, p) ++ r) = (.error .emsgsize, p ++ r) := by
    unfold frame receive
    simp only [List.cons_append, List.getD_cons_zero, List.getD_cons_succ, List.drop_succ_cons, List.drop_zero, hs]
    rw [if_neg (by omega), if_pos (by omega)]
  rw [receiveAll_err this]

example : receiveAll 4 (stream [(1, [7, 8, 9]), (0, []), (1, [0, 0])]) = ([(1, [7, 8, 9]), (0, []), (1, [0, 0])], .epipe) :=
  received_as_sent_partial 4 _ (by decide) (by decide)
example : bufferSize [10, 65536, 20] = 65536 := by decide
example : (run ⟨3, true, false⟩ (init 2)
    [.setReady true, .send [1, 2] true, .sendWithCallback [3] true, .send [4] true, .reply, .process, .transmit 0 true]).wire
    = [(0, [1, 2]), (1, [3]), (0, [4])] := by decide
example : srvRun ⟨2, 3⟩ [.reply [1, 2] true, .reply [1, 2, 3] true, .notify [1, 2, 3] true] = [(0, [1, 2]), (1, [1, 2, 3])] := by
  decide

end Verif.Props.C34

namespace Verif.Props.C35
open Verif.UnixFrame

/-- Different identifiers have different socket addresses, as long as they have at most 106 bytes and no NUL byte.
Missing for the full statement: longer identifiers are cut (below). -/
theorem distinct_addresses_partial (p q : List UInt8) (hp : p.length ≤ 106) (hq : q.length ≤ 106) (zp : 0 ∉ p)
    (zq : 0 ∉ q) (h : p ≠ q) : address p ≠ address q :=
  fun e => h (address_inj p q hp hq zp zq e)

/-- Exactly when two identifiers share an address: they agree on the first 106 bytes, missing bytes counted as NUL. -/
theorem same_address_iff (p q : List UInt8) : address p = address q ↔ ∀ i < 106, p.getD i 0 = q.getD i 0 :=
  address_eq_iff p q

/-- The channels of the LoLa binding have different addresses for different processes and qualities. -/
theorem lola_channels_distinct (a b : Bool) (p q : Nat) (hp : p < 2 ^ 31) (hq : q < 2 ^ 31) (h : (a, p) ≠ (b, q)) :
    address (bytes (lolaName a p)) ≠ address (bytes (lolaName b q)) := by
  intro e
  have hl : ∀ (x : Bool) (n : Nat), n < 2 ^ 31 → (bytes (lolaName x n)).length ≤ 106 := by
    intro x n hn
    have := lolaName_length x n (by omega)
    simpa [bytes] using this
  have h1 := address_inj _ _ (hl a p hp) (hl b q hq) (bytes_no_zero (lolaName_ascii a p))
    (bytes_no_zero (lolaName_ascii b q)) e
  have h2 := bytes_inj (fun c hc => (lolaName_ascii a p c hc).2) (fun c hc => (lolaName_ascii b q c hc).2) h1
  obtain ⟨h3, h4⟩ := lolaName_inj h2
  exact h (by rw [h3, h4])

/-- Finding: two different identifiers of 107 bytes that differ in the last byte only share one address, so that a client
of one service connects to the other. -/
theorem long_identifiers_collide (p : List UInt8) (a b : UInt8) (hp : p.length = 106) (h : a ≠ b) :
    p ++ [a] ≠ p ++ [b] ∧ address (p ++ [a]) = address (p ++ [b]) := by
  refine ⟨by simpa using h, ?_⟩
  rw [address_eq_iff]
  intro i hi
  simp only [List.getD_eq_getElem?_getD]
  rw [List.getElem?_append_left (by omega), List.getElem?_append_left (by omega)]

example : address (bytes "/service/a".toList) ≠ address (bytes "/service/b".toList) :=
  distinct_addresses_partial _ _ (by decide) (by decide) (by decide) (by decide) (by decide)
example : (List.replicate 106 (65 : UInt8)).length = 106 := by simp
example : lolaName true 1234 = "LoLa_2_1234_ASIL_B".toList := by decide

end Verif.Props.C35

namespace Verif.Props.C36
open Verif.UnixFrame Verif.SizedSend

/-- A call with a message longer than the limit fails with EMSGSIZE and changes nothing (SendWaitReply fails with EAGAIN
instead when called from a callback, also changing nothing). -/
theorem too_long_rejected (c : Cfg) (s : St) (m : List UInt8) (ok : Bool) (h : c.maxSend < m.length) :
    step c s (.send m ok) = (s, .error .emsgsize) ∧
    step c s (.sendWithCallback m ok) = (s, .error .emsgsize) ∧
    step c s (.sendWaitReply m false) = (s, .error .emsgsize) ∧
    step c s (.sendWaitReply m true) = (s, .error .eagain) := by
  refine ⟨?_, ?_, ?_, ?_⟩
  · simp only [step, send]; rw [if_pos h]
  · simp only [step, sendWithCallback]; rw [if_pos h]
  · simp only [step, sendWaitReply]; rw [if_neg (by simp), if_pos h]
  · simp only [step, sendWaitReply]; rw [if_pos trivial]

/-- A call with a message within the limit never fails with EMSGSIZE. -/
theorem fitting_not_rejected (c : Cfg) (s : St) (m : List UInt8) (b : Bool) (h : m.length ≤ c.maxSend) :
    (step c s (.send m b)).2 ≠ .error .emsgsize ∧ (step c s (.sendWithCallback m b)).2 ≠ .error .emsgsize ∧
    (step c s (.sendWaitReply m b)).2 ≠ .error .emsgsize := by
  have hl : ¬ m.length > c.maxSend := by omega
  refine ⟨?_, ?_, ?_⟩
  · simp only [step, send]; rw [if_neg hl]
    repeat' split
    all_goals simp
  · simp only [step, sendWithCallback]; rw [if_neg hl]
    repeat' split
    all_goals simp
  · simp only [step, sendWaitReply]; rw [if_neg hl]
    repeat' split
    all_goals simp

/-- Nothing longer than the limit is ever put on the wire by a client. -/
theorem client_respects_limit (c : Cfg) (free : Nat) (ops : List Op) :
    ∀ m ∈ (run c (init free) ops).wire, m.2.length ≤ c.maxSend :=
  (run_inv ⟨by simp [init], by simp [init], by simp [init]⟩ ops).wire

/-- Nothing longer than its limit is ever put on the wire by a server: replies have code 0, notifications code 1. -/
theorem server_respects_limits (c : SrvCfg) (ops : List SrvOp) :
    ∀ m ∈ srvRun c ops, (m.1 = 0 ∧ m.2.length ≤ c.maxReply) ∨ (m.1 = 1 ∧ m.2.length ≤ c.maxNotify) :=
  srv_inv c ops [] (by simp)

/-- Reply and Notify fail with EMSGSIZE, without sending, exactly for messages longer than their limit. -/
theorem server_rejects_iff (c : SrvCfg) (w : List Msg) (m : List UInt8) (ok : Bool) :
    ((srvStep c w (.reply m ok)).2 = .error .emsgsize ↔ c.maxReply < m.length) ∧
    ((srvStep c w (.notify m ok)).2 = .error .emsgsize ↔ c.maxNotify < m.length) ∧
    (c.maxReply < m.length → (srvStep c w (.reply m ok)).1 = w) ∧
    (c.maxNotify < m.length → (srvStep c w (.notify m ok)).1 = w) := by
  refine ⟨?_, ?_, ?_, ?_⟩ <;> simp only [srvStep] <;> repeat' split
  all_goals simp <;> omega

/-- SendWaitReply never writes more than the caller's buffer holds: a longer reply becomes EMSGSIZE, any other is
returned unchanged. -/
theorem reply_fits_buffer (room : Nat) (reply : List UInt8) :
    (copyReply room reply = .error .emsgsize ↔ room < reply.length) ∧
    (reply.length ≤ room → copyReply room reply = .ok reply) := by
  unfold copyReply
  constructor
  · split <;> simp <;> omega
  · intro h; rw [if_neg (by omega)]

example : (step ⟨2, false, false⟩ { init 1 with ready := true } (.send [1, 2, 3] true)).2 = .error .emsgsize := by decide
example : ((run ⟨2, true, true⟩ (init 1) [.setReady true, .send [1, 2] true, .process, .transmit 0 true]).wire)
    = [(0, [1, 2])] := by decide

end Verif.Props.C36
