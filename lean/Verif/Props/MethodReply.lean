/-
C59: every method message gets one defined reply.
-/
import Verif.Proofs.MethodReply

namespace Verif.Demo.C59
open Verif.MethodReply

def skel : Skel := ⟨7, 1⟩
def proxy : Proxy := ⟨4711, 2⟩
def method : ProxyMethod := ⟨proxy, 5, 1⟩

/-- A service offered to user 100 only, with one subscribed method. The handlers report success. -/
def server : Server where
  subscribeHandler s := if s = skel then some (some [100]) else none
  unsubscribeHandler s := decide (s = skel)
  callHandler m := if m = method then some 100 else none
  outcome _ := some none

/-- The same service, but the memory of the subscribing proxy cannot be opened (skeleton.cpp:691-695). -/
def failing : Server := { server with outcome := fun _ => some (some comBindingFailure) }

def pad : List UInt8 := [9, 8, 7, 6, 5, 4, 3]

theorem server_ok : HandlersReportDefinedErrors server := fun _ _ h => nomatch h

theorem failing_ok : HandlersReportDefinedErrors failing := by
  intro i e h
  injection h with h; injection h with h
  subst h; decide

end Verif.Demo.C59

namespace Verif.Props.C59
open Verif.MethodReply

/-- PARTIAL (while the instance has not been destroyed): every message, of any content, from any sender, leads to exactly one reply, with
success or one of the defined errors; the connection is kept if it was a success or a recoverable error, and closed otherwise. If the
reply cannot be sent the connection is closed. The provider does not crash. -/
theorem one_reply_partial (s : Server) (hs : HandlersReportDefinedErrors s) (uid pid : Nat) (msg : List UInt8) :
    (∃ n closed calls, n ≤ 7 ∧ onMessage true true s uid pid msg = .returned [Reply n] closed calls ∧
      (closed = false ↔ n = 0 ∨ Recoverable n)) ∧
    ∃ calls, onMessage true false s uid pid msg = .returned [] true calls := by
  have h := onMessage_live hs uid pid msg
  constructor
  · have h1 := h true
    rw [if_neg (by decide)] at h1
    cases hm : (messageCallback s uid pid msg).1 with
    | none =>
      rw [hm] at h1
      refine ⟨0, _, _, by decide, h1, ?_⟩
      simp
    | some e =>
      obtain ⟨he1, he7⟩ := messageCallback_defined hs hm
      rw [hm] at h1
      simp only [Option.getD_some] at h1
      rw [le4_small (by omega)] at h1
      refine ⟨e, _, _, he7, h1, ?_⟩
      by_cases hr : Recoverable e <;> simp [hr]
      omega
  · exact ⟨_, by rw [h false, if_pos rfl]⟩

example : HandlersReportDefinedErrors Demo.C59.server ∧
    onMessage true true Demo.C59.server 100 1 (encode Demo.C59.pad (.subscribe Demo.C59.skel Demo.C59.proxy)) =
      .returned [Reply 0] false [.subscribed Demo.C59.skel Demo.C59.proxy 100 1] ∧
    onMessage true true Demo.C59.server 101 1 (encode Demo.C59.pad (.call Demo.C59.method 3)) = .returned [Reply kUnknownProxy] false [] ∧
    onMessage true true Demo.C59.server 100 1 [] = .returned [Reply kUnexpectedMessageSize] true [] ∧
    onMessage true true Demo.C59.server 100 1 [4, 1] = .returned [Reply kUnexpectedMessage] true [] :=
  ⟨Demo.C59.server_ok, by decide +kernel, by decide +kernel, by decide +kernel, by decide +kernel⟩

/-- A permitted request whose handler's service is still offered: the handler is called exactly once, with the arguments that were sent
and the identity of the sender; the reply is its result (that of a call is success). This holds whatever the padding bytes are. -/
theorem request_is_served (s : Server) (hs : HandlersReportDefinedErrors s) (uid pid : Nat) (pad : List UInt8) (hpad : pad.length = 7)
    (r : Request) (hp : Permitted s uid r) (res : Option Nat) (hr : s.outcome (r.invocation uid pid) = some res) :
    ∃ n closed, onMessage true true s uid pid (encode pad r) = .returned [Reply n] closed [r.invocation uid pid] ∧
      (n = 0 ↔ (res = none ∨ ∃ m pos, r = .call m pos)) ∧ ((∀ m pos, r ≠ .call m pos) → n = res.getD 0) := by
  have hh : ∃ res', handle s uid pid r = (res', [r.invocation uid pid]) ∧ (res' = none ↔ (res = none ∨ ∃ m pos, r = .call m pos)) ∧
      ((∀ m pos, r ≠ .call m pos) → res' = res) := by
    cases r with
    | call m pos =>
      refine ⟨none, ?_, by simp, fun h => absurd rfl (h m pos)⟩
      simp only [handle, callMethod, show s.callHandler m = some uid from hp]
      rw [if_neg (by simp), show s.outcome (.called m pos) = some res from hr]; rfl
    | subscribe sk p =>
      refine ⟨res, ?_, by simp, fun _ => rfl⟩
      have hm : ∃ a, s.subscribeHandler sk = some a ∧ mayUse a uid = true := by
        rcases hp with hp | ⟨uids, hp, hu⟩
        · exact ⟨none, hp, rfl⟩
        · exact ⟨some uids, hp, by simp [mayUse, hu]⟩
      obtain ⟨a, h1, h2⟩ := hm
      simp only [handle, callSubscribe, h1]
      rw [if_neg (by simp [h2]), show s.outcome (.subscribed sk p uid pid) = some res from hr]; rfl
    | unsubscribe sk p =>
      refine ⟨res, ?_, by simp, fun _ => rfl⟩
      simp only [handle, callUnsubscribe]
      rw [if_neg (by rw [show s.unsubscribeHandler sk = true from hp]; simp),
        show s.outcome (.unsubscribed sk p) = some res from hr]; rfl
  obtain ⟨res', h1, h2, h3⟩ := hh
  obtain ⟨h4, h5⟩ := onMessage_handle hs hpad h1
  refine ⟨_, _, h4, ?_, fun h => by rw [h3 h]⟩
  rw [← h2]
  cases res' with
  | none => simp
  | some e => have := (h5 e rfl).1; simp; omega

example : Permitted Demo.C59.server 100 (.call Demo.C59.method 3) ∧
    Demo.C59.server.outcome (.called Demo.C59.method 3) = some none := ⟨rfl, rfl⟩

/-- A request that is not permitted, or whose service is no longer offered, calls no handler; the connection is kept. An unsubscribe
request is then a success, the others get an error. -/
theorem refused_request (s : Server) (hs : HandlersReportDefinedErrors s) (uid pid : Nat) (pad : List UInt8) (hpad : pad.length = 7)
    (r : Request) (hr : ¬ Permitted s uid r ∨ s.outcome (r.invocation uid pid) = none) :
    ∃ n, onMessage true true s uid pid (encode pad r) = .returned [Reply n] false [] ∧ (n = 0 ↔ ∃ sk p, r = .unsubscribe sk p) := by
  cases r with
  | call m pos =>
    have : handle s uid pid (.call m pos) = (some kNotSubscribed, []) ∨ handle s uid pid (.call m pos) = (some kUnknownProxy, []) ∨
        handle s uid pid (.call m pos) = (some kSkeletonAlreadyDestroyed, []) := by
      simp only [handle, callMethod]
      cases hc : s.callHandler m with
      | none => exact .inl rfl
      | some a =>
        dsimp only
        by_cases ha : a = uid
        · rw [if_neg (by simp [ha])]
          rcases hr with hr | hr
          · exact absurd (by rw [← ha]; exact hc) hr
          · rw [show s.outcome (.called m pos) = none from hr]; exact .inr (.inr rfl)
        · rw [if_pos ha]; exact .inr (.inl rfl)
    rcases this with h | h | h
    · exact ⟨kNotSubscribed, (onMessage_handle hs hpad h).1, by simp⟩
    · exact ⟨kUnknownProxy, (onMessage_handle hs hpad h).1, by simp⟩
    · exact ⟨kSkeletonAlreadyDestroyed, (onMessage_handle hs hpad h).1, by simp⟩
  | subscribe sk p =>
    have : handle s uid pid (.subscribe sk p) = (some kNotOffered, []) ∨ handle s uid pid (.subscribe sk p) = (some kUnknownProxy, []) ∨
        handle s uid pid (.subscribe sk p) = (some kSkeletonAlreadyDestroyed, []) := by
      simp only [handle, callSubscribe]
      cases hc : s.subscribeHandler sk with
      | none => exact .inl rfl
      | some a =>
        dsimp only
        cases ha : mayUse a uid with
        | false => exact .inr (.inl rfl)
        | true =>
          rw [if_neg (by simp)]
          rcases hr with hr | hr
          · refine absurd ?_ hr
            cases a with
            | none => exact .inl hc
            | some uids => exact .inr ⟨uids, hc, by simpa [mayUse] using ha⟩
          · rw [show s.outcome (.subscribed sk p uid pid) = none from hr]; exact .inr (.inr rfl)
    rcases this with h | h | h
    · exact ⟨kNotOffered, (onMessage_handle hs hpad h).1, by simp⟩
    · exact ⟨kUnknownProxy, (onMessage_handle hs hpad h).1, by simp⟩
    · exact ⟨kSkeletonAlreadyDestroyed, (onMessage_handle hs hpad h).1, by simp⟩
  | unsubscribe sk p =>
    have : handle s uid pid (.unsubscribe sk p) = (none, []) := by
      simp only [handle, callUnsubscribe]
      cases hc : s.unsubscribeHandler sk with
      | false => rfl
      | true =>
        rw [if_neg (by simp)]
        rcases hr with hr | hr
        · exact absurd hc hr
        · rw [show s.outcome (.unsubscribed sk p) = none from hr]
    exact ⟨0, (onMessage_handle hs hpad this).1, by simp⟩

example : ¬ Permitted Demo.C59.server 101 (.call Demo.C59.method 3) := by
  show ¬ (Demo.C59.server.callHandler Demo.C59.method = some 101); decide +kernel

/-- A message that is none of the requests calls no handler, gets an error reply, and the connection is closed. -/
theorem malformed_message_closes (s : Server) (hs : HandlersReportDefinedErrors s) (uid pid : Nat) (msg : List UInt8)
    (hm : Malformed msg) : ∃ n, n ≠ 0 ∧ onMessage true true s uid pid msg = .returned [Reply n] true [] := by
  have h1 := onMessage_live hs uid pid msg true
  rw [if_neg (by decide)] at h1
  obtain ⟨h2, h3⟩ := messageCallback_malformed (s := s) (uid := uid) (pid := pid) hm
  rw [h1, h2]
  rcases h3 with h3 | h3 <;> rw [h3]
  · exact ⟨kUnexpectedMessage, by decide, by decide +kernel⟩
  · exact ⟨kUnexpectedMessageSize, by decide, by decide +kernel⟩

example : Malformed [1, 2, 3] := by
  intro pad r _ h
  have := congrArg List.length h
  cases r <;> simp [encode, GwSerial.le_length] at this <;> omega

/-- Two messages sent for different requests are different, whatever the padding: the provider cannot mistake one for the other. -/
theorem requests_are_distinct (pad pad' : List UInt8) (hpad : pad.length = 7) (hpad' : pad'.length = 7) (r r' : Request)
    (h : encode pad r = encode pad' r') : r = r' := by
  -- a server that permits everything tells the requests apart
  let s : Server := { subscribeHandler := fun _ => some none, unsubscribeHandler := fun _ => true, callHandler := fun _ => some 0,
                      outcome := fun _ => some none }
  have h1 := messageCallback_encode s 0 0 pad hpad r
  have h2 := messageCallback_encode s 0 0 pad' hpad' r'
  rw [h, h2] at h1
  have h3 := congrArg Prod.snd h1
  cases r <;> cases r' <;> simp [handle, callSubscribe, callUnsubscribe, callMethod, mayUse, s] at h3 <;> simp [h3]

/-- A whole connection (not destroyed, replies can be sent): if it is still up there has been one reply per message; if it was closed
there has been one reply per message up to the one that closed it. -/
theorem one_reply_per_message_partial (uid pid : Nat) (ms : List (Server × Bool × Bool × List UInt8))
    (hms : ∀ m ∈ ms, HandlersReportDefinedErrors m.1 ∧ m.2.1 = true ∧ m.2.2.1 = true) :
    ∃ rs up, session uid pid ms = some (rs, up) ∧ (up = true → rs.length = ms.length) ∧
      (up = false → 0 < rs.length ∧ rs.length ≤ ms.length ∧ ∃ n, 0 < n ∧ n ≤ 7 ∧ ¬ Recoverable n ∧ rs.getLast? = some (Reply n)) := by
  induction ms with
  | nil => exact ⟨[], true, rfl, by simp, by simp⟩
  | cons m ms ih =>
    obtain ⟨s, live, sent, msg⟩ := m
    obtain ⟨hs, rfl, rfl⟩ : HandlersReportDefinedErrors s ∧ live = true ∧ sent = true := hms _ List.mem_cons_self
    obtain ⟨⟨n, closed, calls, hn, hon, hcl⟩, _⟩ := one_reply_partial s hs uid pid msg
    obtain ⟨rs, up, h1, h2, h3⟩ := ih (fun m hm => hms m (List.mem_cons_of_mem _ hm))
    cases closed with
    | true =>
      refine ⟨[Reply n], false, by simp only [session, hon], by simp, fun _ => ⟨by simp, by simp, n, ?_, hn, ?_, rfl⟩⟩
      · exact Nat.pos_of_ne_zero fun h => by subst h; simp at hcl
      · intro h; simp [h] at hcl
    | false =>
      refine ⟨Reply n :: rs, up, by simp only [session, hon, h1]; rfl, fun hu => by simp [h2 hu], fun hu => ?_⟩
      obtain ⟨h4, h5, k, h6, h7, h8, h9⟩ := h3 hu
      refine ⟨by simp, by simp; omega, k, h6, h7, h8, ?_⟩
      rw [List.getLast?_cons, h9]; rfl

example : session 100 1 [(Demo.C59.server, true, true, encode Demo.C59.pad (.subscribe Demo.C59.skel Demo.C59.proxy)),
    (Demo.C59.server, true, true, encode Demo.C59.pad (.call Demo.C59.method 3)), (Demo.C59.server, true, true, [2, 2]),
    (Demo.C59.server, true, true, [])] = some ([Reply 0, Reply 0, Reply kUnexpectedMessageSize], false) := by decide +kernel

/-- The consumer of such a reply gets success exactly for a success, an error otherwise, and is not aborted; without a reply it gets an
error. -/
theorem consumer_result (s : Server) (hs : HandlersReportDefinedErrors s) (uid pid : Nat) (msg : List UInt8) (b : List UInt8)
    (closed : Bool) (calls : List Invocation) (h : onMessage true true s uid pid msg = .returned [b] closed calls) :
    (finish (some b) = some none ∧ b = Reply 0 ∨ finish (some b) = some (some comBindingFailure) ∧ b ≠ Reply 0) ∧
      finish none = some (some comBindingFailure) := by
  refine ⟨?_, rfl⟩
  obtain ⟨⟨n, cl, cs, hn, hon, _⟩, _⟩ := one_reply_partial s hs uid pid msg
  rw [hon] at h
  injection h with h _ _
  injection h with h _
  subst h
  unfold finish
  dsimp only
  rw [decodeReply_Reply (by omega)]
  by_cases h0 : n = 0
  · subst h0; exact .inl ⟨rfl, rfl⟩
  · refine .inr ⟨by simp [h0], fun h => h0 ?_⟩
    have : n = 1 ∨ n = 2 ∨ n = 3 ∨ n = 4 ∨ n = 5 ∨ n = 6 ∨ n = 7 := by omega
    rcases this with rfl | rfl | rfl | rfl | rfl | rfl | rfl <;> revert h <;> decide

/-- The full property does not hold. (1) A message that arrives after the scope of the instance has expired: the reply is sent, then the
result that does not exist is accessed. This is so for every message and every state of the handlers. -/
theorem message_during_destruction_crashes (s : Server) (uid pid : Nat) (msg : List UInt8) :
    onMessage false true s uid pid msg = .crashed [Reply kSkeletonAlreadyDestroyed] := rfl

/-- (2) The subscription handler reports the failure to open the memory of the subscriber with an error of another enumeration, whose
number means "unexpected message size" in a reply: a well-formed, permitted subscription closes the connection. -/
theorem failed_subscription_closes_connection : ∃ (s : Server) (r : Request), HandlersReportDefinedErrors s ∧ Permitted s 100 r ∧
    onMessage true true s 100 1 (encode Demo.C59.pad r) = .returned [Reply kUnexpectedMessageSize] true [r.invocation 100 1] :=
  ⟨Demo.C59.failing, .subscribe Demo.C59.skel Demo.C59.proxy, Demo.C59.failing_ok, .inr ⟨[100], rfl, by decide⟩, by decide +kernel⟩

/-- (3) A reply with a number outside the defined ones aborts the consumer. -/
theorem undefined_reply_aborts_consumer (b : List UInt8) (hb : b.length = 4) (hn : ∀ n ≤ 7, b ≠ Reply n) : finish (some b) = none := by
  unfold finish decodeReply
  dsimp only
  rw [if_neg (by simp [hb])]
  have : decodeErr (GwSerial.fromLe b) = none := by
    unfold decodeErr
    rw [if_neg]
    intro hlt
    have hlt : GwSerial.fromLe b < 8 := hlt
    refine hn (GwSerial.fromLe b) (by omega) ?_
    rw [← le4_small hlt]
    have := le_fromLe b
    rw [hb] at this
    exact this.symm
  rw [this]

example : ([8, 0, 0, 0] : List UInt8).length = 4 ∧ ∀ n ≤ 7, ([8, 0, 0, 0] : List UInt8) ≠ Reply n := by decide +kernel

end Verif.Props.C59
