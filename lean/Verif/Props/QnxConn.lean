import Verif.Proofs.QnxConn

namespace Verif.Demo.C110
open Verif.QnxConn Verif.QnxConnSpec

def cfg : Cfg := ⟨8, 8, 2⟩

/-- A connection that is announced while one notification is queued; then a request with its reply and
two notifications, one of them empty. -/
def ops : List Op :=
  [.notify [1], .select, .check, .request, .notify [], .reply [2], .take, .read, .notify [3], .take, .take]

theorem answers_ops : Answers cfg ops := by
  intro a b body e
  have hlen : a.length + b.length + 1 = 11 := by have := congrArg List.length e; simp [ops] at this; omega
  have hget : ops[a.length]? = some (.reply body) := by rw [e]; simp
  have ha : a = ops.take a.length := by rw [e]; simp
  have h5 : a.length = 5 := by
    have hlt : a.length < 11 := by omega
    generalize a.length = n at hget hlt
    match n, hlt with
    | 0, _ | 1, _ | 2, _ | 3, _ | 4, _ | 6, _ | 7, _ | 8, _ | 9, _ | 10, _ => simp [ops] at hget
    | 5, _ => rfl
  rw [ha, h5]
  decide +kernel

/-- Two notifications before the client announces its pulses. -/
def early : List Op := [.notify [1], .notify [2], .select, .check, .take, .read]

/-- A notification and a reply before the client announces its pulses. -/
def waits : List Op := [.request, .notify [1], .reply [2], .select, .check, .take, .read]

end Verif.Demo.C110

namespace Verif.Props.C110
open Verif.QnxConn Verif.QnxConnSpec Verif.QnxConnProofs Verif.Demo.C110

/-- **C110**: the client never gets anything the server has not sent, nothing twice and nothing out of
order: the messages it has got are the first ones the server was told it has sent, with the same
bytes.  As long as the client has not ended the connection, the others are all still queued. -/
theorem no_loss_no_repeat (c : Cfg) (ops : List Op) :
    msgs (run (start c) ops).got <+: msgs (run (start c) ops).sent ∧
    ((run (start c) ops).stopped = false →
      msgs (run (start c) ops).sent = msgs (run (start c) ops).got ++ (run (start c) ops).queue) := by
  have h := inv_all c ops
  obtain ⟨l, hl⟩ := h.pre
  exact ⟨⟨l, hl.symm⟩, h.order⟩

example : msgs (run (start cfg) ops).got = [⟨false, [1]⟩] ∧
    msgs (run (start cfg) ops).sent = [⟨false, [1]⟩, ⟨true, [2]⟩, ⟨false, [3]⟩] := by decide +kernel

/-- **C110**: every empty notification that went as a pulse reaches the client once: those that have
not are pulses under way. -/
theorem pings_arrive (c : Cfg) (ops : List Op) :
    pings (run (start c) ops).sent =
      pings (run (start c) ops).got + (run (start c) ops).pulses.countP (· == .ping) :=
  (inv_all c ops).pings

example : pings (run (start cfg) ops).sent = 1 ∧ pings (run (start cfg) ops).got = 1 := by decide +kernel

/-- **C110**: what `Notify` answers.  It is told that the message is too long exactly if it is longer
than configured, and that there is no room exactly if it is not a ping and as many notifications as
configured are still unread. -/
theorem notify_answers (c : Cfg) (ops : List Op) (body : List UInt8)
    (hgo : (run (start c) ops).stopped = false) :
    ((notify (run (start c) ops) body).2 = .emsgsize ↔ c.maxNotify < body.length) ∧
    ((notify (run (start c) ops) body).2 = .enobufs ↔
      body.length ≤ c.maxNotify ∧ ¬ (body = [] ∧ (run (start c) ops).selected = true) ∧
      notes (run (start c) ops).sent = notes (run (start c) ops).got + c.queued) ∧
    (notify (run (start c) ops) body).2 ≠ .undefined ∧
    ((notify (run (start c) ops) body).2 = .ok →
      (notify (run (start c) ops) body).1.sent = (run (start c) ops).sent ++
        [if body = [] ∧ (run (start c) ops).selected = true then .ping else .msg ⟨false, body⟩]) ∧
    ((notify (run (start c) ops) body).2 ≠ .ok → (notify (run (start c) ops) body).1 = run (start c) ops) := by
  have h := inv_all c ops
  have hcfg : (run (start c) ops).cfg = c := cfg_run (start c) ops
  have hord := h.order hgo
  have hpool := h.pool
  rw [hcfg] at hpool
  have hn : notes (run (start c) ops).sent =
      notes (run (start c) ops).got + (run (start c) ops).queue.countP (! ·.reply) := by
    unfold notes; rw [hord, List.countP_append]
  generalize run (start c) ops = s at *
  unfold notify
  rw [hcfg]
  by_cases h1 : c.maxNotify < body.length
  · rw [if_pos h1]
    simp [h1]
    omega
  rw [if_neg h1]
  by_cases h2 : body = [] ∧ s.selected = true
  · rw [if_pos h2]
    simp [h2, pulse]
  rw [if_neg h2]
  by_cases h3 : s.pool = 0
  · rw [if_pos h3]
    have : body.length ≤ c.maxNotify := by omega
    simp [h2, h1, this]
    omega
  · rw [if_neg h3]
    have e : ∀ x : State, (pulse x .select).sent = x.sent := fun x => by unfold pulse; split <;> rfl
    simp [h1, h2, e]
    intro _; omega

example : (notify (run (start cfg) ops) (List.replicate 9 0)).2 = .emsgsize ∧
    (notify (run (start cfg) (ops ++ [.notify [4]])) [5]).2 = .enobufs ∧
    (notify (run (start cfg) ops) [4]).2 = .ok := by decide +kernel

/-- **C110**: what `Reply` answers to a server that replies to requests only, and once to each: that the
reply is too long exactly if it is longer than configured; otherwise it is sent. -/
theorem reply_answers (c : Cfg) (ops : List Op) (body : List UInt8) (hans : Answers c (ops ++ [.reply body])) :
    ((reply (run (start c) ops) body).2 = .emsgsize ↔ c.maxReply < body.length) ∧
    ((reply (run (start c) ops) body).2 = .ok ↔ body.length ≤ c.maxReply) ∧
    ((reply (run (start c) ops) body).2 = .ok →
      (reply (run (start c) ops) body).1.sent = (run (start c) ops).sent ++ [.msg ⟨true, body⟩]) ∧
    ((reply (run (start c) ops) body).2 ≠ .ok → (reply (run (start c) ops) body).1 = run (start c) ops) := by
  have f' := (fair_run c hans).ok
  have f := (fair_run c (answers_prefix hans)).ok
  have hcfg : (run (start c) ops).cfg = c := cfg_run (start c) ops
  rw [run_snoc] at f'
  generalize run (start c) ops = s at *
  dsimp only [step] at f'
  rw [if_neg (by simp [f])] at f'
  unfold reply at f' ⊢
  rw [hcfg] at f' ⊢
  by_cases h1 : c.maxReply < body.length
  · rw [if_pos h1]
    simp [h1]
  rw [if_neg h1] at f' ⊢
  by_cases h2 : s.queue.any (·.reply) = true
  · rw [if_pos h2] at f'; simp at f'
  · rw [if_neg h2]
    have e : ∀ x : State, (pulse x .select).sent = x.sent := fun x => by unfold pulse; split <;> rfl
    simp [h1, e]
    omega

example : Answers cfg (ops.take 6) := answers_prefix (b := ops.drop 6) answers_ops
example : ops.take 6 = ops.take 5 ++ [.reply [2]] ∧
    (reply (run (start cfg) (ops.take 5)) (List.replicate 9 0)).2 = .emsgsize := by decide +kernel

/-- **C110**: with a server that replies only to requests, and once to each, the client never ends the
connection because of a reply nobody waits for, and the list of the server is never corrupted. -/
theorem replies_are_awaited (c : Cfg) (ops : List Op) (hans : Answers c ops) :
    (run (start c) ops).stopped = false ∧ (run (start c) ops).corrupt = false ∧
    (run (start c) ops).asked = replies (run (start c) ops).got + (run (start c) ops).waiting.toNat := by
  have f := fair_run c hans
  refine ⟨f.go, f.ok, ?_⟩
  cases hw : (run (start c) ops).waiting
  · simpa using f.none hw
  · simpa using f.some hw

example : Answers cfg ops := answers_ops
example : (run (start cfg) (ops ++ [.read])).asked = 1 ∧ (run (start cfg) ops).waiting = true ∧
    (run (start cfg) (ops ++ [.read])).waiting = false := by decide +kernel

/-- **C110**: how many messages stay behind.  When the client has handled every pulse, exactly the last
`k - 1` messages the server has sent are unread, where `k` is the number of messages that were queued
when the client announced its pulses. -/
theorem left_behind (c : Cfg) (a b : List Op)
    (hnew : (run (start c) a).selected = false) (hok : (run (start c) a).corrupt = false)
    (hquiet : Quiet (run (start c) (a ++ .select :: b))) :
    (run (start c) (a ++ .select :: b)).queue.length = (run (start c) a).queue.length - 1 := by
  have h : Lag (run (start c) a).queue.length (run (start c) (a ++ .select :: b)) := by
    rw [run_append, run_cons]
    exact lag_run (lag_select c a hnew hok) b
  obtain ⟨_, h2, h3, h4⟩ := hquiet
  have hp : pend (run (start c) (a ++ .select :: b)) = 0 := by simp [pend, h3, h4, sel]
  by_cases hk : (run (start c) a).queue.length = 0
  · have := h.none h2 hk; omega
  · have := h.some h2 (by omega); omega

example : Quiet (run (start cfg) early) ∧ (run (start cfg) early).queue.length = 1 := by
  refine ⟨⟨?_, ?_, ?_, ?_⟩, ?_⟩ <;> decide +kernel

/-- **C110**: the client can always handle its pulses, and nothing is under way afterwards. -/
theorem pulses_are_handled (c : Cfg) (ops : List Op) (hans : Answers c ops)
    (hsel : (run (start c) ops).selected = true) (hchk : (run (start c) ops).checked = true) :
    Quiet (run (start c) (ops ++ handle (run (start c) ops).pulses.length)) ∧
    (run (start c) (ops ++ handle (run (start c) ops).pulses.length)).sent = (run (start c) ops).sent := by
  obtain ⟨h1, h2, h3⟩ := handled c ops hans (run (start c) ops).pulses.length
  exact ⟨⟨h1.sel.trans hsel, h1.chk.trans hchk, by rw [h2]; simp, h3⟩, h1.sent⟩

example : (run (start cfg) ops).pulses ≠ [] ∧ (run (start cfg) ops).reading = true := by decide +kernel

/-- **C110** (partial): every message the server was told it has sent reaches the client, as soon as it
has handled its pulses.  Missing: it is not so if more than one message was queued when the client
announced its pulses (`stays_behind_fails`). -/
theorem all_arrive_partial (c : Cfg) (a b : List Op) (hans : Answers c (a ++ .select :: b))
    (hnew : (run (start c) a).selected = false) (hfew : (run (start c) a).queue.length ≤ 1)
    (hchk : (run (start c) (a ++ .select :: b)).checked = true) :
    msgs (run (start c) (a ++ .select :: b ++ handle (run (start c) (a ++ .select :: b)).pulses.length)).got =
      msgs (run (start c) (a ++ .select :: b)).sent := by
  have hok := (fair_run c (answers_prefix hans)).ok
  have hl : Lag (run (start c) a).queue.length (run (start c) (a ++ .select :: b)) := by
    rw [run_append, run_cons]
    exact lag_run (lag_select c a hnew hok) b
  obtain ⟨hq, hs⟩ := pulses_are_handled c (a ++ .select :: b) hans hl.on hchk
  have e : ∀ x, a ++ .select :: b ++ x = a ++ .select :: (b ++ x) := fun x => by simp
  have h0 := left_behind c a (b ++ handle (run (start c) (a ++ .select :: b)).pulses.length) hnew hok
    (by rw [← e]; exact hq)
  rw [← e] at h0
  have hnil : (run (start c) (a ++ .select :: b ++ handle (run (start c) (a ++ .select :: b)).pulses.length)).queue = [] :=
    List.length_eq_zero_iff.1 (by omega)
  have hgo := (fair_run c (answers_silent hans _ (silent_handle (run (start c) (a ++ .select :: b)).pulses.length))).go
  have := (inv_all c _).order hgo
  rw [hnil, hs] at this
  simpa using this.symm

example : (run (start cfg) [.notify [1]]).queue.length = 1 ∧ (run (start cfg) ops).checked = true := by decide +kernel

/-- **C110** (partial): messages and empty notifications reach the client in the order in which they
were sent, and all of them once the client has handled its pulses.  Missing: it is not so if more than
one message was queued when the client announced its pulses (`ping_overtakes_fails`) or if the server
sends while it handles the announcement (`message_overtakes_fails`). -/
theorem in_order_partial (c : Cfg) (a b : List Op) (hans : Answers c (a ++ [.select, .check] ++ b))
    (hnew : (run (start c) a).selected = false) (hfew : (run (start c) a).queue.length ≤ 1) :
    (run (start c) (a ++ [.select, .check] ++ b)).got <+: (run (start c) (a ++ [.select, .check] ++ b)).sent ∧
    (Quiet (run (start c) (a ++ [.select, .check] ++ b)) →
      (run (start c) (a ++ [.select, .check] ++ b)).got = (run (start c) (a ++ [.select, .check] ++ b)).sent) := by
  have hf := fair_run c (answers_prefix (answers_prefix hans))
  have h := ord_run c _ b hans (ord_start c a hf hnew hfew)
  refine ⟨⟨_, h.seq.symm⟩, fun hq => ?_⟩
  have hs := h.seq
  generalize run (start c) (a ++ [.select, .check] ++ b) = s at *
  obtain ⟨_, _, h3, h4⟩ := hq
  rw [hs]
  simp [due, h3, h4, weave]

example : ops = [.notify [1]] ++ [.select, .check] ++ ops.drop 3 ∧
    (run (start cfg) (ops ++ [.read, .take, .read])).got =
      [.msg ⟨false, [1]⟩, .ping, .msg ⟨true, [2]⟩, .msg ⟨false, [3]⟩] := by decide +kernel

/-- **C110**, **Violated.** Two notifications are accepted before the client announces its pulses (the
server can send in its connect callback).  The announcement is answered with one pulse, the client
reads one message, and the second one is never delivered unless the server sends again. -/
theorem stays_behind_fails :
    Answers cfg early ∧ Quiet (run (start cfg) early) ∧
    msgs (run (start cfg) early).sent = [⟨false, [1]⟩, ⟨false, [2]⟩] ∧
    msgs (run (start cfg) early).got = [⟨false, [1]⟩] := by
  refine ⟨?_, ⟨?_, ?_, ?_, ?_⟩, ?_, ?_⟩
  · intro a b body e
    have : Op.reply body ∈ early := by rw [e]; simp
    simp [early] at this
  all_goals decide +kernel

/-- **C110**, **Violated.** And it never gets better: whatever is sent and read afterwards, the client
stays that many messages behind for the rest of the connection. -/
theorem behind_forever_fails (c : Cfg) (a b : List Op)
    (hnew : (run (start c) a).selected = false) (hok : (run (start c) a).corrupt = false) :
    (run (start c) a).queue.length ≤ (run (start c) (a ++ .select :: b)).queue.length + 1 := by
  have h : Lag (run (start c) a).queue.length (run (start c) (a ++ .select :: b)) := by
    rw [run_append, run_cons]
    exact lag_run (lag_select c a hnew hok) b
  cases hc : (run (start c) (a ++ .select :: b)).checked
  · have := h.early hc; omega
  · by_cases hk : 1 ≤ (run (start c) a).queue.length
    · have := h.some hc hk; omega
    · omega

example : (run (start cfg) [.notify [1], .notify [2]]).queue.length = 2 := by decide +kernel

/-- **C110**, **Violated.** A request is answered, and the client waits for the reply for ever: a
notification was queued before it when the client announced its pulses. -/
theorem reply_stays_behind_fails :
    Quiet (run (start cfg) waits) ∧ (run (start cfg) waits).waiting = true ∧
    msgs (run (start cfg) waits).sent = [⟨false, [1]⟩, ⟨true, [2]⟩] ∧
    ∀ more, Silent more → (run (start cfg) (waits ++ more)).waiting = true ∧
      replies (run (start cfg) (waits ++ more)).got = 0 := by
  refine ⟨⟨by decide +kernel, by decide +kernel, by decide +kernel, by decide +kernel⟩, by decide +kernel,
    by decide +kernel, fun more hm => ?_⟩
  have hstay : ∀ more, Silent more → run (run (start cfg) waits) more = run (start cfg) waits := by
    intro more
    induction more with
    | nil => intro _; rfl
    | cons o more ih =>
      intro hs
      rw [run_cons]
      have : step (run (start cfg) waits) o = run (start cfg) waits := by
        cases o with
        | reply b => exact absurd rfl (hs _ (by simp) b).1
        | notify b => exact absurd rfl (hs _ (by simp) b).2
        | select => decide +kernel
        | check => decide +kernel
        | take => decide +kernel
        | read => decide +kernel
        | request => decide +kernel
      rw [this]
      exact ih (fun o ho body => hs o (by simp [ho]) body)
  rw [run_append, hstay more hm]
  decide +kernel

/-- **C110**, **Violated.** When messages stayed behind, an empty notification overtakes them. -/
theorem ping_overtakes_fails :
    (run (start cfg) (early ++ [.notify [], .take, .notify [3], .take, .read])).sent =
      [.msg ⟨false, [1]⟩, .msg ⟨false, [2]⟩, .ping, .msg ⟨false, [3]⟩] ∧
    (run (start cfg) (early ++ [.notify [], .take, .notify [3], .take, .read])).got =
      [.msg ⟨false, [1]⟩, .ping, .msg ⟨false, [2]⟩] := by decide +kernel

/-- **C110**, **Violated.** The announcement is not handled under the lock: a notification that is sent
in between is announced twice, and the pulse too many makes a later message overtake an empty
notification. -/
theorem message_overtakes_fails :
    (run (start cfg) [.select, .notify [1], .check, .notify [], .notify [2], .take, .read, .take, .read, .take]).sent =
      [.msg ⟨false, [1]⟩, .ping, .msg ⟨false, [2]⟩] ∧
    (run (start cfg) [.select, .notify [1], .check, .notify [], .notify [2], .take, .read, .take, .read, .take]).got =
      [.msg ⟨false, [1]⟩, .msg ⟨false, [2]⟩, .ping] := by decide +kernel

/-- **C110**, **Violated.** The server may not rely on an error when it replies a second time: as long
as the client has not read the first reply, its bytes are overwritten and the list of messages is
corrupted. -/
theorem second_reply_fails :
    (reply (run (start cfg) [.select, .check, .request, .reply [1]]) [2]).2 = .undefined := by decide +kernel

end Verif.Props.C110
