import Verif.Proofs.ClientMain
import Verif.Proofs.ClientWire
/-!
C26 to C29: the client connection.

`T` user threads, any number of calls, any interleaving with the engine's thread, any outcome of transmissions, any stops,
losses of the connection and restarts. `CalmRun` (Spec/Client.lean) restricts executions to those in which the connection is
never torn down during a send call and the server replies only to requests; the witnesses below show what happens otherwise.
-/
namespace Verif.Client

theorem inv_run {cfg : Cfg} {T : Nat} : ∀ {ops : List Op} {s : St}, K T s → L T s → M T s → GotOk s → Adm T s → CalmRun cfg T s ops →
    K T (run cfg T s ops) ∧ L T (run cfg T s ops) ∧ M T (run cfg T s ops) ∧ GotOk (run cfg T s ops) ∧ Adm T (run cfg T s ops)
  | [], _, h1, h2, h3, h4, h5, _ => ⟨h1, h2, h3, h4, h5⟩
  | op :: ops, s, h1, h2, h3, h4, h5, hc =>
    inv_run (ops := ops) (s := step cfg T s op) (K_step h1 hc.1) (L_step h2) (M_step h1 h2 h3 hc.1) (got_step h1 h4) (Adm_step h2 h5) hc.2

theorem inv {cfg : Cfg} {T : Nat} {ops : List Op} (hc : CalmRun cfg T (init cfg) ops) :
    K T (run cfg T (init cfg) ops) ∧ L T (run cfg T (init cfg) ops) ∧ M T (run cfg T (init cfg) ops) ∧
    GotOk (run cfg T (init cfg) ops) ∧ Adm T (run cfg T (init cfg) ops) :=
  inv_run (K_init cfg T) (L_init cfg T) (M_init cfg T) (fun _ _ h => by cases h)
    ⟨List.nodup_nil, (fun _ h => by cases h), (fun _ _ _ _ h => by cases h)⟩ hc

theorem ord_run {cfg : Cfg} {T : Nat} (ho : cfg.ordered = true ∨ cfg.async = true) : ∀ {ops : List Op} {s : St}, K T s → Ord T s →
    CalmRun cfg T s ops → Ord T (run cfg T s ops)
  | [], _, _, h, _ => h
  | op :: ops, s, h1, h2, hc => ord_run ho (ops := ops) (s := step cfg T s op) (K_step h1 hc.1) (Ord_step ho h1 h2 hc.1) hc.2

/-- Accepted requests with nothing held are answered once. -/
theorem answered {T : Nat} {s : St} (hL : L T s) (hM : M T s) {r : Nat} (hp : s.kind r ≠ .plain) (ha : s.ret r = some true)
    (hh : held s r = 0) : (s.got r).length = 1 := by
  have hr : r < s.next := by
    rcases Nat.lt_or_ge r s.next with h | h
    · exact h
    · have := hL.fresh r h; rw [ha] at this; cases this
  have h1 := hM.one r hr hp
  rw [ha] at h1
  simp only [Option.some.injEq, Bool.true_eq_false, if_false] at h1
  have h2 : userH s.uth T r = 0 := by
    refine count_eq_zero.mpr (fun t ht => ?_)
    cases hu : s.uth t with
    | checked id k =>
      have := (hL.thr t ht id (by rw [hu]; rfl)).1
      simp only [isChecked]
      by_cases e : id = r
      · subst e; rw [ha] at this; cases this
      · simp [e]
    | _ => rfl
  unfold tot at h1
  omega

/-- One user thread sends a request with callback, a reply arrives; a second request is queued behind; the connection is
stopped while both wait. -/
def demo : List Op :=
  [.restart, .connect, .call 0 .cb, .enter 0 true, .call 1 .cb, .enter 1 true, .reply, .engXmit true, .engFin, .engCall,
   .call 0 .wait, .enter 0 true, .stop, .teardown false, .take, .engCall, .drain, .engCall, .drain, .wake 0]
def demoCfg : Cfg := ⟨true, false, 2⟩

end Verif.Client

namespace Verif.Props.C26
open Verif.Client

/-- A reply callback is called at most once, in every execution whatever. -/
theorem callback_at_most_once (cfg : Cfg) (T : Nat) (ops : List Op) (r : Nat) :
    ((run cfg T (init cfg) ops).got r).length ≤ 1 := by
  have := (tot_le_one cfg T ops r).1
  unfold tot at this
  omega

/-- When the connection has stopped, the callback of every accepted request has been called exactly once.
Partial: for calm executions. -/
theorem answered_when_stopped_partial (cfg : Cfg) (T : Nat) (ops : List Op) (hc : CalmRun cfg T (init cfg) ops)
    (hs : (run cfg T (init cfg) ops).conn = .stopped) (r : Nat) (hk : (run cfg T (init cfg) ops).kind r ≠ .plain)
    (ha : (run cfg T (init cfg) ops).ret r = some true) : ((run cfg T (init cfg) ops).got r).length = 1 := by
  obtain ⟨h1, h2, h3, -, -⟩ := inv hc
  refine answered h2 h3 hk ha ?_
  obtain ⟨e1, e2, -⟩ := h1.rest (.inl hs)
  have he := h1.eng
  unfold engOk at he
  rw [e1] at he
  dsimp only at he
  rw [e2] at he
  simp [held, e1, e2, he.1, engH, waitH, queueH]

/-- When the engine's thread is idle and has no asynchronous send pending, no send call is in progress and the server has
replied to every request, the callback of every accepted request has been called exactly once. Partial: for calm
executions. -/
theorem answered_when_idle_partial (cfg : Cfg) (T : Nat) (ops : List Op) (hc : CalmRun cfg T (init cfg) ops)
    (he : (run cfg T (init cfg) ops).eng = .idle) (ha : (run cfg T (init cfg) ops).armed = false)
    (hq : AllQuiet (run cfg T (init cfg) ops).uth T) (ho : (run cfg T (init cfg) ops).out = [])
    (r : Nat) (hk : (run cfg T (init cfg) ops).kind r ≠ .plain) (hr : (run cfg T (init cfg) ops).ret r = some true) :
    ((run cfg T (init cfg) ops).got r).length = 1 := by
  obtain ⟨h1, h2, h3, -, -⟩ := inv hc
  refine answered h2 h3 hk hr ?_
  generalize run cfg T (init cfg) ops = s at *
  have h := h1.eng
  unfold engOk at h
  rw [he] at h
  dsimp only at h
  have hn := quiet_NF hq
  cases hw : s.waiting with
  | none => rw [hw] at h; simp [held, he, hw, h.1, engH, waitH, queueH]
  | some c =>
    rw [hw] at h
    cases c with
    | none => rw [ha] at h; exact absurd h.2.1 (by simp)
    | some q =>
      rcases h.2 with ⟨h4, -⟩ | ⟨-, t, ht, h5, -⟩
      · rw [ho] at h4; cases h4
      · rw [hn t ht q] at h5; cases h5

/-- If the call returned an error, the callback is not called. Partial: for calm executions. -/
theorem no_callback_after_error_partial (cfg : Cfg) (T : Nat) (ops : List Op) (hc : CalmRun cfg T (init cfg) ops) (r : Nat)
    (hk : (run cfg T (init cfg) ops).kind r ≠ .plain) (ha : (run cfg T (init cfg) ops).ret r = some false) :
    (run cfg T (init cfg) ops).got r = [] := by
  obtain ⟨h1, h2, h3, -, -⟩ := inv hc
  generalize run cfg T (init cfg) ops = s at *
  have hr : r < s.next := by
    rcases Nat.lt_or_ge r s.next with h | h
    · exact h
    · have := h2.fresh r h; rw [ha] at this; cases this
  have := h3.one r hr hk
  rw [ha] at this
  simp only [if_true] at this
  unfold tot at this
  exact List.eq_nil_of_length_eq_zero (by omega)

/-- Calm executions never reach undefined behaviour (calling an empty callback, queueing a command twice). -/
theorem no_undefined_behaviour_partial (cfg : Cfg) (T : Nat) (ops : List Op) (hc : CalmRun cfg T (init cfg) ops) :
    (run cfg T (init cfg) ops).dead = false := (inv hc).1.alive

/-- The demonstration is calm; afterwards the connection is stopped, three requests were accepted, the first got its reply and
the others an error. -/
example : CalmRun demoCfg 2 (init demoCfg) demo ∧ (run demoCfg 2 (init demoCfg) demo).conn = .stopped ∧
    (run demoCfg 2 (init demoCfg) demo).ret 0 = some true ∧ (run demoCfg 2 (init demoCfg) demo).got 0 = [.reply 0] ∧
    (run demoCfg 2 (init demoCfg) demo).ret 1 = some true ∧ (run demoCfg 2 (init demoCfg) demo).got 1 = [.err] ∧
    (run demoCfg 2 (init demoCfg) demo).ret 2 = some true ∧ (run demoCfg 2 (init demoCfg) demo).got 2 = [.err] ∧
    (run demoCfg 2 (init demoCfg) demo).kind 2 = .wait :=
  ⟨calmRun_of_calmRunB (by decide +kernel), by decide +kernel, by decide +kernel, by decide +kernel, by decide +kernel,
   by decide +kernel, by decide +kernel, by decide +kernel, by decide +kernel⟩
/-- An idle moment in the middle: the first reply was delivered. -/
example : (run demoCfg 2 (init demoCfg) (demo.take 4 ++ [.reply, .engCall])).eng = .idle ∧
    (run demoCfg 2 (init demoCfg) (demo.take 4 ++ [.reply, .engCall])).out = [] ∧
    (run demoCfg 2 (init demoCfg) (demo.take 4 ++ [.reply, .engCall])).got 0 = [.reply 0] ∧
    (run demoCfg 2 (init demoCfg) (demo.take 4 ++ [.reply, .engCall])).ret 0 = some true := by decide +kernel
/-- A rejected request: capacity 0. -/
example : (run ⟨true, true, 0⟩ 1 (init ⟨true, true, 0⟩) [.restart, .connect, .call 0 .cb, .enter 0 true]).ret 0 = some false := by
  decide +kernel

/-- Finding: SendWaitReply can return an error and its callback, which refers to its stack frame, is called afterwards: the
engine takes the callback while stopping, the transmission on the closed connection fails, the call returns, and then the
engine calls the callback. -/
theorem callback_after_return : ∃ ops r,
    (run ⟨true, false, 1⟩ 1 (init ⟨true, false, 1⟩) ops).ret r = some false ∧
    (run ⟨true, false, 1⟩ 1 (init ⟨true, false, 1⟩) ops).uth 0 = .idle ∧
    (run ⟨true, false, 1⟩ 1 (init ⟨true, false, 1⟩) ops).got r = [] ∧
    (run ⟨true, false, 1⟩ 1 (init ⟨true, false, 1⟩) (ops ++ [.engCall])).got r = [.err] :=
  ⟨[.restart, .connect, .call 0 .wait, .enter 0 true, .stop, .teardown false, .take, .xmit 0 true, .relock 0], 0,
   by decide +kernel⟩

/-- Finding: an unsolicited reply while a message waits for the asynchronous send command makes the client call an empty
callback. -/
theorem unsolicited_reply_calls_empty_callback :
    (run ⟨true, true, 1⟩ 1 (init ⟨true, true, 1⟩)
      [.restart, .connect, .call 0 .plain, .enter 0 true, .bogusReply, .engXmit true, .engFin, .engCall]).dead = true := by
  decide +kernel

/-- Finding: two send calls that pass the state check before a stop and go on during it queue the same command twice. -/
theorem stop_during_sends_queues_command_twice :
    (run ⟨true, true, 2⟩ 2 (init ⟨true, true, 2⟩)
      [.restart, .connect, .call 0 .plain, .call 1 .plain, .stop, .teardown false, .enter 0 true, .take, .enter 1 true]).dead = true := by
  decide +kernel

/-- Finding: if the transmission of a SendWaitReply fails while another message is queued, the debug assertion of
ArmSendQueueUnderLock (client_connection.cpp:511) fails, although everything is used as documented. -/
theorem failed_transmission_violates_debug_assertion : ∃ ops, CalmRun ⟨true, false, 1⟩ 2 (init ⟨true, false, 1⟩) ops ∧
    (run ⟨true, false, 1⟩ 2 (init ⟨true, false, 1⟩) ops).dbg = true :=
  ⟨[.restart, .connect, .call 0 .wait, .enter 0 true, .call 1 .cb, .enter 1 true, .xmit 0 false, .relock 0],
   calmRun_of_calmRunB (by decide +kernel), by decide +kernel⟩

/-- The executions of the next finding: a send call passes the state check before a stop and queues its message while the
queue is being emptied; the connection is restarted; another request is accepted. -/
def stuckOps : List Op :=
  [.restart, .connect, .call 0 .plain, .stop, .teardown false, .take, .enter 0 true, .drain, .drain, .async, .restart, .connect,
   .call 0 .cb, .enter 0 true]

/-- Finding: then the connection is ready, the request was accepted and is queued, nothing is on the wire, no send command
is pending, and no step of the engine other than tearing the connection down changes anything: its callback is never called
unless the connection is stopped. -/
theorem stop_during_send_blocks_connection_forever :
    let s := run ⟨true, true, 3⟩ 1 (init ⟨true, true, 3⟩) stuckOps
    s.dead = false ∧ s.conn = .ready ∧ s.ret 1 = some true ∧ s.got 1 = [] ∧ s.queue = [⟨1, true⟩] ∧ s.wire = [] ∧ s.eng = .idle ∧
    s.armed = false ∧ s.out = [] ∧ s.waiting = some none := by decide +kernel

end Verif.Props.C26

namespace Verif.Props.C27
open Verif.Client

/-- In fully ordered (or truly asynchronous) mode the messages on the wire of a connection are in the order in which their
calls were admitted (`order` contains each call once). Partial: for calm executions. -/
theorem wire_in_order_partial (cfg : Cfg) (T : Nat) (ops : List Op) (hc : CalmRun cfg T (init cfg) ops)
    (ho : cfg.ordered = true ∨ cfg.async = true) :
    (run cfg T (init cfg) ops).wire.Sublist (run cfg T (init cfg) ops).order ∧ (run cfg T (init cfg) ops).order.Nodup := by
  refine ⟨?_, (inv hc).2.2.2.2.nodup⟩
  have := ord_run (T := T) ho (K_init cfg T) (s := init cfg) ⟨by simp [init, ids], by simp [init], by simp [init]⟩ hc
  exact (List.sublist_append_left _ _).trans this.base

/-- Nothing is lost: if since the connect no transmission failed and the connection was not torn down, then once nothing is
going on any more (no call is running, no request is unanswered, the engine is idle), exactly the messages of all admitted
calls have been transmitted, in order. Partial: for calm executions. -/
theorem all_transmitted_partial (cfg : Cfg) (T : Nat) (pre post : List Op)
    (hc : CalmRun cfg T (init cfg) (pre ++ .connect :: post)) (ho : cfg.ordered = true ∨ cfg.async = true)
    (hs : (run cfg T (init cfg) pre).conn = .starting) (hp : ∀ op ∈ post, Smooth op)
    (he : (run cfg T (init cfg) (pre ++ .connect :: post)).eng = .idle)
    (ha : (run cfg T (init cfg) (pre ++ .connect :: post)).armed = false)
    (hq : AllQuiet (run cfg T (init cfg) (pre ++ .connect :: post)).uth T)
    (hout : (run cfg T (init cfg) (pre ++ .connect :: post)).out = []) :
    (run cfg T (init cfg) (pre ++ .connect :: post)).wire = (run cfg T (init cfg) (pre ++ .connect :: post)).order := by
  obtain ⟨hsub, hnd⟩ := wire_in_order_partial cfg T _ hc ho
  have hK := (inv hc).1
  have hkept : Kept T (run cfg T (init cfg) (pre ++ .connect :: post)) := by
    have hpre := (inv (calmRun_prefix hc)).1
    rw [show run cfg T (init cfg) (pre ++ .connect :: post) = run cfg T (step cfg T (run cfg T (init cfg) pre) .connect) post by
      simp [run]]
    generalize run cfg T (init cfg) pre = s at *
    refine Kept.run ?_ hp
    have e := (hpre.rest (.inr hs)).1
    unfold step
    rw [if_neg (by simp [hpre.alive])]
    dsimp only
    rw [if_pos hs]
    exact ⟨rfl, by simp, by simp [e], by simp⟩
  generalize run cfg T (init cfg) (pre ++ .connect :: post) = s at *
  have h := hK.eng
  unfold engOk at h
  rw [he] at h
  dsimp only at h
  have hn := quiet_NF hq
  have hall : ∀ id ∈ s.order, id ∈ s.wire ∨ id ∈ ids s.queue := by
    intro id hid
    rcases hkept.all id hid with a | a | ⟨m, c, a, -⟩ | ⟨t, ht, a⟩
    · exact .inl a
    · exact .inr a
    · rw [he] at a; cases a
    · exact (NF_sending hn ht a).elim
  have hqe : s.queue = [] := by
    cases hw : s.waiting with
    | none => rw [hw] at h; exact h.1
    | some c =>
      rw [hw] at h
      cases c with
      | none => rw [ha] at h; exact absurd h.2.1 (by simp)
      | some q =>
        rcases h.2 with ⟨h4, -⟩ | ⟨-, t, ht, h5, -⟩
        · rw [hout] at h4; cases h4
        · rw [hn t ht q] at h5; cases h5
  have hsubset : ∀ id ∈ s.order, id ∈ s.wire := by
    intro id hid
    rcases hall id hid with a | a
    · exact a
    · rw [hqe] at a; simp [ids] at a
  have hle : s.order.length ≤ s.wire.length := nodup_length_le hnd hsubset
  exact hsub.eq_of_length_le hle

/-- A call is admitted (appended to `order`) at the moment its message is queued, or the call takes the turn to transmit
directly: the step in which it leaves the state "checked" successfully; no other step changes the order, except that a new
connection starts with an empty one. -/
theorem order_is_order_of_admission (cfg : Cfg) (T : Nat) (s : St) (op : Op) :
    (step cfg T s op).order = s.order ∨ (step cfg T s op).order = [] ∨
    ∃ t < T, ∃ id k, s.uth t = .checked id k ∧ (step cfg T s op).order = s.order ++ [id] := by
  rcases step_order cfg T s op with (h | h) | ⟨t, ht, id, k, hu, h, -⟩
  · exact .inl h
  · exact .inr (.inl h)
  · exact .inr (.inr ⟨t, ht, id, k, hu, h⟩)

/-- A message sent while another waits in the queue is queued behind it and reaches the wire after it. -/
def orderedOps : List Op :=
  [.restart, .connect, .call 0 .cb, .enter 0 true, .call 0 .cb, .enter 0 true, .call 0 .plain, .enter 0 true, .reply, .engXmit true,
   .engFin, .engCall, .reply, .engXmit true, .engFin, .engCall]
example : CalmRun demoCfg 1 (init demoCfg) orderedOps ∧ (run demoCfg 1 (init demoCfg) orderedOps).wire = [0, 1, 2] ∧
    (run demoCfg 1 (init demoCfg) orderedOps).order = [0, 1, 2] :=
  ⟨calmRun_of_calmRunB (by decide +kernel), by decide +kernel, by decide +kernel⟩
/-- The hypotheses of `all_transmitted_partial` hold for this execution. -/
example : orderedOps = [.restart] ++ .connect :: orderedOps.drop 2 ∧ (run demoCfg 1 (init demoCfg) [.restart]).conn = .starting ∧
    (∀ op ∈ orderedOps.drop 2, Smooth op) ∧ (run demoCfg 1 (init demoCfg) orderedOps).eng = .idle ∧
    (run demoCfg 1 (init demoCfg) orderedOps).armed = false ∧ (run demoCfg 1 (init demoCfg) orderedOps).out = [] ∧
    (run demoCfg 1 (init demoCfg) orderedOps).uth 0 = .idle := by
  refine ⟨rfl, by decide +kernel, ?_, by decide +kernel, by decide +kernel, by decide +kernel, by decide +kernel⟩
  simp [orderedOps, Smooth]
/-- Without the ordered mode it overtakes the queued one. -/
example : (run ⟨false, false, 2⟩ 1 (init ⟨false, false, 2⟩) orderedOps).wire = [0, 2, 1] := by decide +kernel

end Verif.Props.C27

namespace Verif.Props.C28
open Verif.Client

/-- At most one request on the wire is without reply. Partial: for calm executions. -/
theorem one_outstanding_request_partial (cfg : Cfg) (T : Nat) (ops : List Op) (hc : CalmRun cfg T (init cfg) ops) :
    (run cfg T (init cfg) ops).out.length ≤ 1 := by
  have h := (inv hc).1.eng
  generalize run cfg T (init cfg) ops = s at *
  have w : waitOk s.waiting s.queue s.armed s.out s.uth T → s.out.length ≤ 1 := by
    intro h
    unfold waitOk at h
    split at h
    · rw [h.2.2.1]; simp
    · rw [h.2.2.1]; simp
    · rcases h.2 with ⟨e, -⟩ | ⟨e, -⟩ <;> rw [e] <;> simp
  unfold engOk at h
  cases he : s.eng <;> rw [he] at h <;> dsimp only at h
  · exact w h
  · rw [h.2.2.2.1]; simp
  · rw [h.2.2.2.1]; split <;> simp
  · rw [h.2.2.2.1]; simp
  · rw [h.2.2.2.1]; simp
  · exact w h.2
  · rw [h.2.1]; simp
  · rw [h.2.1]; simp
  · rw [h.2.1]; simp

/-- A reply is delivered to the callback of the request it answers. Partial: for calm executions. -/
theorem reply_to_its_request_partial (cfg : Cfg) (T : Nat) (ops : List Op) (hc : CalmRun cfg T (init cfg) ops) (r q : Nat)
    (h : Res.reply q ∈ (run cfg T (init cfg) ops).got r) : q = r := by
  rcases (inv hc).2.2.2.1 r _ h with e | e
  · cases e
  · injection e

example : (run demoCfg 2 (init demoCfg) (demo.take 9)).out = [1] ∧ (run demoCfg 2 (init demoCfg) demo).got 0 = [.reply 0] := by
  decide +kernel

/-- Finding: if the connection is stopped and restarted while a SendWaitReply is about to transmit, its request goes out on the
new connection although another request is outstanding there, and the other request's callback gets its reply. -/
theorem restart_during_send_misdelivers : ∃ ops : List Op,
    (run ⟨true, false, 1⟩ 2 (init ⟨true, false, 1⟩) ops).got 1 = [.reply 0] ∧
    (run ⟨true, false, 1⟩ 2 (init ⟨true, false, 1⟩) (ops.take 15)).out = [0, 1] :=
  ⟨[.restart, .connect, .call 0 .wait, .enter 0 true, .stop, .teardown false, .take, .engCall, .drain, .restart, .connect,
    .call 1 .cb, .xmit 0 true, .enter 1 true, .wake 1, .reply, .engCall], by decide +kernel⟩

end Verif.Props.C28

namespace Verif.Props.C29
open Verif.Client

/-- Free entries, queued messages, the message being transmitted by the engine, and the messages that were in the queue
when a connection was torn down add up to the configured capacity, in every execution. -/
theorem entries_accounted (cfg : Cfg) (T : Nat) (ops : List Op) :
    (run cfg T (init cfg) ops).pool + (run cfg T (init cfg) ops).queue.length + busy (run cfg T (init cfg) ops).eng +
    (run cfg T (init cfg) ops).leaked = cfg.cap :=
  Cap_run (ops := ops) (s := init cfg) (by simp [Cap, init, busy])

/-- As long as no connection is torn down, an asynchronous send is rejected exactly if the configured number of messages is
queued or being transmitted from the queue. Partial: without tear-down (see `capacity_lost`). -/
theorem rejected_iff_full_partial (cfg : Cfg) (T : Nat) (ops : List Op) (hd : .drain ∉ ops) (ha : cfg.async = true)
    (t id : Nat) (ht : t < T) (k : Kind) (hk : k ≠ .wait) (ok : Bool)
    (hu : (run cfg T (init cfg) ops).uth t = .checked id k) (halive : (run cfg T (init cfg) ops).dead = false) :
    ((run cfg T (init cfg) (ops ++ [.enter t ok])).ret id = some false ↔
      (run cfg T (init cfg) ops).queue.length + busy (run cfg T (init cfg) ops).eng = cfg.cap) := by
  have h1 := entries_accounted cfg T ops
  have h2 : (run cfg T (init cfg) ops).leaked = 0 := run_leaked hd
  rw [run_snoc]
  generalize run cfg T (init cfg) ops = s at *
  have key : ∀ req, tryQueue s id req = none ↔ s.pool = 0 := by
    intro req; unfold tryQueue; split <;> simp_all
  have key2 : ∀ req s', tryQueue s id req = some s' → s.pool ≠ 0 := by
    intro req s' h; obtain ⟨h, -⟩ := tryQueue_eq h; omega
  unfold step
  rw [if_neg (by simp [halive])]
  dsimp only
  rw [if_pos ht, hu]
  cases k with
  | wait => exact (hk rfl).elim
  | plain =>
    dsimp only
    unfold enterPlain
    rw [if_neg (by simp [ha])]
    simp only [ha, if_true]
    split
    · split
      · rename_i h; have := (key _).mp h; simp [ret]; omega
      · rename_i h; have := key2 _ _ h; simp [ret]; omega
    · split
      · rename_i h; have := (key _).mp h; simp [ret]; omega
      · rename_i h; have := key2 _ _ h; simp [ret]; omega
  | cb =>
    dsimp only
    unfold enterCb
    simp only [ha, if_true]
    split
    · split
      · rename_i h; have := (key _).mp h; simp [ret]; omega
      · rename_i h; have := key2 _ _ h; simp [ret]; omega
    · split
      · rename_i h; have := (key _).mp h; simp [ret]; omega
      · rename_i h; have := key2 _ _ h; simp [ret]; omega

/-- Both cases occur. -/
example : (run ⟨true, true, 1⟩ 1 (init ⟨true, true, 1⟩) [.restart, .connect, .call 0 .cb, .enter 0 true]).ret 0 = some true ∧
    (run ⟨true, true, 1⟩ 1 (init ⟨true, true, 1⟩)
      [.restart, .connect, .call 0 .cb, .enter 0 true, .call 0 .cb, .enter 0 true]).ret 1 = some false := by decide +kernel

/-- Finding: a message that is still queued when the connection stops takes its entry with it: after a stop and a restart of a
connection with capacity one, nothing is queued and yet every asynchronous send is rejected. -/
theorem capacity_lost : ∃ ops, CalmRun ⟨true, true, 1⟩ 1 (init ⟨true, true, 1⟩) ops ∧
    (run ⟨true, true, 1⟩ 1 (init ⟨true, true, 1⟩) ops).conn = .ready ∧
    (run ⟨true, true, 1⟩ 1 (init ⟨true, true, 1⟩) ops).queue = [] ∧ (run ⟨true, true, 1⟩ 1 (init ⟨true, true, 1⟩) ops).eng = .idle ∧
    (run ⟨true, true, 1⟩ 1 (init ⟨true, true, 1⟩) ops).ret 1 = some false :=
  ⟨[.restart, .connect, .call 0 .cb, .enter 0 true, .stop, .teardown false, .take, .drain, .engCall, .drain, .restart, .connect,
    .call 0 .cb, .enter 0 true], calmRun_of_calmRunB (by decide +kernel), by decide +kernel, by decide +kernel, by decide +kernel,
    by decide +kernel⟩

end Verif.Props.C29
