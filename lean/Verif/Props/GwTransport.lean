import Verif.Proofs.GwTransport
/-! C40, C41, C42: requests and acknowledgements between gateways.  Logs are newest first. -/
namespace Verif.Props.C40
open Verif.GwTransport

/-- In every execution: when a request is reported as successful, an acknowledgement with its number arrived and was
accepted after this request was registered, and the thread has not started another request since. -/
theorem own_acknowledgement (ops : List Op) (t : Nat) (q : UInt32) (l1 l2 : List Ev)
    (h : (run init ops).log = l1 ++ .succeeded t q :: l2) :
    ∃ l3 l4, l2 = l3 ++ .registered t q :: l4 ∧ (∀ q', .registered t q' ∉ l3) ∧ .acked q ∈ l3 := by
  have hl := (run_inv init_inv ops).legal
  rw [h] at hl
  have := legal_append hl
  simp only [Legal] at this
  obtain ⟨h1, h2, h3⟩ := this
  obtain ⟨l3, l4, rfl, h4⟩ := lastReg_split h1
  exact ⟨l3, l4, rfl, h4, ackedOwn_split h2⟩

/-- An acknowledgement changes nothing for requests with another number and nothing for the threads; one whose number is
not pending changes nothing at all but leaves the network. -/
theorem others_unaffected (s : St) (i : Nat) (q : UInt32) (h : s.acks[i]? = some q) :
    (∀ q', q' ≠ q → (step s (.ackArrives i)).pending q' = s.pending q') ∧
    (∀ t, (step s (.ackArrives i)).pc t = s.pc t) ∧
    (s.pending q = none → (step s (.ackArrives i)).pending = s.pending ∧ (step s (.ackArrives i)).log = s.log) := by
  simp only [step, h, acknowledge]
  refine ⟨?_, ?_, ?_⟩
  · intro q' hq
    split
    · rfl
    · exact updP_ne _ _ hq
  · intro t; split <;> rfl
  · intro hp; simp only [hp]; exact ⟨trivial, trivial⟩

/-- Numbers identify requests for the first 2^32 requests: no two of them get the same. -/
theorem numbers_are_unique (ops : List Op) (h : (run init ops).started ≤ 2 ^ 32) (l1 l2 : List Ev) (t t' : Nat)
    (q q' : UInt32) (hl : (run init ops).log = l1 ++ .registered t q :: l2) (h' : .registered t' q' ∈ l2) : q' ≠ q := by
  have hi := run_inv init_inv ops
  have hn := numbers_nodup _ h
  rw [← hi.nums, hl, regs_append] at hn
  simp only [regs] at hn
  rintro rfl
  exact (List.nodup_cons.mp (List.nodup_append.mp hn).2.1).1 (mem_regs h')

/-- Two requests run side by side; the acknowledgement of the second one does not complete the first. -/
def demo : List Op :=
  [.setConnected true, .start 0, .start 1, .step 0 true, .step 1 true, .step 0 true, .step 1 true,
   .deliver 1 true, .ackArrives 0, .step 0 false, .step 1 false, .step 1 false]
example : (run init demo).log =
    [.succeeded 1 2, .acked 2, .received 2, .transmitted 1 2, .transmitted 0 1, .registered 1 2, .registered 0 1] := by
  decide +kernel
example : (run init demo).started ≤ 2 ^ 32 ∧ (run init demo).pc 0 = .wait 1 0 := by decide +kernel
example : (run init (demo.take 8)).acks[0]? = some 2 := by decide +kernel

end Verif.Props.C40

namespace Verif.Props.C41
open Verif.GwTransport

/-- In every execution and for every request (number `q`, thread `t`; `l3` is everything between the registration of the
request and any later moment up to the next request of this thread): it is sent at most five times, counting attempts that
fail, and always with its own number. -/
theorem at_most_five_times (ops : List Op) (t : Nat) (q : UInt32) (l1 l3 l4 : List Ev)
    (h : (run init ops).log = l1 ++ l3 ++ .registered t q :: l4) (hr : ∀ q', .registered t q' ∉ l3) :
    (l3.filter (isTry t)).length ≤ 5 ∧ ∀ e ∈ l3, isTry t e → e = .transmitted t q ∨ e = .sendFailed t q := by
  have hl := (run_inv init_inv ops).legal
  rw [h, List.append_assoc] at hl
  have := legal_tries (legal_append hl) hr
  exact ⟨this.2.2.1, this.2.2.2⟩

/-- In every execution with at most 2^32 requests: a request that is reported as successful was transmitted, then received
by the peer, then acknowledged, all after it was registered. -/
theorem success_means_delivered (ops : List Op) (hs : (run init ops).started ≤ 2 ^ 32) (t : Nat) (q : UInt32)
    (l1 l2 : List Ev) (h : (run init ops).log = l1 ++ .succeeded t q :: l2) :
    ∃ a b c d, l2 = a ++ .acked q :: b ++ .received q :: c ++ .transmitted t q :: d ∧ .registered t q ∈ d := by
  have hi := run_inv init_inv ops
  have hl := hi.legal
  have hn := numbers_nodup _ hs
  rw [← hi.nums, h, regs_append] at hn
  simp only [regs] at hn
  rw [h] at hl
  exact legal_success (legal_append hl) (List.nodup_append.mp hn).2.1

/-- Without a bound on the number of requests: success still implies that a request with this number was received. -/
theorem success_means_received (ops : List Op) (t : Nat) (q : UInt32) (l1 l2 : List Ev)
    (h : (run init ops).log = l1 ++ .succeeded t q :: l2) : .received q ∈ l2 := by
  obtain ⟨l3, l4, rfl, _, h4⟩ := C40.own_acknowledgement ops t q l1 l2 h
  have hl := (run_inv init_inv ops).legal
  obtain ⟨a, b, rfl⟩ := List.append_of_mem h4
  have e : (run init ops).log = (l1 ++ .succeeded t q :: a) ++ (.acked q :: (b ++ .registered t q :: l4)) := by rw [h]; simp
  rw [e] at hl
  have hm := (legal_append hl).1
  simp only [List.append_assoc, List.cons_append, List.mem_append, List.mem_cons] at hm ⊢
  exact Or.inr (Or.inr hm)

/-- The first two transmissions are lost or not acknowledged in time, sending fails once. -/
def demo : List Op :=
  [.setConnected true, .start 0, .step 0 true, .step 0 true, .loseRequest 0, .step 0 true, .step 0 true, .step 0 true,
   .step 0 true, .step 0 false, .step 0 true, .step 0 true, .step 0 true, .step 0 true, .deliver 0 true, .ackArrives 0,
   .step 0 false, .step 0 false]
example : (run init demo).log = [.succeeded 0 1, .acked 1, .received 1, .transmitted 0 1, .sendFailed 0 1, .transmitted 0 1,
    .registered 0 1] := by decide +kernel
example : (run init demo).started ≤ 2 ^ 32 := by decide +kernel

/-- All five attempts are used up. -/
def hopeless : List Op :=
  [.setConnected true, .start 0] ++ (List.replicate 25 (.step 0 true))
example : (run init hopeless).pc 0 = .idle ∧ ((run init hopeless).log.filter (isTry 0)).length = 5 ∧
    (run init hopeless).log.head? = some (.failed 0 1) := by decide +kernel

/-- Findings.  A successful request may have been received twice (the receiver does not recognise the repetition), and a
request that is reported as failed may have been received. -/
theorem received_twice : ∃ ops l, (run init ops).log = .succeeded 0 1 :: l ∧ l.count (.received 1) = 2 :=
  ⟨[.setConnected true, .start 0, .step 0 true, .step 0 true, .deliver 0 false, .step 0 true, .step 0 true, .step 0 true,
    .step 0 true, .step 0 true, .deliver 0 true, .ackArrives 0, .step 0 false, .step 0 false], _, rfl, by decide +kernel⟩

theorem failed_but_received : ∃ ops l, (run init ops).log = .failed 0 1 :: l ∧ .received 1 ∈ l :=
  ⟨[.setConnected true, .start 0, .step 0 true, .step 0 true, .deliver 0 true, .setConnected false, .step 0 true,
    .step 0 true, .step 0 true], _, rfl, by decide +kernel⟩

end Verif.Props.C41

namespace Verif.Props.C42
open Verif.GwReceiver

/-- In every execution the messages handled so far, and after them the queued ones, are in the order of arrival (`id` is the
number of arrivals before), and none of them is a response. -/
theorem in_arrival_order (ops : List Op) :
    List.Pairwise (fun a b => a.id < b.id) (handled (run init ops).log) ∧
    List.Pairwise (fun a b => a.id < b.id) (handled (run init ops).log ++ (run init ops).queue) ∧
    ∀ m ∈ handled (run init ops).log, m.kind ≠ .response := by
  have h := run_inv init_inv ops
  exact ⟨(List.pairwise_append.mp h.sorted).1, h.sorted, fun m hm => (h.below m (List.mem_append_left _ hm)).2⟩

/-- Every request that is handled was acknowledged before. -/
theorem acknowledged_first (ops : List Op) (m : Msg) (l1 l2 : List Ev) (hk : m.kind = .request)
    (h : (run init ops).log = l1 ++ .handled m :: l2) : .acked m.id ∈ l2 := by
  have hl := (run_inv init_inv ops).ackedFirst
  rw [h] at hl
  clear h
  induction l1 with
  | nil => exact hl.1 hk
  | cons e l ih => cases e <;> simp only [List.cons_append, AckedFirst] at hl <;> first | exact ih hl | exact ih hl.2

/-- No acknowledged request gets lost while the connection runs: it is handled or still queued. -/
theorem acknowledged_is_kept (ops : List Op) (i : Nat) (h : .acked i ∈ (run init ops).log) :
    ∃ m ∈ handled (run init ops).log ++ (run init ops).queue, m.id = i ∧ m.kind = .request :=
  (run_inv init_inv ops).kept i h

/-- The oldest queued message is handled by the next iteration of the dispatch loop. -/
theorem next_is_oldest (s : St) (m : Msg) (q : List Msg) (hq : s.queue = m :: q) (hs : s.stopped = false) :
    (step s .dispatch).queue = q ∧ (step s .dispatch).log = .handled m :: s.log := by
  simp [step, dispatch, hs, hq]

def demo : List Op :=
  [.arrive .request true, .setHandler, .arrive .request true, .arrive .response true, .arrive .notification false,
   .arrive .request false, .dispatch, .arrive .request true, .dispatch, .dispatch]
example : handled (run init demo).log = [⟨1, .request⟩, ⟨3, .notification⟩, ⟨5, .request⟩] ∧
    (run init demo).log = [.handled ⟨5, .request⟩, .handled ⟨3, .notification⟩, .acked 5, .handled ⟨1, .request⟩, .acked 1] := by
  decide +kernel

/-- Finding: a request that was acknowledged, so that its sender reports success, is dropped when the transport shuts down
before its turn: no continuation handles it. -/
theorem acknowledged_but_dropped :
    ∃ ops, .acked 0 ∈ (run init ops).log ∧ ∀ k, .handled ⟨0, .request⟩ ∉ (run init (ops ++ List.replicate k .dispatch)).log := by
  refine ⟨[.setHandler, .arrive .request true, .shutdown], by decide +kernel, ?_⟩
  intro k
  have hs : ∀ k (s : St), s.stopped = true → run s (List.replicate k .dispatch) = s := by
    intro k
    induction k with
    | zero => intro s _; rfl
    | succ k ih =>
      intro s h
      have : step s .dispatch = s := by simp [step, dispatch, h]
      show run (step s .dispatch) (List.replicate k .dispatch) = s
      rw [this]; exact ih s h
  have : run init ([.setHandler, .arrive .request true, .shutdown] ++ List.replicate k .dispatch) =
      run (run init [.setHandler, .arrive .request true, .shutdown]) (List.replicate k .dispatch) := by
    simp only [run, List.foldl_append]
  rw [this, hs k _ (by decide)]
  decide

end Verif.Props.C42
