import Verif.Proofs.EventCtrlProps
/-!
C02, C03, C04, C11, C12, C15, C16 - event slots shared by a provider and its consumers.

Every theorem ranges over every schedule `ops` of provider and consumer steps, crashes and
restarts, for any number `n` of slots and any number `m` of consumers below `2^32 - 1` (the reference count of
a slot has 32 bits, each consumer takes at most one reference on a slot).
-/
namespace Verif.Props.Ctrl
open Verif Verif.Slot Verif.Ctrl

variable {V : Type}

/-- A schedule used to show that the hypotheses below can be met: the provider sends the value 42
in slot 0, then consumer 0 receives it. -/
def demo : List (Op Nat) :=
  [.provAlloc, .provStep, .provStep, .provWrite 0 42, .provSend 0, .consGet 0 2] ++
  List.replicate 14 (.consStep 0 false)

/-- Then the provider allocates the next slot. -/
def demo2 : List (Op Nat) := demo ++ [.provAlloc, .provStep, .provStep, .provStep]

end Verif.Props.Ctrl

namespace Verif.Props.C02
open Verif Verif.Slot Verif.Ctrl Verif.Props.Ctrl
variable {V : Type}

/-- C02: while the provider owns a slot (from Allocate until Send or Discard), no consumer holds a
sample in it. -/
theorem no_reader {n m : Nat} {v0 : V} {s : St V} (hm : m < 2 ^ 32 - 1) (hr : Reachable n m v0 s)
    {i : Nat} (ha : s.alloc i = true) : ∀ c, c < m → (s.cons c).held i = false := by
  obtain ⟨h, _, hmm⟩ := hr.inv hm
  intro c hc
  cases hx : (s.cons c).held i with
  | false => rfl
  | true =>
    have hc' : c < s.m := by omega
    have h1 := refs_pos hc' (held_cnt (h.cons c hc') hx)
    rcases h.rc i with h2 | h2
    · omega
    · exact absurd ((h.alloc i).mp ha) h2.1

example : (run (init 2 1 0) demo2).alloc 1 = true ∧ ((run (init 2 1 0) demo2).cons 0).held 0 = true := by
  decide +kernel

/-- C02: the slot returned by Allocate was not owned by the provider already, exists, and is not
held by any consumer at the moment Allocate takes it. -/
theorem allocate_result {n m : Nat} {v0 : V} {s : St V} (hm : m < 2 ^ 32 - 1) (hr : Reachable n m v0 s)
    {i : Nat} (hbefore : s.alloc i = false) (hafter : (step s .provStep).alloc i = true) :
    i < n ∧ (∀ c, c < m → (s.cons c).held i = false) ∧
    (∀ j, j ≠ i → (step s .provStep).alloc j = s.alloc j) := by
  obtain ⟨h, hn, hmm⟩ := hr.inv hm
  have hr' : Reachable n m v0 (step s .provStep) := by
    obtain ⟨ops, rfl⟩ := hr
    exact ⟨ops ++ [.provStep], by rw [run_append]; rfl⟩
  refine ⟨?_, ?_, ?_⟩
  · have := (step_inv h .provStep).allocLt i hafter
    have h2 := (step_nm s .provStep).1
    omega
  · have := no_reader hm hr' hafter
    intro c hc
    have h1 := this c hc
    have : (step s .provStep).cons = s.cons := by
      simp only [step, provStep]; repeat' split
      all_goals rfl
    rw [this] at h1; exact h1
  · intro j hj
    simp only [step, provStep] at hafter ⊢
    cases hp : s.ppc with
    | idle => rfl
    | find => rfl
    | cas retry k w =>
      simp only [hp] at hafter ⊢
      split
      · rename_i hw
        simp only [hw, if_true] at hafter
        by_cases hik : i = k
        · subst hik; exact upd_ne _ _ hj
        · rw [upd_ne _ _ hik] at hafter; simp_all
      · split <;> rfl

example : (run (init 2 1 0) (demo ++ [.provAlloc, .provStep, .provStep])).alloc 1 = false ∧
    (step (run (init 2 1 0) (demo ++ [.provAlloc, .provStep, .provStep])) .provStep).alloc 1 = true := by
  decide +kernel

/-- C02: a slot owned by the provider is changed by no consumer step. -/
theorem consumers_keep_off {n m : Nat} {v0 : V} {s : St V} (hm : m < 2 ^ 32 - 1) (hr : Reachable n m v0 s)
    {i : Nat} (ha : s.alloc i = true) {op : Op V} (hop : op.isCons = true) :
    (step s op).slots i = s.slots i ∧ (step s op).alloc i = true := by
  obtain ⟨h, _, _⟩ := hr.inv hm
  have h1 := cons_op_ts h hop i
  have h2 := (h.alloc i).mp ha
  rw [h1.2.1]
  exact ⟨by rw [h1.2.2.2.2.1 h2, h2], ha⟩

example : (run (init 2 1 0) demo2).alloc 1 = true ∧ (Op.consStep 0 false : Op Nat).isCons = true := by
  decide +kernel

end Verif.Props.C02

namespace Verif.Props.C03
open Verif Verif.Slot Verif.Ctrl Verif.Props.Ctrl
variable {V : Type}

/-- C03: while a consumer holds a sample, neither its data nor its timestamp changes, whatever the
provider and the other consumers do. -/
theorem stable {n m : Nat} {v0 : V} {s : St V} (hm : m < 2 ^ 32 - 1) (hr : Reachable n m v0 s)
    {c i : Nat} (hc : c < m) (ops : List (Op V)) (hh : HeldDuring s ops c i) :
    (run s ops).data i = s.data i ∧ tsN ((run s ops).slots i) = tsN (s.slots i) := by
  obtain ⟨h, _, hmm⟩ := hr.inv hm
  exact stable_aux h (by omega) ops hh

/-- Non-trivial instance: the provider writes 43 into another slot and sends it while the sample
is held. -/
example : HeldDuring (run (init 2 1 0) demo) [.provAlloc, .provStep, .provStep, .provStep,
      .provWrite 1 43, .provSend 1] 0 0 ∧
    (run (init 2 1 0) (demo ++ [.provAlloc, .provStep, .provStep, .provStep, .provWrite 1 43, .provSend 1])).data 0 = 42
    := by
  refine ⟨?_, by decide +kernel⟩
  intro k hk
  have : k = 0 ∨ k = 1 ∨ k = 2 ∨ k = 3 ∨ k = 4 ∨ k = 5 ∨ k = 6 := by simp at hk; omega
  rcases this with h | h | h | h | h | h | h <;> subst h <;> decide +kernel

/-- C03: what the user holds is a sample the provider sent, with exactly the data that was sent,
and it was handed out in the current subscription. -/
theorem held_is_sent {n m : Nat} {v0 : V} {s : St V} (hm : m < 2 ^ 32 - 1) (hr : Reachable n m v0 s)
    {c i : Nat} (hc : c < m) (hh : (s.cons c).held i = true) :
    (tsN (s.slots i), s.data i) ∈ (s.cons c).delivered ∧ (tsN (s.slots i), s.data i) ∈ s.sent := by
  obtain ⟨h, _, hmm⟩ := hr.inv hm
  obtain ⟨ops, rfl⟩ := hr
  have hd := heldDelivered_run (init_inv (n := n) v0 hm) (by intro c _ i hi; simp [init, Cons.fresh] at hi) ops
    c (by omega) i hh
  exact ⟨hd, h.delivSent c (by omega) _ hd⟩

example : ((run (init 2 1 0) demo).cons 0).held 0 = true ∧ (1, 42) ∈ (run (init 2 1 0) demo).sent := by
  decide +kernel

end Verif.Props.C03

namespace Verif.Props.C04
open Verif Verif.Slot Verif.Ctrl Verif.Props.Ctrl
variable {V : Type}

/-- C04: in every schedule, the timestamps of the samples delivered in a subscription are strictly
increasing (`delivered` lists the latest first), and every delivered sample was sent. -/
theorem increasing {n m : Nat} {v0 : V} {s : St V} (hm : m < 2 ^ 32 - 1) (hr : Reachable n m v0 s)
    {c : Nat} (hc : c < m) :
    ((s.cons c).delivered.reverse.map (·.1)).Pairwise (· < ·) ∧ ∀ x ∈ (s.cons c).delivered, x ∈ s.sent := by
  obtain ⟨h, _, hmm⟩ := hr.inv hm
  have hc' : c < s.m := by omega
  refine ⟨?_, h.delivSent c hc'⟩
  rw [List.pairwise_map, List.pairwise_reverse]
  exact (h.cons c hc').deliv

/-- C04: as long as the provider does not restart and sends fewer than `2^32` samples, the samples
delivered in a subscription are a subsequence of the samples sent: in send order, none twice. -/
theorem subsequence {n m : Nat} {v0 : V} (hm : m < 2 ^ 32 - 1) (ops : List (Op V))
    (hnr : ∀ op ∈ ops, op.isRestart = false) {c : Nat} (hc : c < m)
    (hlen : (run (init n m v0) ops).sent.length < 2 ^ 32) :
    ((run (init n m v0) ops).cons c).delivered.Sublist (run (init n m v0) ops).sent := by
  obtain ⟨h, _, hmm⟩ := Reachable.inv (n := n) (v0 := v0) ⟨ops, rfl⟩ hm
  have hc' : c < (run (init n m v0) ops).m := by omega
  have hs := (sentInv_run (sentInv_init n m v0) ops hnr).ts hlen
  refine sublist_of_desc (h.cons c hc').deliv ?_ (h.delivSent c hc')
  have := pairwise_desc_range (run (init n m v0) ops).sent.length
  rw [← hs, List.pairwise_map] at this
  exact this

/-- Two samples received in one subscription, by two calls. -/
def demo3 : List (Op Nat) :=
  demo ++ [.provAlloc, .provStep, .provStep, .provStep, .provWrite 1 43, .provSend 1, .consGet 0 2] ++
  List.replicate 14 (.consStep 0 false)

example : ((run (init 2 1 0) demo3).cons 0).delivered = [(2, 43), (1, 42)] ∧
    (∀ op ∈ demo3, op.isRestart = false) ∧ (run (init 2 1 0) demo3).sent.length = 2 := by
  decide +kernel

/-- C04: no schedule makes a consumer violate the preconditions of the transaction log while taking
or releasing samples. -/
theorem no_assertion {n m : Nat} {v0 : V} {s : St V} (hm : m < 2 ^ 32 - 1) (hr : Reachable n m v0 s)
    {c : Nat} (hc : c < m) : (s.cons c).pc ≠ .assertFailed := by
  obtain ⟨h, _, hmm⟩ := hr.inv hm
  intro hp
  have := (h.cons c (by omega)).pcok
  unfold PcOk at this
  simp only [hp] at this

/-- Finding: a release that is delayed between its decrement and the end of its log entry makes a
concurrent `GetNewSamples` of the same consumer terminate the process. The provider reuses the slot
and sends again while the release is still unfinished. -/
theorem release_delay_terminates :
    ∃ ops : List (Op Nat), ((run (init 1 1 0) ops).cons 0).pc = .waitTimeout := by
  refine ⟨[.provAlloc, .provStep, .provStep, .provWrite 0 42, .provSend 0, .consGet 0 1] ++
    List.replicate 10 (.consStep 0 false) ++ [.consRelease 0 0, .consRelStep 0 0,
    .provAlloc, .provStep, .provStep, .provStep, .provSend 0, .consGet 0 1] ++
    List.replicate 12 (.consStep 0 false), ?_⟩
  decide +kernel

end Verif.Props.C04

namespace Verif.Props.C11
open Verif Verif.Slot Verif.Ctrl Verif.Props.Ctrl
variable {V : Type}

/-- C11 (partial): without restart and with fewer than `2^32` sends, the k-th sample sent has
timestamp k, so timestamps strictly increase. Missing: restarts and counter wrap-around, for which the
property is false, see `restart_reuses_timestamp` and `counter_exhausted`. -/
theorem no_restart_partial {n m : Nat} (v0 : V) (ops : List (Op V)) (hnr : ∀ op ∈ ops, op.isRestart = false)
    (hlen : (run (init n m v0) ops).sent.length < 2 ^ 32) :
    (run (init n m v0) ops).sent.reverse.map (·.1) =
      (List.range (run (init n m v0) ops).sent.length).map (· + 1) := by
  have hs := (sentInv_run (sentInv_init n m v0) ops hnr).ts hlen
  rw [List.map_reverse, hs, ← List.map_reverse, List.reverse_reverse]

example : (run (init 2 1 0) C04.demo3).sent.reverse.map (·.1) = [1, 2] := by decide +kernel

/-- C11 (partial): with restarts anywhere, and fewer than `2^32` sends, a sample that is sent gets a
timestamp greater than that of every sample a consumer could still read at that moment. Missing:
samples that are no longer in a slot. -/
theorem above_visible_partial {n m : Nat} {v0 : V} (hm : m < 2 ^ 32 - 1) (ops : List (Op V))
    {i : Nat} (ha : (run (init n m v0) ops).alloc i = true) (hp : (run (init n m v0) ops).ppc = .idle)
    (hlen : (run (init n m v0) ops).sent.length + 1 < 2 ^ 32) :
    ∃ ts v, (run (init n m v0) (ops ++ [.provSend i])).sent = (ts, v) :: (run (init n m v0) ops).sent ∧
      (run (init n m v0) (ops ++ [.provSend i])).slots i = readyWord ts ∧
      ∀ j, j < n → readable ((run (init n m v0) ops).slots j) = true →
        tsN ((run (init n m v0) ops).slots j) < ts := by
  have hv := visInv_run (init_inv (n := n) v0 hm) (visInv_init n m v0) ops
  have hn := (run_nm (init n m v0) ops).1
  have hcur := hv.cur (by omega)
  refine ⟨((run (init n m v0) ops).cur + 1) % 2 ^ 32, (run (init n m v0) ops).data i, ?_, ?_, ?_⟩
  · rw [run_append]
    simp only [run, List.foldl_cons, List.foldl_nil] at ha hp ⊢
    simp only [step, ha, hp, and_self, if_true]
  · rw [run_append]
    simp only [run, List.foldl_cons, List.foldl_nil] at ha hp ⊢
    simp only [step, ha, hp, and_self, if_true, upd_self]
  · intro j hj hr
    have := hv.vis (by omega) j (by rw [hn]; exact hj) hr
    rw [Nat.mod_eq_of_lt (by omega)]
    omega

example : (run (init 2 1 0) (demo2 ++ [.provRestart, .provAlloc, .provStep, .provStep, .provStep])).alloc 1 = true ∧
    readable ((run (init 2 1 0) (demo2 ++ [.provRestart, .provAlloc, .provStep, .provStep, .provStep])).slots 0) = true
    := by decide +kernel

/-- The schedule of the violation: the only slot is sent and received, released, allocated again; the
provider crashes before sending, restarts and sends a new sample. -/
def reuse : List (Op Nat) :=
  [.provAlloc, .provStep, .provStep, .provWrite 0 42, .provSend 0, .consGet 0 1] ++
  List.replicate 10 (.consStep 0 false) ++ [.consRelease 0 0, .consRelStep 0 0, .consRelStep 0 0] ++
  [.provAlloc, .provStep, .provStep, .provStep, .provRestart,
   .provAlloc, .provStep, .provStep, .provWrite 0 43, .provSend 0]

/-- C11 is false across a restart: two different samples get timestamp 1, and the consumer, which
is still subscribed, is not given the second one although it is sitting in the slot. -/
theorem restart_reuses_timestamp :
    (run (init 1 1 0) reuse).sent = [(1, 43), (1, 42)] ∧
    ((run (init 1 1 0) (reuse ++ [.consGet 0 1] ++ List.replicate 10 (.consStep 0 false))).cons 0).pc = .idle ∧
    ((run (init 1 1 0) (reuse ++ [.consGet 0 1] ++ List.replicate 10 (.consStep 0 false))).cons 0).delivered
      = [(1, 42)] := by
  decide +kernel

/-- C11 is false at the end of the counter range: with one slot, a schedule of `2^32 - 1` sends
without restart or consumer leads to a state in which Allocate can never succeed again. -/
theorem counter_exhausted (v0 : V) :
    ∃ ops, (run (init 1 0 v0) ops).sent.length = 2 ^ 32 - 1 ∧
      ∀ more : List (Op V), (∀ op ∈ more, op = .provAlloc ∨ op = .provStep) →
        (run (init 1 0 v0) (ops ++ more)).alloc 0 = false := by
  obtain ⟨ops, h, _⟩ := full_reach v0 (2 ^ 32 - 1) (by decide)
  refine ⟨ops, h.len, ?_⟩
  intro more hmore
  have hi := run_inv (init_inv (n := 1) (m := 0) v0 (by decide)) ops
  rw [run_append, stuck_run h.n h.slot (Or.inl h.ppc) more hmore]
  cases hx : (run (init 1 0 v0) ops).alloc 0 with
  | false => rfl
  | true =>
    have := (hi.alloc 0).mp hx
    rw [h.slot] at this
    exact absurd this (by decide)

end Verif.Props.C11

namespace Verif.Props.C12
open Verif Verif.Slot Verif.Ctrl Verif.Props.Ctrl
variable {V : Type}

/-- C12: after a crash of the provider at any point and its restart, no slot is being written, all
other slots (samples and their reference counts) and all data are unchanged, and nothing changes for
the consumers. -/
theorem restart {n m : Nat} {v0 : V} {s : St V} (hm : m < 2 ^ 32 - 1) (hr : Reachable n m v0 s) :
    (∀ i, (step s .provRestart).slots i ≠ inWriting ∧ (step s .provRestart).alloc i = false) ∧
    (∀ i, s.slots i ≠ inWriting → (step s .provRestart).slots i = s.slots i) ∧
    (∀ i, s.slots i = inWriting → (step s .provRestart).slots i = invalidEvent) ∧
    (step s .provRestart).data = s.data ∧ (step s .provRestart).cons = s.cons := by
  obtain ⟨h, _, _⟩ := hr.inv hm
  have h1 := step_inv h .provRestart
  refine ⟨?_, ?_, ?_, rfl, rfl⟩
  · intro i
    refine ⟨?_, rfl⟩
    intro e
    have := (h1.alloc i).mpr e
    cases this
  · intro i hi
    show (if isInWriting (s.slots i) then invalidEvent else s.slots i) = _
    rw [if_neg (fun e => hi ((isInWriting_iff _).mp e))]
  · intro i hi
    show (if isInWriting (s.slots i) then invalidEvent else s.slots i) = _
    rw [if_pos ((isInWriting_iff _).mpr hi)]

/-- C12: no consumer changes a slot that is being written, so the compare-and-swap of the cleanup
cannot fail. -/
theorem cleanup_undisturbed {n m : Nat} {v0 : V} {s : St V} (hm : m < 2 ^ 32 - 1) (hr : Reachable n m v0 s)
    {i : Nat} (hw : s.slots i = inWriting) {op : Op V} (hop : op.isCons = true) :
    (step s op).slots i = inWriting := by
  obtain ⟨h, _, _⟩ := hr.inv hm
  exact (cons_op_ts h hop i).2.2.2.2.1 hw

example : (run (init 2 1 0) demo2).slots 1 = inWriting ∧ (run (init 2 1 0) demo2).slots 0 ≠ inWriting := by
  decide +kernel

end Verif.Props.C12

namespace Verif.Props.C15
open Verif Verif.Slot Verif.Ctrl Verif.Props.Ctrl
variable {V : Type}

/-- C15: in every reachable state in which every consumer process is running (none is dead and not
yet rolled back), the reference count of a slot that is not being written is the number of consumers
that are holding the sample, are just taking it or are just giving it back. -/
theorem exact_count {n m : Nat} {v0 : V} {s : St V} (hm : m < 2 ^ 32 - 1) (hr : Reachable n m v0 s)
    (hlive : ∀ c, c < m → (s.cons c).pc.live = true) (i : Nat) (hi : s.slots i ≠ inWriting) :
    rcN (s.slots i) = count (fun c => hasRef (s.cons c) i) m := by
  obtain ⟨h, _, hmm⟩ := hr.inv hm
  rcases h.rc i with h1 | h1
  · exact absurd h1.1 hi
  · rw [h1.2, refs, hmm]
    apply count_congr
    intro c hc
    exact cnt_hasRef (h.cons c (by omega)) (hlive c hc) i

/-- C15: at rest (no call in progress in any consumer), the reference count is the number of consumers
whose user holds a SamplePtr on the slot. -/
theorem exact_at_rest {n m : Nat} {v0 : V} {s : St V} (hm : m < 2 ^ 32 - 1) (hr : Reachable n m v0 s)
    (hidle : ∀ c, c < m → (s.cons c).pc = .idle ∧ ∀ i, (s.cons c).rel i = .none) (i : Nat)
    (hi : s.slots i ≠ inWriting) :
    rcN (s.slots i) = count (fun c => (s.cons c).held i) m := by
  rw [exact_count hm hr (fun c hc => by rw [(hidle c hc).1]; rfl) i hi]
  apply count_congr
  intro c hc
  have := hidle c hc
  simp [hasRef, this.1, this.2 i, pend, mid]

/-- A second consumer takes the sample too and crashes; its log is rolled back. -/
def demoCrash : List (Op Nat) :=
  demo ++ [.consGet 1 2] ++ List.replicate 9 (.consStep 1 false) ++ [.consCrash 1]
def demoRecovered : List (Op Nat) :=
  demoCrash ++ [.consRecover 1] ++ List.replicate 5 (.consStep 1 false)

example : rcN ((run (init 2 2 0) demoCrash).slots 0) = 2 ∧
    rcN ((run (init 2 2 0) demoRecovered).slots 0) = 1 ∧
    (∀ c, c < 2 → ((run (init 2 2 0) demoRecovered).cons c).pc = .idle) ∧
    ((run (init 2 2 0) demoRecovered).cons 0).held 0 = true := by
  refine ⟨by decide +kernel, by decide +kernel, ?_, by decide +kernel⟩
  intro c hc
  have : c = 0 ∨ c = 1 := by omega
  rcases this with h | h <;> subst h <;> decide +kernel

/-- C15: when recovery of a consumer completes, it has no reference left, its log is empty, and its
user holds nothing. -/
theorem recovered {n m : Nat} {v0 : V} {s : St V} (hm : m < 2 ^ 32 - 1) (hr : Reachable n m v0 s)
    {c : Nat} (hc : c < m) (hdead : (s.cons c).pc.live = false)
    (hdone : ((step s (.consStep c false)).cons c).pc.live = true) (i : Nat) :
    hasRef ((step s (.consStep c false)).cons c) i = false ∧
    ((step s (.consStep c false)).cons c).b i = false ∧ ((step s (.consStep c false)).cons c).e i = false := by
  obtain ⟨h, hn, hmm⟩ := hr.inv hm
  have hc' : c < s.m := by omega
  have hci := h.cons c hc'
  have h1 := step_inv h (.consStep c false)
  have hci' := h1.cons c (by rw [(step_nm s _).2]; exact hc')
  rw [← cnt_hasRef hci' hdone i]
  rw [cons_step_cons s hc'] at hdone ⊢
  have hpk := hci.pcok
  unfold PcOk at hpk
  have hd := hci.dead hdead
  cases hpc : (s.cons c).pc <;> simp only [getterStep, hpc] at hdone hdead hpk ⊢ <;>
    (try cases hdead) <;> (try cases hdone)
  rename_i k
  by_cases hk : k < s.n
  · exfalso
    simp only [hk, if_true] at hdone
    revert hdone
    repeat' split
    all_goals intro hdone; cases hdone
  · simp only [hk, if_false]
    by_cases hi : s.n ≤ i
    · have := hci.bound i hi
      exact ⟨this.2.2, this.1, this.2.1⟩
    · have := hpk i (by omega)
      exact ⟨by rw [hd.2 i (by rw [this.1, this.2]), this.1], this.1, this.2⟩

example : ((run (init 2 2 0) (demoCrash ++ [.consRecover 1] ++ List.replicate 4 (.consStep 1 false))).cons 1).pc.live
      = false ∧
    ((step (run (init 2 2 0) (demoCrash ++ [.consRecover 1] ++ List.replicate 4 (.consStep 1 false)))
      (.consStep 1 false)).cons 1).pc.live = true := by
  decide +kernel

end Verif.Props.C15

namespace Verif.Props.C16
open Verif Verif.Slot Verif.Ctrl Verif.Props.Ctrl
variable {V : Type}

/-- C16: a log with an ambiguous entry is never rolled back successfully, however often recovery is
tried and whatever happens meanwhile: the consumer does not come back, the entry is left as it is and
the reference it may stand for is never taken away. -/
theorem refused {n m : Nat} {v0 : V} {s : St V} (hm : m < 2 ^ 32 - 1) (hr : Reachable n m v0 s)
    {c i : Nat} (hc : c < m) (hi : i < n) (ha : Ambiguous (s.cons c) i) (ops : List (Op V)) :
    ((run s ops).cons c).pc.live = false ∧ ((run s ops).cons c).b i = (s.cons c).b i ∧
    ((run s ops).cons c).e i = (s.cons c).e i ∧ ((run s ops).cons c).cnt i = (s.cons c).cnt i ∧
    ((s.cons c).cnt i = true → (run s ops).slots i ≠ inWriting ∧ 0 < rcN ((run s ops).slots i)) := by
  obtain ⟨h, hn, hmm⟩ := hr.inv hm
  have h1 := amb_run ops (by omega : c < s.m) (by omega : i < s.n) (ha.amb (h.cons c (by omega)))
  refine ⟨h1.1.1, h1.2.2.1, h1.2.2.2, h1.2.1, ?_⟩
  intro hcnt
  have hinv := run_inv h ops
  have hc' : c < (run s ops).m := by rw [(run_nm s ops).2]; omega
  have hp := refs_pos hc' (by rw [h1.2.1]; exact hcnt)
  rcases hinv.rc i with h2 | h2
  · omega
  · exact ⟨h2.1, by omega⟩

/-- Both ambiguous situations are reachable: crash right after incrementing, and right before. -/
example : Ambiguous ((run (init 2 2 0) (demo ++ [.consGet 1 2] ++ List.replicate 5 (.consStep 1 false) ++
      [.consCrash 1])).cons 1) 0 ∧
    ((run (init 2 2 0) (demo ++ [.consGet 1 2] ++ List.replicate 5 (.consStep 1 false) ++ [.consCrash 1])).cons 1).cnt 0
      = true ∧
    Ambiguous ((run (init 2 2 0) (demo ++ [.consGet 1 2] ++ List.replicate 4 (.consStep 1 false) ++
      [.consCrash 1])).cons 1) 0 ∧
    ((run (init 2 2 0) (demo ++ [.consGet 1 2] ++ List.replicate 4 (.consStep 1 false) ++ [.consCrash 1])).cons 1).cnt 0
      = false :=
  ⟨⟨by decide +kernel, by decide +kernel⟩, by decide +kernel, ⟨by decide +kernel, by decide +kernel⟩,
    by decide +kernel⟩

/-- C16: the outcome of an undisturbed rollback is decided by the log alone: it reports an error if
some entry is ambiguous and succeeds otherwise. -/
theorem decides {n m : Nat} {v0 : V} {s : St V} (hm : m < 2 ^ 32 - 1) (hr : Reachable n m v0 s)
    {c : Nat} (hc : c < m) (hd : (s.cons c).pc = .crashed) :
    ∃ j, let s' := run s (.consRecover c :: List.replicate j (.consStep c false))
      ((∀ i, i < n → (s.cons c).b i = (s.cons c).e i) → (s'.cons c).pc = .idle) ∧
      ((∃ i, i < n ∧ (s.cons c).b i ≠ (s.cons c).e i) → (s'.cons c).pc = .rbFailed) := by
  obtain ⟨h, hn, hmm⟩ := hr.inv hm
  have hc' : c < s.m := by omega
  have e : (step s (.consRecover c)).cons c = { s.cons c with pc := .rbAt 0 } := by
    simp only [step, hc', if_true, hd, upd_self]
  have hnm := step_nm s (.consRecover c)
  obtain ⟨j, hj⟩ := rb_run 0 _ (step s (.consRecover c)) c (by rw [hnm.2]; exact hc') (by rw [e]) rfl
  refine ⟨j, ?_⟩
  have hrun : run s (.consRecover c :: List.replicate j (.consStep c false)) =
      run (step s (.consRecover c)) (List.replicate j (.consStep c false)) := rfl
  show _ ∧ _
  rw [hrun]
  rw [e, hnm.1, hn] at hj
  constructor
  · intro hall; exact hj.1 (fun i _ hi => hall i hi)
  · rintro ⟨i, h1, h2⟩; exact hj.2 ⟨i, Nat.zero_le _, h1, h2⟩

example : ((run (init 2 2 0) C15.demoCrash).cons 1).pc = .crashed ∧
    ((run (init 2 2 0) C15.demoCrash).cons 1).b 0 = true ∧ ((run (init 2 2 0) C15.demoCrash).cons 1).e 0 = true := by
  decide +kernel

end Verif.Props.C16
