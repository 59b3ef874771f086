import Verif.Proofs.TimedQueue
import Mathlib.Data.List.Nodup
/-! C31, C32, C33, C70: timed commands of the message passing engines and the connect retry delay. -/
namespace Verif.Props.C32
open Verif.TimedQueue

/-- Every registered command is, at any time of any history, in exactly one of three places and only once there: pending,
run, or removed by a clean-up of its owner. -/
theorem exactly_once (ops : List Op) (k : Nat) (hk : k < (run init ops).next) :
    ((run init ops).queue.map Entry.seq).count k + ((run init ops).ran.map (fun x => x.1.seq)).count k +
      ((run init ops).removed.map Entry.seq).count k = 1 := by
  have h := (run_inv init_inv ops).perm.count_eq k
  simp only [List.count_append] at h
  rw [h, List.count_eq_one_of_mem List.nodup_range (List.mem_range.mpr hk)]

/-- Nothing else is ever run: what ran or was removed had been registered. -/
theorem only_registered (ops : List Op) (k : Nat) (hk : (run init ops).next ≤ k) :
    k ∉ (run init ops).ran.map (fun x => x.1.seq) := by
  intro hm
  have h := (run_inv init_inv ops).perm.mem_iff (a := k)
  have : k ∈ List.range (run init ops).next := h.mp (by simp at hm ⊢; right; left; exact hm)
  simp at this
  omega

/-- Commands never run before they are due. -/
theorem never_early (ops : List Op) (x : Entry × Int) (h : x ∈ (run init ops).ran) : x.1.until_ ≤ x.2 :=
  (run_inv init_inv ops).due x h

/-- When a command runs, every command that is still pending is due later, or at the same time and was registered later. -/
theorem in_order (ops : List Op) (e : Entry) (n : Int)
    (h : (step (run init ops) .turn).ran = (run init ops).ran ++ [(e, n)]) :
    e ∈ (run init ops).queue ∧
    ∀ x ∈ (step (run init ops) .turn).queue, e.until_ < x.until_ ∨ (e.until_ = x.until_ ∧ e.seq < x.seq) := by
  have hi := (run_inv init_inv ops).sorted
  generalize run init ops = s at *
  unfold step at *
  dsimp only at *
  split at h
  · simp at h
  · simp at h
  · rename_i m e' q hn hq
    split at h
    · simp at h
    · rename_i hle
      simp only [List.append_cancel_left_eq, List.cons.injEq, Prod.mk.injEq, and_true] at h
      have he : e' = e := h.1
      subst he
      rw [hq] at hi ⊢
      refine ⟨by simp, ?_⟩
      rw [hn]
      rw [if_neg hle]
      exact (List.pairwise_cons.mp hi).1

/-- When ProcessQueue(now) returns, no pending command is due, and the value returned is the due time of the pending
command that is due first (the epoch, 0, if there is none). -/
theorem all_due_run (ops : List Op) (n : Int) (hn : (run init ops).now = some n)
    (hr : (step (run init ops) .turn).now = none) :
    (∀ x ∈ (step (run init ops) .turn).queue, n < x.until_) ∧
    ((step (run init ops) .turn).queue = [] → returned (step (run init ops) .turn) = 0) ∧
    (∀ x ∈ (step (run init ops) .turn).queue, returned (step (run init ops) .turn) ≤ x.until_) := by
  have hi := (run_inv init_inv ops).sorted
  generalize run init ops = s at *
  unfold step at *
  rw [hn] at *
  dsimp only at *
  cases hq : s.queue with
  | nil => simp [hq, returned]
  | cons e q =>
    rw [hq] at hr
    dsimp only at hr
    split at hr
    · rename_i hgt
      dsimp only
      rw [if_pos hgt]
      rw [hq] at hi
      have h1 := (List.pairwise_cons.mp hi).1
      refine ⟨?_, ?_, ?_⟩
      · intro x hx
        rcases List.mem_cons.mp hx with rfl | hx
        · omega
        · have := h1 x hx; unfold Before at this; omega
      · intro e; cases e
      · intro x hx
        simp only [returned]
        rcases List.mem_cons.mp hx with rfl | hx
        · omega
        · have := h1 x hx; unfold Before at this; omega
    · simp [hn] at hr

/-- While ProcessQueue(now) is running and a due command is pending, the next turn runs one; so each turn makes progress. -/
theorem progress (ops : List Op) (n : Int) (hn : (run init ops).now = some n) (e : Entry)
    (he : e ∈ (run init ops).queue) (hd : e.until_ ≤ n) :
    (step (run init ops) .turn).ran.length = (run init ops).ran.length + 1 := by
  have hi := (run_inv init_inv ops).sorted
  generalize run init ops = s at *
  unfold step
  rw [hn]
  cases hq : s.queue with
  | nil => rw [hq] at he; cases he
  | cons x q =>
    rw [hq] at hi he
    have h1 := (List.pairwise_cons.mp hi).1
    have : ¬ x.until_ > n := by
      rcases List.mem_cons.mp he with rfl | he
      · omega
      · have := h1 e he; unfold Before at this; omega
    dsimp only
    rw [if_neg this]
    simp

/-- A clean-up removes exactly the pending commands of its owner and leaves the others in their order. -/
theorem clean_up (s : St) (o : Nat) :
    (step s (.cleanUp o)).queue = s.queue.filter (fun e => e.owner ≠ o) ∧ (step s (.cleanUp o)).ran = s.ran := by
  refine ⟨?_, rfl⟩
  simp only [step]
  congr 1; funext e; simp [beq_eq_decide]

def demo : List Op :=
  [.register 70 1, .register 50 2, .register 50 3, .register 0 1, .begin 60, .turn, .register 55 4, .cleanUp 3, .turn, .turn]

example : ((run init demo).ran.map (fun x => x.1.seq)) = [3, 1, 4] ∧ (run init demo).removed.map Entry.seq = [2] ∧
    (run init demo).queue.map Entry.seq = [0] ∧ (run init demo).now = some 60 ∧
    (step (run init demo) .turn).now = none ∧ returned (step (run init demo) .turn) = 70 := by decide +kernel

end Verif.Props.C32

namespace Verif.Props.C33
open Verif.TimedQueue

/-- Cleaning up with the null pointer through the engine leaves everything in place. Missing for the full property: the
queue's own CleanUpOwner, which violates its documentation, see the next theorem. -/
theorem engine_null_owner_partial (s : St) : engineCleanUp s 0 = s := by simp [engineCleanUp]

/-- The queue's CleanUpOwner(nullptr) removes the pending commands that were registered without an owner, although its
documentation says that nothing is removed. -/
theorem queue_null_owner_removes : ∃ ops, (run init ops).queue ≠ [] ∧ (step (run init ops) (.cleanUp 0)).queue = [] :=
  ⟨[.register 5 0], by decide +kernel⟩

/-- It removes exactly those. -/
theorem queue_null_owner (s : St) : (step s (.cleanUp 0)).queue = s.queue ↔ ∀ e ∈ s.queue, e.owner ≠ 0 := by
  have h : (step s (.cleanUp 0)).queue = s.queue.filter (fun e => e.owner ≠ 0) := by
    simp only [step]
    congr 1; funext e; simp [beq_eq_decide]
  rw [h, List.filter_eq_self]
  simp

example : engineCleanUp (run init C32.demo) 0 = run init C32.demo ∧
    engineCleanUp (run init C32.demo) 1 ≠ run init C32.demo := by decide +kernel

end Verif.Props.C33

namespace Verif.Props.C31
open Verif.TimedQueue

/-- The first retry comes after 50 ms; delays are never below 50 ms and never above 5000 ms and never decrease. -/
theorem bounds (k : Nat) : delay 0 = 50 ∧ 50 ≤ delay k ∧ delay k ≤ 5000 ∧ delay k ≤ delay (k + 1) := by
  have h : 50 ≤ delay k ∧ delay k ≤ 5000 := by
    induction k with
    | zero => simp [delay]
    | succ k ih =>
      simp only [delay, grow]
      split
      · split <;> omega
      · omega
  refine ⟨rfl, h.1, h.2, ?_⟩
  simp only [delay, grow]
  split
  · split <;> omega
  · omega

/-- The delay grows by a third, rounded up, with every failed attempt, unless it would exceed 5000 ms. -/
theorem growth (k : Nat) :
    delay (k + 1) = if delay k + (delay k + 2) / 3 ≤ 5000 then delay k + (delay k + 2) / 3 else delay k := by
  have := bounds k
  simp only [delay, grow]
  split
  · split <;> split <;> omega
  · split <;> omega

/-- The delay ends up at a constant value between 3750 ms and 5000 ms. -/
theorem limit : ∃ d, 3750 ≤ d ∧ d ≤ 5000 ∧ ∃ n, ∀ k, n ≤ k → delay k = d := by
  refine ⟨delay 16, by decide +kernel, by decide +kernel, 16, ?_⟩
  intro k hk
  induction k with
  | zero => omega
  | succ k ih =>
    rcases Nat.lt_or_ge k 16 with h | h
    · have : k = 15 := by omega
      subst this; rfl
    · have e : delay (k + 1) = grow (delay k) := rfl
      rw [e, ih h]; decide +kernel

example : (List.range 5).map delay = [50, 67, 90, 120, 160] := by decide +kernel

end Verif.Props.C31

namespace Verif.Props.C70
open Verif.TimedQueue

/-- If the first pending command is not overdue by 2 ms or more when the waiting time is computed, the engine's poll wakes
up within a millisecond after the command is due, or at once if it is overdue (or after the largest waiting time poll
knows). Missing for the full property: commands overdue by more, see the next theorem. -/
theorem wakes_up_partial (then_ now : Int) (h0 : then_ ≠ 0) (h : now - then_ < 2000000) :
    ∃ b, pollBlocks (pollTimeout then_ now) = some b ∧
      (b ≤ max 0 (then_ - now) + 1000000 ∨ b = 2147483647 * 1000000) := by
  unfold pollTimeout
  rw [if_neg h0]
  dsimp only
  have key : then_ - now < 0 → (then_ - now).tdiv 1000000 = 0 ∨ (then_ - now).tdiv 1000000 = -1 := by
    intro hneg
    have e : (then_ - now) = -(-(then_ - now)) := by omega
    rw [e, Int.neg_tdiv, Int.tdiv_eq_ediv_of_nonneg (by omega)]
    omega
  split
  · exact ⟨2147483647 * 1000000, by simp [pollBlocks], .inr rfl⟩
  · rename_i hlt
    by_cases hneg : then_ - now < 0
    · rcases key hneg with e | e <;> rw [e]
      · exact ⟨1000000, by simp [pollBlocks], .inl (by omega)⟩
      · exact ⟨0, by simp [pollBlocks], .inl (by omega)⟩
    · rw [Int.tdiv_eq_ediv_of_nonneg (by omega)] at hlt ⊢
      refine ⟨((then_ - now) / 1000000 + 1) * 1000000, ?_, .inl (by omega)⟩
      unfold pollBlocks
      rw [if_neg (by omega)]

/-- The engine can block without limit although a command is overdue: poll is called with a negative timeout whenever the
first pending command has become due 2 ms or more before the second reading of the clock, for example because the callback
of another command took that long. -/
theorem blocks_forever (then_ now : Int) (h0 : then_ ≠ 0) (h : 2000000 ≤ now - then_) :
    pollBlocks (pollTimeout then_ now) = none := by
  unfold pollTimeout
  rw [if_neg h0]
  dsimp only
  have e : (then_ - now) = -(-(then_ - now)) := by omega
  rw [e, Int.neg_tdiv, Int.tdiv_eq_ediv_of_nonneg (by omega)]
  rw [if_neg (by omega)]
  unfold pollBlocks
  rw [if_pos (by omega)]

/-- Without pending commands the engine waits without limit. -/
theorem nothing_pending (now : Int) : pollBlocks (pollTimeout 0 now) = none := by simp [pollTimeout, pollBlocks]

/-- The QNX engine sets its timer correctly if the command is not overdue, ... -/
theorem qnx_wakes_up_partial (then_ now : Int) (h0 : then_ ≠ 0) (h : now ≤ then_) (hm : then_ - now < 2 ^ 63) :
    qnxTimer then_ now = some (then_ - now + 1) := by
  unfold qnxTimer
  rw [if_neg h0, Int.emod_eq_of_lt (by omega) (by omega)]

/-- ... but for an overdue command the timer is switched off (overdue by exactly 1 ns) or set to more than 292 years. -/
theorem qnx_blocks (then_ now : Int) (h0 : then_ ≠ 0) (h : then_ < now) (hm : now - then_ < 2 ^ 63) :
    qnxTimer then_ now = some 0 ∨ ∃ d, qnxTimer then_ now = some d ∧ 2 ^ 63 ≤ d := by
  unfold qnxTimer
  rw [if_neg h0]
  by_cases e : then_ - now + 1 = 0
  · left; rw [e]; rfl
  · right
    refine ⟨_, rfl, ?_⟩
    omega

/-- A history that gets there: the first command runs at time 60 ms and its callback takes 10 ms, the second is due at 61 ms. -/
example : pollBlocks (pollTimeout (returned (run init [.register 50000000 1, .register 61000000 2, .begin 60000000, .turn, .turn]))
    70000000) = none := by decide +kernel
example : pollBlocks (pollTimeout 61000000 60000000) = some 2000000 := by decide +kernel

end Verif.Props.C70
