import Verif.Proofs.ClientState
/-!
C30: the state of a client connection. `T` threads, thread 0 is the engine's; any interleaving of Stop(), Restart(), attempts
to connect with any outcome, and losses of the connection.
-/
namespace Verif.Props.C30
open Verif.ClientState

/-- The state only changes along the documented diagram. Partial: for executions in which Stop() is not called while an
attempt to connect or a Restart() is in progress or due, nor Restart() during Restart(). -/
theorem follows_diagram_partial (T : Nat) (ops : List Op) (hc : CalmRun T init ops) :
    chained (run T init ops).st (run T init ops).log ∧ ∀ e ∈ (run T init ops).log, diagram e.1 e.2 = true := by
  refine ⟨?_, (Q_run (Q_init T) hc).log⟩
  have gen : ∀ (ops : List Op) (s : St), chained s.st s.log → chained (run T s ops).st (run T s ops).log := by
    intro ops
    induction ops with
    | nil => intro s h; exact h
    | cons op ops ih => intro s h; exact ih _ (chain_step h)
  exact gen ops init rfl

/-- The stop reason is the first one reported since the last Restart(), in every execution. -/
theorem first_reason_wins (T : Nat) (ops : List Op) : (run T init ops).reason = (run T init ops).first := by
  have gen : ∀ (ops : List Op) (s : St), s.reason = s.first → (run T s ops).reason = (run T s ops).first := by
    intro ops
    induction ops with
    | nil => intro s h; exact h
    | cons op ops ih => intro s h; exact ih _ (reason_step h)
  exact gen ops init rfl

/-- Connect after one retry, lose the connection while Stop() is called, restart, connect, stop. -/
def demo : List Op :=
  [.restart 1, .next 1 false, .next 1 false, .next 1 false, .command, .connected 0 .retry, .fire, .connected 0 .ok,
   .lost .closedByPeer, .stop 1, .next 0 false, .next 0 false, .restart 2, .next 2 true, .next 2 true, .next 2 true,
   .connected 2 .ok, .stop 1, .next 1 false, .next 1 false, .command, .next 0 false]
example : CalmRun 3 init demo ∧ (run 3 init demo).log.reverse = [(.stopped, .starting), (.starting, .ready), (.ready, .stopping),
      (.stopping, .stopped), (.stopped, .starting), (.starting, .ready), (.ready, .stopping), (.stopping, .stopped)] ∧
    (run 3 init (demo.take 12)).reason = some .closedByPeer ∧ (run 3 init demo).reason = some .userRequested :=
  ⟨calmRun_of_calmRunB (by decide +kernel), by decide +kernel, by decide +kernel, by decide +kernel⟩

/-- Finding: one thread calls Restart() and then Stop(). The connect command is executed before the stop command, and the
connection goes from stopping to ready. -/
theorem restart_then_stop_reaches_ready : ∃ ops, (CState.stopping, CState.ready) ∈ (run 2 init ops).log ∧
    (∀ op ∈ ops, op = .restart 1 ∨ op = .stop 1 ∨ op = .next 1 false ∨ op = .command ∨ op = .connected 0 .ok) :=
  ⟨[.restart 1, .next 1 false, .next 1 false, .next 1 false, .stop 1, .next 1 false, .next 1 false, .command, .connected 0 .ok],
   by decide +kernel, by decide +kernel⟩

/-- Finding: Stop() during a Restart() of another thread makes the connection go from stopping to starting. -/
theorem stop_during_restart_reaches_starting : ∃ ops, (CState.stopping, CState.starting) ∈ (run 3 init ops).log :=
  ⟨[.restart 1, .next 1 false, .stop 2, .next 2 false, .next 1 false], by decide +kernel⟩

end Verif.Props.C30
