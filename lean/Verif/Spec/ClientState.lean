import Verif.Model.ClientState
/-! Vocabulary for the properties of the state of a client connection. -/
namespace Verif.ClientState

/-- The diagram in i_client_connection.h:88-100. -/
def diagram : CState → CState → Bool
  | .starting, .ready => true
  | .starting, .stopping => true
  | .ready, .stopping => true
  | .stopping, .stopped => true
  | .stopped, .starting => true
  | _, _ => false

/-- Stop() is called only when no Restart() and no attempt to connect is in progress or due, Restart() is not called during
another Restart(), and the retry timer does not expire during Stop(). -/
def Calm (T : Nat) (s : St) : Op → Prop
  | .stop _ => s.reason = none → (∀ t < T, s.pc t ≠ .rs2 ∧ s.pc t ≠ .rs3 ∧ s.pc t ≠ .connecting) ∧ true ∉ s.cmds
  | .restart _ => ∀ t < T, s.pc t ≠ .rs1 ∧ s.pc t ≠ .rs2
  | .fire => s.reason = none
  | _ => True

def CalmRun (T : Nat) : St → List Op → Prop
  | _, [] => True
  | s, op :: ops => Calm T s op ∧ CalmRun T (step T s op) ops

/-- The state last stored is the current one, and each change starts where the previous one ended. -/
def chained : CState → List (CState × CState) → Prop
  | c, [] => c = .stopped
  | c, e :: l => e.2 = c ∧ chained e.1 l

/-- For concrete executions. -/
def calmB (T : Nat) (s : St) : Op → Bool
  | .stop _ => s.reason.isSome || ((List.range T).all (fun t => decide (s.pc t ≠ .rs2 ∧ s.pc t ≠ .rs3 ∧ s.pc t ≠ .connecting)) &&
      decide (true ∉ s.cmds))
  | .restart _ => (List.range T).all (fun t => decide (s.pc t ≠ .rs1 ∧ s.pc t ≠ .rs2))
  | .fire => s.reason.isNone
  | _ => true
def calmRunB (T : Nat) : St → List Op → Bool
  | _, [] => true
  | s, op :: ops => calmB T s op && calmRunB T (step T s op) ops

theorem calmRun_of_calmRunB {T : Nat} : ∀ {ops : List Op} {s : St}, calmRunB T s ops = true → CalmRun T s ops
  | [], _, _ => trivial
  | op :: ops, s, h => by
    simp only [calmRunB, Bool.and_eq_true] at h
    refine ⟨?_, calmRun_of_calmRunB h.2⟩
    have h1 := h.1
    cases op with
    | stop t =>
      intro hr
      simpa [calmB, hr] using h1
    | restart t => simpa [calmB, Calm] using h1
    | fire => simpa [calmB, Calm] using h1
    | _ => trivial

end Verif.ClientState
