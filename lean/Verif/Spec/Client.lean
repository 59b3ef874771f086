import Verif.Model.Client
/-! Vocabulary for the properties of the client connection. -/
namespace Verif.Client

/-- The thread is not between the state check of a send method and the point where its message is on the wire or queued
(or the call has been rejected). -/
def quiet : U → Bool
  | .checked _ _ => false
  | .sending _ => false
  | .sent _ false => false
  | _ => true

def AllQuiet (uth : Nat → U) (T : Nat) : Prop := ∀ t < T, quiet (uth t) = true

/-- The step does not tear the connection down during a send call, and it is not an unsolicited reply. -/
def Calm (T : Nat) (s : St) : Op → Prop
  | .teardown _ => AllQuiet s.uth T
  | .bogusReply => False
  | _ => True

/-- All the steps of an execution are calm. -/
def CalmRun (cfg : Cfg) (T : Nat) : St → List Op → Prop
  | _, [] => True
  | s, op :: ops => Calm T s op ∧ CalmRun cfg T (step cfg T s op) ops

/-- The step does not tear the connection down, and it is not a failing transmission. -/
def Smooth : Op → Prop
  | .teardown _ => False
  | .enter _ ok => ok = true
  | .xmit _ ok => ok = true
  | .engXmit ok => ok = true
  | _ => True

/-- For concrete executions. -/
def calmB (T : Nat) (s : St) : Op → Bool
  | .teardown _ => (List.range T).all (fun t => quiet (s.uth t))
  | .bogusReply => false
  | _ => true
def calmRunB (cfg : Cfg) (T : Nat) : St → List Op → Bool
  | _, [] => true
  | s, op :: ops => calmB T s op && calmRunB cfg T (step cfg T s op) ops

theorem calmRun_of_calmRunB {cfg : Cfg} {T : Nat} : ∀ {ops : List Op} {s : St}, calmRunB cfg T s ops = true → CalmRun cfg T s ops
  | [], _, _ => trivial
  | op :: ops, s, h => by
    simp only [calmRunB, Bool.and_eq_true] at h
    refine ⟨?_, calmRun_of_calmRunB h.2⟩
    have h1 := h.1
    cases op <;> simp_all [calmB, Calm, AllQuiet]

end Verif.Client

namespace Verif.Client

/-- Entries in use by the engine's thread. -/
def busy : E → Nat
  | .xmit _ _ => 1
  | .fin _ _ _ => 1
  | _ => 0

end Verif.Client
