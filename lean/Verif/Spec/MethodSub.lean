import Verif.Model.MethodSub
/-! Vocabulary for the method subscriptions and calls. -/
namespace Verif.MethodSub

/-- Reachable by any messages of any consumers, in any interleaving with offering and stopping services. -/
def Reachable (c : Cfg) (s : St) : Prop := ∃ ops, s = run c init ops

/-- The service has this level (a QM service does not have ASIL-B) and the configuration allows this uid to use it at this level. -/
def Cfg.Allows (c : Cfg) (k : Nat) (l : Lvl) (uid : Nat) : Prop :=
  (l = .b → c.asilB k = true) ∧ ∀ uids, c.allowed k l = some uids → uid ∈ uids

/-- Another process of the same application has subscribed to the same service. -/
def Ev.OtherProcess (e : Ev) (r : Reg) : Prop :=
  ∃ l p uid pid, e = .subscribed r.skel l p uid pid ∧ p.app = r.proxy.app ∧ pid ≠ r.pid

/-- Somebody has unsubscribed the proxy. -/
def Ev.Unsubscribes (e : Ev) (r : Reg) : Prop := e = .unsubscribed r.skel r.proxy

/-- Since the handler was registered, such an event has happened. -/
def Since (log : List Ev) (r : Reg) (P : Ev → Prop) : Prop :=
  ∃ post pre, log = post ++ .registered r :: pre ∧ ∃ e ∈ post, P e

/-- The handler is left over: its scope has expired, or another process of the application has subscribed since. -/
def LeftOver (s : St) (r : Reg) : Prop := s.callAlive r.skel r.gen = false ∨ Since s.log r (fun e => e.OtherProcess r)

/-- A step of well-behaved consumers, none of which is restarted: an application `a` is the process `pid a`, each proxy `p` is for
the service and level `svc p`; the memory of a consumer lists only methods of the service, each once; and no subscription is
processed while a service that is being stopped has already dropped its handlers. -/
def Calm (c : Cfg) (pid : Nat → Nat) (svc : Proxy → Nat × Lvl) (s : St) : Op → Prop
  | .subMsg _ k l p _ q => q = pid p.app ∧ svc p = (k, l)
  | .subRun t opened =>
    match s.pc t with
    | .sub k _ _ _ _ _ => s.phase k ≠ .noHandlers ∧ ∀ ms, opened = some ms → ms.Nodup ∧ ∀ m ∈ ms, m ∈ c.methods k
    | _ => True
  | _ => True

def CalmRun (c : Cfg) (pid : Nat → Nat) (svc : Proxy → Nat × Lvl) (s : St) : List Op → Prop
  | [] => True
  | o :: os => Calm c pid svc s o ∧ CalmRun c pid svc (step c s o) os

end Verif.MethodSub
