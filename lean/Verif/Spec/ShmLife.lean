import Verif.Model.ShmLife
/-! What users see of the memory of a service instance, and the restrictions of the runs that the theorems speak about. -/
namespace Verif.ShmLife

/-- The provider offers the service. -/
def Offered (s : St) : Prop := s.sk.pc = .offered

/-- Consumer `x` is connected: Create has returned the proxy and its destructor has not begun. -/
def Connected (s : St) (x : Nat) : Prop := (s.px x).pc = .conn

/-- Both memory objects of consumer `x` are the ones that the paths name, and their contents are initialised. -/
def Works (s : St) (x : Nat) : Prop := ∀ p, ∃ o, (s.px x).held p = some o ∧ s.shm p = some o ∧ s.ready o = true

/-- No consumer uses the memory: none has locked the marker file. -/
def Unused (s : St) : Prop := ∀ x, (s.px x).lk = false

/-- No consumer in process `q` holds memory of the service. -/
def Clean (c : Cfg) (s : St) (q : Nat) : Prop := ∀ x p, c.proc x = q → (s.px x).held p = none

/-- Calls that run to their end without a failure, while nobody else does anything: a new skeleton object in process `q` offers the
service, with new memory or with the memory that is in use; a skeleton object stops offering it; consumer `x` connects. -/
def offerNew (q : Nat) : List Op := .skCreate q :: .skOffer :: List.replicate 13 (.skNext true)
def offerUsed (q : Nat) : List Op := .skCreate q :: .skOffer :: List.replicate 7 (.skNext true)
def stopUnused : List Op := .skStop :: List.replicate 5 (.skNext true)
def stopUsed : List Op := [.skStop, .skNext true]
def connect (x : Nat) : List Op := .pxStart x true :: List.replicate 6 (.pxNext x true)

/-- The library has not ended any process. -/
def Survived (s : St) : Prop := ∀ q, s.ended q = false

/-- The provider has unlocked the marker file in StopOfferService and has not yet removed its name. -/
def Removing : SPc → Prop
  | .sUnlink => True
  | _ => False

/-- Consumer `x` is between opening and locking the marker file. -/
def Entering (s : St) (x : Nat) : Prop := ∃ k, (s.px x).pc = .pTry k

/-- When the provider removes the name of the marker file, no consumer has opened this file without having locked it. -/
def Apart (s : St) : Prop := Removing s.sk.pc → ∀ x, ¬Entering s x

/-- While a proxy is being destroyed, nobody else opens the memory in the same process. -/
def Settled (c : Cfg) (s : St) : Prop :=
  ∀ x, (s.px x).pc = .gone →
    (∀ y p, c.proc y = c.proc x → (s.px y).pc ≠ .pLk p) ∧ (s.sk.proc = c.proc x → ∀ p, s.sk.pc ≠ .rLk p)

/-- The restrictions hold at all steps of the run. -/
def OrderlyFrom (c : Cfg) (s : St) : List Op → Prop
  | [] => Apart s ∧ Settled c s
  | o :: os => Apart s ∧ Settled c s ∧ OrderlyFrom c (step c s o) os

/-- The provider, or some consumer, has made the lock file of part `p` and not yet removed it. -/
def SkOwns (s : St) (p : Part) : Prop := s.sk.pc = .oShm p ∨ (∃ o, s.sk.pc = .oInit p o) ∨ s.sk.pc = .rShm p
def Owns (s : St) (p : Part) : Prop := SkOwns s p ∨ ∃ x, (s.px x).pc = .pShm p

/-- The service is offered only by a skeleton object that holds no memory from an earlier offer; no process ends while it owns a lock
file; nobody gives up waiting for a lock file that has an owner. -/
def Careful (c : Cfg) (s : St) : Op → Prop
  | .skOffer => ∀ p, s.sk.held p = none
  | .crash q => (s.sk.proc = q → ∀ p, ¬SkOwns s p) ∧ ∀ x, c.proc x = q → ∀ p, (s.px x).pc ≠ .pShm p
  | .skNext false => ∀ p, s.sk.pc = .rLk p → ¬Owns s p
  | .pxNext x false => ∀ p, (s.px x).pc = .pLk p → ¬Owns s p
  | _ => True

/-- While a proxy is being destroyed, the service is not being offered by the same process. -/
def Quiet (c : Cfg) (s : St) : Prop := ∀ x, (s.px x).pc = .gone → s.sk.proc = c.proc x → ∀ p, s.sk.pc ≠ .oStaleL p

def TidyFrom (c : Cfg) (s : St) : List Op → Prop
  | [] => True
  | o :: os => Quiet c s ∧ Careful c s o ∧ TidyFrom c (step c s o) os

/-- These restrictions hold at all steps of the run. -/
def Tidy (c : Cfg) (ops : List Op) : Prop := TidyFrom c init ops

def Orderly (c : Cfg) (ops : List Op) : Prop := OrderlyFrom c init ops

end Verif.ShmLife
