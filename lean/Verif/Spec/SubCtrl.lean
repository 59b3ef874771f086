import Verif.Model.SubCtrl
/-! Vocabulary for C13, C14 and C17. -/

namespace Verif.Props.SubSpec
open Verif Verif.Sub

/-- Proxy `p` is subscribed and no call of it is in progress. -/
def isSub (s : St) (p : Nat) : Bool := decide ((s.px p).pc = .idle) && (s.px p).want.isSome

/-- Sample count of a subscribed proxy, 0 for others. -/
def sampleCount (s : St) (p : Nat) : Nat := if isSub s p then (s.px p).want.getD 0 else 0

/-- A call of proxy `p` is in progress, or its process died and was not recovered. -/
def busy (s : St) (p : Nat) : Bool := !decide ((s.px p).pc = .idle)

/-- Number of subscribed proxies. -/
def numSubs (s : St) : Nat := count (isSub s) s.m

/-- Sum of the sample counts of the subscribed proxies. -/
def numSamples (s : St) : Nat := sumTo (sampleCount s) s.m

/-- States the system can get into. -/
def Reachable (maxSlots : BitVec 16) (maxSubs : BitVec 8) (enforce : Bool) (m : Nat) (s : St) : Prop :=
  ∃ ops, s = run (init maxSlots maxSubs enforce m) ops

end Verif.Props.SubSpec
