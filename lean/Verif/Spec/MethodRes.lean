import Verif.Model.MethodRes
/-! What the table should hold after a history of operations, independent of how it is stored: a set of regions, each with the
application, the proxy and the process it belongs to. -/
namespace Verif.MethodRes

structure Entry where
  app : Nat
  ctr : Nat
  pid : Nat
  region : Nat
  deriving DecidableEq, Repr

/-- After a history of operations, newest first, the entry is held: it was inserted at some point, and no later operation took
it out. -/
def Held : List Op → Entry → Prop
  | [], _ => False
  | .subscribe app ctr pid r :: h, e =>
    -- kept, unless another process of the same application has subscribed
    (Held h e ∧ (app = e.app → pid = e.pid)) ∨
    -- inserted, unless this process already had a region for the proxy
    (e = ⟨app, ctr, pid, e.region⟩ ∧ r = some e.region ∧ ¬ ∃ r', Held h ⟨app, ctr, pid, r'⟩)
  | .unsubscribe app ctr :: h, e => Held h e ∧ ¬ (app = e.app ∧ ctr = e.ctr)
  | .stopOffer :: _, _ => False

/-- The table holds the entry. -/
def Map.Has (m : Map) (e : Entry) : Prop :=
  ∃ p, m e.app = some p ∧ p.pid = e.pid ∧ (e.ctr, e.region) ∈ p.regions

end Verif.MethodRes
