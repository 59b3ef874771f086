import Verif.Model.Ssm
/-! Specification of the proxy event: what the user asked for and what discovery last reported. -/
namespace Verif.Ssm

/-- What the user asked for and what discovery reported. -/
structure Wish where
  sub : Option Nat
  avail : Bool
  deriving DecidableEq, Repr

/-- Effect of an operation on the wish: a Subscribe that finds a free log and enough slots subscribes, Unsubscribe
unsubscribes, availability events change the availability, nothing else matters. -/
def Wish.step (w : Wish) : Op → Wish
  | .subscribe n logFree slotsFree =>
    if w.sub = none ∧ logFree = true ∧ slotsFree = true then { w with sub := some n } else w
  | .unsubscribe _ _ => { w with sub := none }
  | .stopOffer => { w with avail := false }
  | .reOffer _ => { w with avail := true }
  | _ => w

def Wish.run (ops : List Op) : Wish := ops.foldl Wish.step { sub := none, avail := true }

/-- What the user asked for about the receive handler, and who the provider is. -/
structure Asked where
  wish : Wish
  /-- the handler (in the order in which they are set) that is set and has not been removed by UnsetReceiveHandler or by an
  Unsubscribe that ended a subscription -/
  handler : Option Nat
  /-- number of handlers set so far -/
  count : Nat
  /-- the process that offers, or has last offered, the event -/
  provider : Nat
  deriving DecidableEq, Repr

def Asked.step (a : Asked) : Op → Asked
  | .setHandler => { a with handler := some a.count, count := a.count + 1 }
  | .unsetHandler _ => { a with handler := none }
  | .unsubscribe ih ok =>
    { a with wish := a.wish.step (.unsubscribe ih ok), handler := if a.wish.sub = none then a.handler else none }
  | .reOffer p => { a with wish := a.wish.step (.reOffer p), provider := if a.wish.avail then a.provider else p }
  | .stopOffer => { a with wish := a.wish.step .stopOffer }
  | .subscribe n lf sf => { a with wish := a.wish.step (.subscribe n lf sf) }

def Asked.run (pid : Nat) (ops : List Op) : Asked :=
  ops.foldl Asked.step { wish := { sub := none, avail := true }, handler := none, count := 0, provider := pid }

/-- Stop-offers and re-offers alternate (`av`: the provider is available at the beginning). -/
def Alternating : Bool → List Op → Prop
  | _, [] => True
  | av, op :: ops =>
    match op with
    | .stopOffer => av = true ∧ Alternating false ops
    | .reOffer _ => av = false ∧ Alternating true ops
    | _ => Alternating av ops

end Verif.Ssm

namespace Verif.Ssm

/-- A history in which stop-offers and re-offers alternate, sample counts are between 1 and 255, and Unsubscribe does not
meet its retry limit. -/
def Proper : Bool → List Op → Prop
  | _, [] => True
  | av, op :: ops =>
    match op with
    | .subscribe n _ _ => 0 < n ∧ n ≤ 255 ∧ Proper av ops
    | .unsubscribe _ ok => ok = true ∧ Proper av ops
    | .stopOffer => av = true ∧ Proper false ops
    | .reOffer _ => av = false ∧ Proper true ops
    | _ => Proper av ops

end Verif.Ssm
