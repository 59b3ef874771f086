import Verif.Model.SkelOffer

/-!
# Vocabulary for the statements about offering and fields

A history is the list of the calls made so far, each with its answer, oldest
first.  All notions below are read off a history; none looks into the skeleton.
-/
namespace Verif.SkelOfferSpec
open Verif.SkelOffer

variable {V : Type}

/-- The calls made so far with their answers, oldest first. -/
abbrev History (V : Type) := List (Op V × Ret V)

/-- The value a call gave to field `i`: that of an accepted `Update`, or the
one returned to the consumer by an accepted `Set`. -/
def given (i : Nat) : Op V × Ret V → Option V
  | (.update j v _, .done) => if j = i then some v else none
  | (.call (.set j _ _), .value w) => if j = i then some w else none
  | _ => none

/-- The value given last to field `i`. -/
def lastValue (i : Nat) (h : History V) : Option V := (h.filterMap (given i)).getLast?

/-- The set handler a call registered for field `i`. -/
def registered (i : Nat) : Op V × Ret V → Option (V → V)
  | (.setHandler j g, .done) => if j = i then some g else none
  | _ => none

/-- The set handler registered last for field `i`. -/
def lastHandler (i : Nat) (h : History V) : Option (V → V) :=
  (h.filterMap (registered i)).getLast?

/-- The call is `OfferService`. -/
def isOffer : Op V → Bool
  | .offer _ => true
  | _ => false

/-- `OfferService` has been called. -/
def offerCalled (h : History V) : Bool := h.any fun p => isOffer p.1

/-- The change a call makes to "the service is offered": a successful
`OfferService` switches it on, `StopOfferService` switches it off. -/
def switch (on : Bool) : Op V × Ret V → Bool
  | (.offer _, .done) => true
  | (.stopOffer _ _, _) => false
  | _ => on

/-- The service is offered: the last successful `OfferService` has not been
followed by `StopOfferService`. -/
def isOn (h : History V) : Bool := h.foldl switch false

/-- Every call of the history satisfied `p`, given the history before it. -/
def Always (p : History V → Op V → Prop) (h : History V) : Prop :=
  ∀ a o r b, h = a ++ (o, r) :: b → p a o

/-- `OfferService` is called only while the service is not offered. -/
def Orderly (h : History V) (o : Op V) : Prop :=
  isOffer o = true → isOn h = false

/-- `OfferService` is called at most once. -/
def Once (h : History V) (o : Op V) : Prop :=
  isOffer o = true → offerCalled h = false

/-- From the first `OfferService` on some consumer uses the shared memory. -/
def Used (h : History V) : Op V → Prop
  | .offer env => (offerCalled h = true → env.unused = false) ∧ env.unusedEnd = false
  | .stopOffer unused _ => offerCalled h = true → unused = false
  | _ => True

/-- The call is a `Get` of a consumer. -/
def isGet : Call V → Bool
  | .get _ _ => true
  | .set _ _ _ => false

/-- `OfferService` is called only while the service is not offered and finds a
slot for the initial value of each field; no `Get` of a consumer is processed
within `StopOfferService`. -/
def Careful (h : History V) : Op V → Prop
  | .offer env => isOn h = false ∧ ∀ i, env.slot i = true
  | .stopOffer _ during => ∀ c ∈ during, isGet c = false
  | _ => True

/-- Nothing outside the skeleton prevents the offer, and no consumer uses the memory. -/
def Fine (env : Env) : Prop :=
  env.bind = .ok ∧ env.unused = true ∧ (∀ i, env.evOk i = true) ∧ (∀ i, env.fldOk i = true) ∧ (∀ i, env.slot i = true) ∧
  env.disc = true

/-- A call is answered with `r` (and the process survives). -/
def Answers (s : St V) (o : Op V) (r : Ret V) : Prop := ∃ t, s.step o = .ok (t, r)

end Verif.SkelOfferSpec
