import Verif.Model.OfferedState
import Verif.Model.ElementFqId
import Verif.Model.InstanceSpecifier
/-! Vocabulary for C63 and C67. -/

namespace Verif.Props.SmallSpec

def Letter (c : UInt8) : Prop := ('A'.toUInt8 ≤ c ∧ c ≤ 'Z'.toUInt8) ∨ ('a'.toUInt8 ≤ c ∧ c ≤ 'z'.toUInt8)

def Digit (c : UInt8) : Prop := '0'.toUInt8 ≤ c ∧ c ≤ '9'.toUInt8

/-- The documented rules for instance specifiers. -/
structure ValidName (s : List UInt8) : Prop where
  nonempty : s ≠ []
  chars : ∀ c ∈ s, Letter c ∨ Digit c ∨ c = '_'.toUInt8 ∨ c = '/'.toUInt8
  first : ∀ c, s.head? = some c → ¬ Digit c
  last : s.getLast? ≠ some '/'.toUInt8
  single : ¬ ∃ p q, s = p ++ ['/'.toUInt8, '/'.toUInt8] ++ q

open Verif.OfferedState in
/-- A stop after a stop, or an offer after an offer that is not one of the initial offers. -/
def Repeats (h : List Op) : Prop :=
  ∃ p q, h = p ++ [.stopOffer, .stopOffer] ++ q ∨ (h = p ++ [.offer, .offer] ++ q ∧ .stopOffer ∈ p)

end Verif.Props.SmallSpec
