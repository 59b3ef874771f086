import Verif.Model.ProxyCalls
/-! Vocabulary for the method calls of a consumer. -/
namespace Verif.ProxyCalls

/-- The application holds this pointer, and has not moved out of it. -/
def St.Holds (s : St) (id : Nat) (p : Ptr) : Prop := s.ptr id = some p ∧ p.owns = true

/-- The application uses the call operators as intended: it calls a method that has arguments with one pointer for each of them, each
of which is a pointer to this argument, and none of which it has moved out of before. -/
def Proper (c : Cfg) (s : St) : Op → Prop
  | .allocate _ => 0 < c.k
  | .call ids _ => 0 < c.k ∧ ids.length = c.k ∧ ∀ i id, ids[i]? = some id → ∃ p, s.Holds id p ∧ p.cell = .arg i
  | .callCopy vals _ _ => 0 < c.k ∧ vals.length = c.k
  | .callNoArgs _ => c.k = 0 ∧ c.hasRet = true
  | _ => True

def ProperRun (c : Cfg) (s : St) : List Op → Prop
  | [] => True
  | o :: os => Proper c s o ∧ ProperRun c (step c s o) os

/-- Reachable if the application uses the call operators as intended; the binding may do anything. -/
def Reach (c : Cfg) (s : St) : Prop := ∃ ops, ProperRun c init ops ∧ s = run c init ops

end Verif.ProxyCalls
