import Verif.Model.RustSub

/-! Words for the properties of a subscription of the Rust API. -/
namespace Verif.RustSub

/-- The process goes on. -/
def Alive (s : St) : Prop := .ended ∉ s.log

/-- The user has a subscription and may give it up: no receive future borrows it. -/
def MayGiveUp (s : St) : Prop := (∃ m, s.obj = .subscription m) ∧ s.future = false

/-- Nothing is left. -/
def Nothing (s : St) : Prop :=
  s.obj = .none ∧ s.proxy = false ∧ s.sub = none ∧ s.handler = false ∧ s.samples = 0

/-- The user gives up the subscription only without samples, forgets no future, receives one at a
time, and asks for at most 255 samples. -/
def Careful (s : St) (op : Op) : Prop :=
  ((op = .drop ∨ op = .unsubscribe) → s.samples = 0) ∧ op ≠ .endReceive true ∧
  ((op = .startReceive ∨ ∃ n, op = .receive n) → s.future = false) ∧
  ∀ m e b o, op = .subscribe m e b o → m ≤ 255 ∨ 4294967295 < m

end Verif.RustSub
