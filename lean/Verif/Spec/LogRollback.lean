import Verif.Model.LogRollback
/-! Vocabulary for C19. -/

namespace Verif.Rollback

/-- Some transaction of the log has begun but not ended, or the other way round. -/
def Ambiguous (l : Log) : Prop := (∃ x ∈ l.slots, x.1 ≠ x.2) ∨ l.sb ≠ l.se

/-- Slots recorded as referenced, counted from `i`. -/
def heldFrom : Nat → List (Bool × Bool) → List Nat
  | _, [] => []
  | i, (b, e) :: rest => if b && e then i :: heldFrom (i + 1) rest else heldFrom (i + 1) rest

/-- Number of logs still to be rolled back. -/
def dueCount (id : Nat) (nodes : List Node) : Nat := nodes.countP (Node.due id)

/-- Number of logs of one event that carry application id `id`. -/
def ownLogs (id : Nat) (nodes : List Node) : Nat := nodes.countP (fun x => x.id == id)

/-- An old log is free and empty afterwards; logs of other applications are not touched. -/
def Recovered (id : Nat) (x y : Node) : Prop :=
  if x.id = id then y.id = 0 ∧ y.rb = false ∧ containsTransactions y.log = false else y = x

end Verif.Rollback
