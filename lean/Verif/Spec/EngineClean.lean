import Verif.Model.EngineClean

/-! Words for the properties of `CleanUpOwner`. -/
namespace Verif.EngineClean

/-- `id` was registered by (or for) owner `o`. -/
def Registered (s : St) (id o : Nat) : Prop := (id, o) ∈ s.made

/-- The callback of `id` is running. -/
def Running (s : St) (id : Nat) : Prop := ∃ o, s.busy = .callback id o

/-- How often the callback of `id` was called. -/
def calls (s : St) (id : Nat) : Nat := s.log.count (.started id)

/-- How often the owner was told that endpoint `id` is disconnected. -/
def tells (s : St) (id : Nat) : Nat := s.log.count (.disconnected id)

/-- Thread `t` is blocked in `CleanUpOwner`. -/
def Blocked (s : St) (t : Nat) : Prop := s.wait t ≠ none

/-- Some thread is blocked in `CleanUpOwner(o)`. -/
def Cleaning (s : St) (o : Nat) : Prop := ∃ t c, s.wait t = some (o, c)

/-- A step that starts a clean-up of `o`. -/
def Cleans (o : Nat) : Op → Prop
  | .call _ o' => o' = o
  | .cleanHere o' => o' = o
  | .serverClean o' => o' = o
  | _ => False

/-- A step of the engine's thread that no user decides on. -/
def Engine : Op → Prop
  | .begin _ => True
  | .turn => True
  | .finish => True
  | _ => False

end Verif.EngineClean
