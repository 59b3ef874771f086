import Verif.Model.LogSet
/-! Vocabulary for C18. -/

namespace Verif.Props.LogSetSpec
open Verif Verif.LogSet

/-- Actor `a` currently holds transaction log `i` as its own: from the moment its registration call takes the log
until its unregistration call gives it up, also while the process is dead and not yet recovered. -/
def Holds (s : St) (a i : Nat) : Prop :=
  s.act a = .mark i ∨ s.act a = .registered i ∨ s.act a = .release i ∨ s.act a = .dead i ∨ s.act a = .abortReset i ∨
    s.act a = .abortReuse i

/-- A state that some schedule reaches from a fresh log set with `n` logs. -/
def Reachable (n : Nat) (s : St) : Prop := ∃ ops, s = run (init n) ops

/-- The registration call of `a` with application id `id` completes with nobody else taking a step in between. -/
def Registers (s : St) (a id : Nat) (t : St) : Prop :=
  ∃ N0, ∀ N, N0 ≤ N → run (step s (.register a id)) (List.replicate N (.go a)) = t

end Verif.Props.LogSetSpec
