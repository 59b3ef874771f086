import Verif.Model.UnixWrite

/-! What the threads that send on a Unix domain connection rely on. -/
namespace Verif.UnixWriteSpec
open Verif.UnixFrame Verif.UnixWrite

/-- The messages for which success was returned, in the order of the returns. -/
def sent (s : St) : List Msg := (s.done.filter (·.2.2)).map (·.2.1)

/-- A part of the message of thread `t` has been stored. -/
def Midway (s : St) (t : Nat) : Prop := ∃ m i, s.running t = some (m, i) ∧ 0 < i

/-- No thread writes while another one is midway, and no call is cut short midway. -/
def Undisturbed (chunk : Nat) (ops : List Op) : Prop :=
  ∀ pre o post, ops = pre ++ o :: post →
    match o with
    | .begin _ _ => True
    | .write t _ => ∀ u, Midway (run chunk start pre) u → u = t
    | .cut t => ¬ Midway (run chunk start pre) t

/-- Everything that thread `t` has sent or is sending. -/
def calls (s : St) (t : Nat) : List Msg :=
  (s.done.filter (·.1 == t)).map (·.2.1) ++ (s.running t).toList.map (·.1)

end Verif.UnixWriteSpec
