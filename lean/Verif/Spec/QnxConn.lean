import Verif.Model.QnxConn

/-!
# Vocabulary for what reaches the client of a QNX connection
-/
namespace Verif.QnxConnSpec
open Verif.QnxConn

/-- The messages among what was sent or received. -/
def msgs (l : List Item) : List Msg := l.filterMap fun | .msg m => some m | .ping => none

/-- How many pings there are. -/
def pings (l : List Item) : Nat := l.countP (· == .ping)

/-- How many notifications there are, without pings. -/
def notes (l : List Item) : Nat := (msgs l).countP (! ·.reply)

/-- How many replies there are. -/
def replies (l : List Item) : Nat := (msgs l).countP (·.reply)

/-- Nothing is under way: the client has announced its pulses, the server has handled that, and the
client has handled every pulse. -/
def Quiet (s : State) : Prop :=
  s.selected = true ∧ s.checked = true ∧ s.pulses = [] ∧ s.reading = false

/-- The server replies to requests only, once to each: every reply finds a request without one. -/
def Answers (c : Cfg) (ops : List Op) : Prop :=
  ∀ a b body, ops = a ++ .reply body :: b →
    replies (run (start c) a).sent < (run (start c) a).asked

/-- The client finishes what it is doing and handles `n` pulses. -/
def handle (n : Nat) : List Op := .read :: (List.replicate n [.take, .read]).flatten

/-- The server neither replies nor notifies. -/
def Silent (ops : List Op) : Prop := ∀ o ∈ ops, ∀ body, o ≠ .reply body ∧ o ≠ .notify body

end Verif.QnxConnSpec
