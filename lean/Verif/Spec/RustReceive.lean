import Verif.Model.RustReceive

/-! Words for the properties of receiving with the Rust API. -/
namespace Verif.RustReceive

/-- A future or a stream has returned `Pending`, and has not been polled since. -/
def Waiting (s : St) : Prop :=
  (∃ f, s.fut = some f ∧ f.pc = .waiting) ∨ ∃ r, s.stream = some r ∧ r.pc = .waiting

/-- Later elements are larger. -/
def Increasing (l : List Nat) : Prop := l.Pairwise (· < ·)

/-- A receive future has been polled and is not finished. -/
def Busy (s : St) : Prop := ∃ f, s.fut = some f ∧ f.pc ≠ .fresh

/-- A whole poll of the future. -/
def onePoll : List Op := [.poll true, .go, .go]

/-- A whole poll of the stream. -/
def oneNext : List Op := [.next, .goStream, .goStream]

/-- The samples that a stream has fetched and not yet yielded. -/
def inStream (s : St) : List Nat := match s.stream with | some r => r.buf | none => []

/-- How many samples the user may still get before some are given back. -/
def free (cfg : Cfg) (s : St) : Nat := cfg.maxNum - (s.box.length + s.user.length + (inStream s).length)

/-- The newest `n` of the unread samples were handed over, in the order of sending, and there is
no unread sample any more. -/
def TookNewest (s s' : St) (n : Nat) (xs : List Nat) : Prop :=
  (∃ older, s.unread = older ++ xs) ∧ xs.length = n ∧ s'.got = s.got ++ xs ∧ s'.unread = []

/-- Nothing was handed over and the container is as before. -/
def Untouched (s s' : St) : Prop :=
  s'.box = s.box ∧ s'.got = s.got ∧ s'.unread = s.unread ∧ s'.user = s.user

end Verif.RustReceive
