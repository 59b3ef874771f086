import Verif.Model.UnixServer
/-!
# What the user of a server relies on

A *session* is what one client and the server have with each other, from the connection callback on.
-/
namespace Verif.UnixServer

/-- A call of a callback for session `c`, or the decision of its connection callback. -/
def callOf (c : Nat) : Ev → Bool
  | .connect _ d _ => d == c
  | .accepted d => d == c
  | .refused d => d == c
  | .message d _ _ => d == c
  | .disconnect d => d == c
  | _ => false

/-- What happened in session `c`, in order. -/
def calls (c : Nat) (log : List Ev) : List Ev := log.filter (callOf c)

/-- Nothing but messages of process `p`. -/
def Messages (c p : Nat) (l : List Ev) : Prop := ∀ e ∈ l, ∃ m, e = .message c p m

/-- A session in order: the connection callback comes first and decides.  If it refuses, nothing
follows.  If it accepts, messages follow, all of the process that the connection callback was told, and at the end
perhaps the disconnection callback, once. -/
def Orderly (c : Nat) (log : List Ev) : Prop :=
  calls c log = [] ∨ ∃ s p,
    calls c log = [.connect s c p, .refused c] ∨
    ∃ msgs, Messages c p msgs ∧
      (calls c log = .connect s c p :: .accepted c :: msgs ∨
       calls c log = .connect s c p :: .accepted c :: (msgs ++ [.disconnect c]))

/-- Session `c` of server `s` with process `p` is open: accepted and not ended. -/
def OpenSession (s c p : Nat) (log : List Ev) : Prop :=
  .connect s c p ∈ log ∧ .accepted c ∈ log ∧ .disconnect c ∉ log

/-- What a callback does, and what the callbacks called for it do, does not end session `c`. -/
def Spares (c : Nat) : Do → Prop
  | .done => True
  | .disconnect d inner next => d ≠ c ∧ Spares c inner ∧ Spares c next
  | .register _ _ next => Spares c next
  | .unregister _ inner next => Spares c inner ∧ Spares c next

/-- The callback thread is about to call the input callback of session `c` of server `s`: its descriptor is
ready. -/
def AtSession (w : World) (c s : Nat) : Prop :=
  ∃ (i : Nat) (x : Slot), w.cursor = some i ∧ w.slots[i]? = some x ∧ x.ready = true ∧ x.ep = some (.conn c s)

/-- The same for the connection requests of a server. -/
def AtListener (w : World) (s : Nat) : Prop :=
  ∃ (i : Nat) (x : Slot), w.cursor = some i ∧ w.slots[i]? = some x ∧ x.ready = true ∧ x.ep = some (.listener s)

/-- Reasons to end a session: a callback asks for it, its server stops, nothing can be read from it
or its message callback returns an error. -/
def Reason (w : World) (c : Nat) : Step → Prop
  | .command i bye =>
    (∃ d, ¬ Spares c (bye d)) ∨ ∃ s p, w.queue[i]? = some (.cleanup s) ∧ .connect s c p ∈ w.log
  | .turn e =>
    ¬ Spares c e.does ∨ ¬ Spares c e.bye ∨ ∃ s, AtSession w c s ∧ (e.msg = none ∨ e.success = false)
  | _ => False

/-- A step in which `accept` does not fail, no session is ended from another thread, and a message
callback that returns an error does not also end its own session. -/
def Careful (w : World) : Step → Prop
  | .turn e => (∀ s, AtListener w s → e.accept ≠ none) ∧
    ∀ c s, AtSession w c s → e.success = false → Spares c e.does
  | .outside _ => False
  | _ => True

end Verif.UnixServer
