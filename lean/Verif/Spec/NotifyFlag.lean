import Verif.Model.NotifyFlag
/-! Vocabulary for the notification flag. -/
namespace Verif.NotifyFlag

/-- Somebody wants to be notified of updates of the event: a local handler or a remote node is registered. -/
def Wanted (s : St) (e : Nat) : Prop := s.handlers e ≠ [] ∨ s.nodes e ≠ []

/-- What somebody who watches the calls and messages, but does not look at the tables, writes down. -/
structure Book where
  /-- event, registration number: RegisterEventNotification returned the number and it has not been given back -/
  locals : Nat → Nat → Bool
  /-- event, node: the node's interest has been taken in and it was neither withdrawn nor the node declared outdated since -/
  remote : Nat → Nat → Bool
  /-- the event is offered -/
  offered : Nat → Bool

/-- Nothing has happened yet. -/
def Book.empty : Book := ⟨fun _ _ => false, fun _ _ => false, fun _ => false⟩

/-- The entry made for one step that is taken in the state `s`; a message counts when its handling has been completed, a call of a
thread that is busy does not take place. -/
def Book.note (b : Book) (s : St) : Op → Book
  | .register t e => if s.th t = .idle then { b with locals := upd b.locals e (upd (b.locals e) s.nextNo true) } else b
  | .unregister t e no => if s.th t = .idle then { b with locals := upd b.locals e (upd (b.locals e) no false) } else b
  | .outdated n => { b with remote := fun e => upd (b.remote e) n false }
  | .offer t e => if s.th t = .idle then { b with offered := upd b.offered e true } else b
  | .stopOffer t e => if s.th t = .idle then { b with offered := upd b.offered e false } else b
  | .go t => match s.th t with
    | .regMsg e n _ => { b with remote := upd b.remote e (upd (b.remote e) n true) }
    | .unregMsg e n _ => { b with remote := upd b.remote e (upd (b.remote e) n false) }
    | _ => b
  | .regMsg _ _ _ => b
  | .unregMsg _ _ _ => b

/-- The book after a run. -/
def watch (s : St) (b : Book) : List Op → Book
  | [] => b
  | o :: os => watch (step s o) (b.note s o) os

/-- Somebody is interested in the event, going by the calls and messages: a local handler or a remote node. -/
def Book.Interested (b : Book) (e : Nat) : Prop := (∃ no, b.locals e no = true) ∨ ∃ n, b.remote e n = true

/-- The operation a thread is in the middle of concerns this event. -/
def Phase.Concerns (e : Nat) : Phase → Prop
  | .idle => False
  | .notify e' _ => e' = e
  | .regMsg e' _ _ => e' = e
  | .unregMsg e' _ _ => e' = e
  | .offerHandlers e' => e' = e
  | .offerNodes e' _ => e' = e
  | .resetFlag e' => e' = e

/-- The thread is in the middle of withdrawing something of this event: a handler, a node's interest or the offer. -/
def Phase.Withdraws (e : Nat) : Phase → Prop
  | .notify e' v => e' = e ∧ v = false
  | .unregMsg e' _ _ => e' = e
  | .resetFlag e' => e' = e
  | _ => False

/-- The thread is in the middle of offering an event. -/
def Phase.Offers : Phase → Prop
  | .offerHandlers _ => True
  | .offerNodes _ _ => True
  | _ => False

/-- No operation concerning the event is under way. -/
def Quiet (s : St) (e : Nat) : Prop := ∀ t, ¬ (s.th t).Concerns e

/-- Nobody is withdrawing something of this event. -/
def NotWithdrawing (s : St) (e : Nat) : Prop := ∀ t, ¬ (s.th t).Withdraws e

/-- A step in which withdrawing something does not overlap with another operation on the same event, and no node is declared
outdated while an event is being offered. Any other operations may overlap. -/
def Calm (s : St) : Op → Prop
  | .register _ e => NotWithdrawing s e
  | .regMsg _ e _ => NotWithdrawing s e
  | .offer _ e => NotWithdrawing s e
  | .unregister _ e _ => Quiet s e
  | .unregMsg _ e _ => Quiet s e
  | .stopOffer _ e => Quiet s e
  | .outdated _ => ∀ t, ¬ (s.th t).Offers
  | .go _ => True

def CalmRun (s : St) : List Op → Prop
  | [] => True
  | o :: os => Calm s o ∧ CalmRun (step s o) os

end Verif.NotifyFlag
