import Verif.Proofs.NotifyFlag
/-! C55: providers with interested consumers notify them. -/
namespace Verif.Demo.C55
open Verif.NotifyFlag

/-- An event is offered; a local handler and a remote node register at overlapping times; later the local handler goes. -/
def calmOps : List Op :=
  [.offer 0 7, .go 0, .register 1 7, .regMsg 2 7 100, .go 2, .go 1, .go 0, .go 0, .unregister 1 7 0, .regMsg 2 7 101, .go 2]

instance (e : Nat) (p : Phase) : Decidable (p.Concerns e) := by
  cases p <;> unfold Phase.Concerns <;> infer_instance

instance (e : Nat) (p : Phase) : Decidable (p.Withdraws e) := by
  cases p <;> unfold Phase.Withdraws <;> infer_instance

/-- A thread no operation has been started on is idle. -/
theorem beyond {k : Nat} : ∀ {ops : List Op} {s : St}, (∀ t, k ≤ t → s.th t = .idle) →
    (∀ o ∈ ops, match o with
      | .register t _ | .unregister t _ _ | .regMsg t _ _ | .unregMsg t _ _ | .offer t _ | .stopOffer t _ | .go t => t < k
      | .outdated _ => True) → ∀ t, k ≤ t → (run s ops).th t = .idle := by
  intro ops
  induction ops with
  | nil => intro s h _; exact h
  | cons o os ih =>
    intro s h hk
    refine ih ?_ (fun o' ho' => hk o' (by simp [ho']))
    intro t ht
    have h1 := hk o (by simp)
    have h2 := h t ht
    cases o <;> simp only [step, register, unregister, outdated] at h1 ⊢ <;> repeat' split
    all_goals first
      | exact h2
      | (dsimp only [notify, regNode, unregNode]; rw [upd_ne _ _ (by omega)]; exact h2)

theorem all_idle {ops : List Op} (k : Nat)
    (hk : ∀ o ∈ ops, match o with
      | .register t _ | .unregister t _ _ | .regMsg t _ _ | .unregMsg t _ _ | .offer t _ | .stopOffer t _ | .go t => t < k
      | .outdated _ => True) (h : ∀ t, t < k → (run init ops).th t = .idle) (t : Nat) : (run init ops).th t = .idle := by
  by_cases ht : t < k
  · exact h t ht
  · exact beyond (fun _ _ => rfl) hk t (by omega)

end Verif.Demo.C55

namespace Verif.Props.C55
open Verif.NotifyFlag

/-- PARTIAL (as long as withdrawing a handler, a node's interest or the offer does not overlap with another operation on the same
event, and no node is declared outdated while an event is being offered; any other operations may overlap): whenever no operation
on the event is under way, an offered event somebody wants to be notified about has its flag set - sent updates are announced. -/
theorem flag_set_partial (ops : List Op) (hcalm : CalmRun init ops) (e : Nat) (hq : Quiet (run init ops) e)
    (hoff : (watch init .empty ops).offered e = true) (hw : (watch init .empty ops).Interested e) :
    announces (run init ops) e = true := by
  have hf := faithful_run (ops := ops) faithful_init
  rcases (inv_run inv_init hcalm e).main ((hf.offered e).trans hoff) (wanted_of_interested hf hw) with h | ⟨t, h⟩
  · exact h
  · exact absurd h.concerns (hq t)

/-- PARTIAL (same restriction): while operations are under way, the flag is set, or one of the threads is about to set it or is still
offering the event. -/
theorem flag_set_or_pending_partial (ops : List Op) (hcalm : CalmRun init ops) (e : Nat)
    (hoff : (watch init .empty ops).offered e = true) (hw : (watch init .empty ops).Interested e) :
    announces (run init ops) e = true ∨
      ∃ t, (run init ops).th t = .notify e true ∨ (run init ops).th t = .offerHandlers e ∨
        ∃ l, (run init ops).th t = .offerNodes e l := by
  have hf := faithful_run (ops := ops) faithful_init
  rcases (inv_run inv_init hcalm e).main ((hf.offered e).trans hoff) (wanted_of_interested hf hw) with h | ⟨t, h⟩
  · exact .inl h
  · refine .inr ⟨t, ?_⟩
    revert h
    cases (run init ops).th t <;> simp only [Phase.Up]
    · exact fun h => h.elim
    · rintro ⟨rfl, rfl⟩; exact .inl rfl
    · exact fun h => h.elim
    · exact fun h => h.elim
    · rintro rfl; exact .inr (.inl rfl)
    · rintro ⟨rfl, _⟩; exact .inr (.inr ⟨_, rfl⟩)
    · exact fun h => h.elim

example : CalmRun init Demo.C55.calmOps ∧ Quiet (run init Demo.C55.calmOps) 7 ∧
    (watch init .empty Demo.C55.calmOps).offered 7 = true ∧
    (watch init .empty Demo.C55.calmOps).Interested 7 ∧ announces (run init Demo.C55.calmOps) 7 = true := by
  refine ⟨⟨?_, trivial, ?_, ?_, trivial, trivial, trivial, trivial, ?_, ?_, trivial, trivial⟩, ?_, by decide +kernel,
    .inr ⟨101, by decide +kernel⟩, by decide +kernel⟩
  all_goals
    rintro (_ | _ | _ | t) <;>
    first
      | decide +kernel
      | (simp [step, init, register, regNode, notify, unregister, Demo.C55.calmOps, run, upd_apply, Phase.Withdraws,
          Phase.Concerns]; done)

/-- The other direction, for all interleavings: once the offer of an event has been withdrawn and no operation on the event is under
way, its flag is not set, so that a later offer does not start with an outdated flag. -/
theorem flag_reset (ops : List Op) (e : Nat) (hoff : (watch init .empty ops).offered e = false)
    (hq : Quiet (run init ops) e) : announces (run init ops) e = false := by
  have hf := faithful_run (ops := ops) faithful_init
  cases h : announces (run init ops) e with
  | false => rfl
  | true =>
    rcases flagOk_run (ops := ops) (s := init) (fun e h => by cases h) e h with ho | ⟨t, ht⟩
    · rw [hf.offered e, hoff] at ho; cases ho
    · exact absurd (by rw [ht]; rfl) (hq t)

/-- A handler is registered while the offer is being withdrawn, and the report comes after the withdrawal. -/
example : let ops : List Op := [.offer 0 7, .go 0, .go 0, .register 1 7, .stopOffer 0 7, .go 1, .go 0]
    (watch init .empty ops).offered 7 = false ∧ (watch init .empty ops).Interested 7 ∧ Quiet (run init ops) 7 := by
  refine ⟨by decide +kernel, .inl ⟨0, by decide +kernel⟩, ?_⟩
  intro t
  rw [Demo.C55.all_idle 2 (by simp) (by decide +kernel)]
  exact id

/-- The property does not hold for all interleavings: the last local handler is unregistered by one thread while another thread
registers a new one; the two status reports are made in the other order, and the event stays silent although a handler is
registered and nothing is under way any more. -/
theorem overtaken_report_silences_event : ∃ ops : List Op,
    (∀ t, (run init ops).th t = .idle) ∧ (run init ops).offered 7 = true ∧ (run init ops).handlers 7 = [1] ∧
      announces (run init ops) 7 = false := by
  refine ⟨[.offer 0 7, .go 0, .go 0, .register 1 7, .go 1, .unregister 1 7 0, .register 2 7, .go 2, .go 1], ?_, by decide +kernel,
    by decide +kernel, by decide +kernel⟩
  exact Demo.C55.all_idle 3 (by simp) (by decide +kernel)

/-- The same with a message: the last remote node withdraws its interest while a local handler is registered. The message handler
has looked at the local handlers before. -/
theorem overtaken_message_silences_event : ∃ ops : List Op,
    (∀ t, (run init ops).th t = .idle) ∧ (run init ops).offered 7 = true ∧ (run init ops).handlers 7 = [0] ∧
      announces (run init ops) 7 = false := by
  refine ⟨[.offer 0 7, .go 0, .go 0, .regMsg 1 7 100, .go 1, .go 1, .unregMsg 1 7 100, .register 2 7, .go 1, .go 1], ?_,
    by decide +kernel, by decide +kernel, by decide +kernel⟩
  exact Demo.C55.all_idle 3 (by simp) (by decide +kernel)

/-- A node declared outdated while the event is being offered can have the same effect: a handler registered meanwhile relied on
the node's registration having been reported. -/
theorem outdated_node_silences_event : ∃ ops : List Op,
    (∀ t, (run init ops).th t = .idle) ∧ (run init ops).offered 7 = true ∧ (run init ops).handlers 7 = [0] ∧
      announces (run init ops) 7 = false := by
  refine ⟨[.regMsg 1 7 100, .go 1, .go 1, .offer 0 7, .go 0, .register 2 7, .outdated 100, .go 0], ?_,
    by decide +kernel, by decide +kernel, by decide +kernel⟩
  exact Demo.C55.all_idle 3 (by simp) (by decide +kernel)

end Verif.Props.C55
