import Verif.Proofs.Ssm
import Verif.Proofs.SsmHandler
/-!
C21, C22, C23, C76: the proxy event's subscription.

`Wish` (in Spec/Ssm.lean) is the specification: it follows what the user asked for (`sub`: the sample count of the
Subscribe call that is in force, if any) and what discovery last reported (`avail`).
-/
namespace Verif.Props.C21
open Verif.Ssm

/-- In every history, as long as the process did not terminate itself, the proxy event holds exactly one transaction log,
one subscription and the subscribed number of slots while a subscription is in force, and nothing otherwise. -/
theorem resources_balanced (pid : Nat) (ops : List Op) (h : (run (init pid) ops).dead = false) :
    ((Wish.run ops).sub = none →
      (run (init pid) ops).logs = 0 ∧ (run (init pid) ops).subs = 0 ∧ (run (init pid) ops).slots = 0) ∧
    (∀ n, (Wish.run ops).sub = some n →
      (run (init pid) ops).logs = 1 ∧ (run (init pid) ops).subs = 1 ∧ (run (init pid) ops).slots = n) := by
  have hi := run_inv (init_inv pid) rfl ops h
  refine ⟨fun e => ?_, fun n e => ?_⟩
  · have := hi.none e; exact ⟨this.2.1, this.2.2.1, this.2.2.2.1⟩
  · have := hi.some n e; exact ⟨this.2.1, this.2.2.1, this.2.2.2.1⟩

/-- At most one notification registration exists, and none without a subscription. -/
theorem one_registration (pid : Nat) (ops : List Op) (h : (run (init pid) ops).dead = false) :
    (run (init pid) ops).regs.length ≤ 1 ∧ ((Wish.run ops).sub = none → (run (init pid) ops).regs = []) := by
  have hi := run_inv (init_inv pid) rfl ops h
  refine ⟨?_, fun e => ?_⟩
  · rcases hi.regs with ⟨-, e⟩ | ⟨k, x, p, -, e⟩ <;> simp [e]
  · have hn := (hi.none e).2.2.2.2.2.2.2
    rcases hi.regs with ⟨-, e⟩ | ⟨k, x, p, e', -⟩
    · exact e
    · rw [hn] at e'; cases e'

def demo : List Op :=
  [.setHandler, .subscribe 3 true true, .stopOffer, .subscribe 3 true true, .subscribe 5 true true, .reOffer 9,
    .subscribe 4 false true]

example : (run (init 7) demo).dead = false ∧ (Wish.run demo).sub = some 3 ∧ (run (init 7) demo).slots = 3 ∧
    (run (init 7) demo).regs.length = 1 := by decide +kernel
example : (run (init 7) (demo ++ [.unsubscribe false true, .subscribe 4 true false])).dead = false ∧
    (Wish.run (demo ++ [.unsubscribe false true, .subscribe 4 true false])).sub = none ∧
    (run (init 7) (demo ++ [.unsubscribe false true, .subscribe 4 true false])).logs = 0 := by decide +kernel

end Verif.Props.C21

namespace Verif.Props.C22
open Verif.Ssm

/-- In every history, as long as the process did not terminate itself, the reported state is "not subscribed" without a
subscription, "subscribed" with a subscription and an available provider, and "pending" with a subscription and no
provider. -/
theorem state_follows (pid : Nat) (ops : List Op) (h : (run (init pid) ops).dead = false) :
    (run (init pid) ops).st =
      match (Wish.run ops).sub with
      | none => .notSubscribed
      | some _ => if (Wish.run ops).avail then .subscribed else .pending := by
  have hi := run_inv (init_inv pid) rfl ops h
  change Inv (Wish.run ops) _ at hi
  cases e : (Wish.run ops).sub with
  | none => exact (hi.none e).1
  | some n => exact (hi.some n e).1

/-- The newest transition reported to the state change handler is the reported state. -/
theorem reported_state (pid : Nat) (ops : List Op) (h : (run (init pid) ops).dead = false) :
    (run (init pid) ops).trans.head?.getD .notSubscribed = (run (init pid) ops).st :=
  (run_inv (init_inv pid) rfl ops h).trans

/-- In such histories the process never terminates itself, so the theorems above apply to all of them. -/
theorem never_terminates (pid : Nat) (ops : List Op) (h : Proper true ops) : (run (init pid) ops).dead = false := by
  have main : ∀ (ops : List Op) (w : Wish) (s : St), Inv w s → (∀ n, w.sub = some n → 0 < n) → s.dead = false →
      Proper w.avail ops → (run s ops).dead = false := by
    intro ops
    induction ops with
    | nil => intro w s _ _ hd _; exact hd
    | cons op ops ih =>
      intro w s hi hpos hd hp
      have hstep : (step s op).dead = false ∧ (∀ n, (w.step op).sub = some n → 0 < n) ∧ Proper (w.step op).avail ops := by
        unfold step
        rw [if_neg (by simp [hd])]
        cases op with
        | subscribe n lf sf =>
          obtain ⟨h0, h255, hp⟩ := hp
          refine ⟨?_, ?_, ?_⟩
          · dsimp only
            cases hw : w.sub with
            | none =>
              have hst := (hi.none hw).1
              simp only [hst]
              rw [if_neg (by omega)]
              simp only [bindSubscribe, hst, subscribeFresh]
              split
              · simpa using hd
              · split
                · simpa using hd
                · dsimp only
                  rw [if_pos rfl]
                  have hre : ∀ q : St, q.dead = false → (registerWaiting q).dead = false := by
                    intro q hq
                    unfold registerWaiting
                    split
                    · split
                      · have := (register_same q ‹_›).2.2.2.2.2.2.2.2.2.1
                        exact this.trans hq
                      · exact hq
                    · exact hq
                  simp only [transition]
                  rw [if_neg (by split <;> simp)]
                  exact hre _ hd
            | some m =>
              obtain ⟨h1, -, -, -, h5, -, -, -⟩ := hi.some m hw
              have hm := hpos m hw
              cases hwa : w.avail
              · simp only [hwa, Bool.false_eq_true, if_false] at h1
                simp only [h1, h5]; split <;> exact hd
              · simp only [hwa, if_true] at h1
                simp only [h1, h5]
                rw [if_neg (by omega)]; split <;> exact hd
          · simp only [Wish.step]; split
            · intro k hk; cases hk; exact h0
            · exact hpos
          · simp only [Wish.step]; split <;> exact hp
        | unsubscribe ih ok =>
          obtain ⟨rfl, hp⟩ := hp
          refine ⟨?_, by simp [Wish.step], hp⟩
          dsimp only
          split
          · exact hd
          · split
            · exact hd
            · rename_i hfl hst
              cases hw : w.sub with
              | none => exact absurd (hi.none hw).1 hst
              | some m =>
                obtain ⟨h1, h2, h3, h4, h5, h6, h7, h8⟩ := hi.some m hw
                unfold bindUnsubscribe
                split
                · exact hd
                · have e : (enterNotSubscribed { s with st := .notSubscribed, scope := if ih then s.scope else none } true).dead = false := by
                    have hun := (unregister_same { s with st := .notSubscribed, max := .some m, guard := true, scope := if ih then s.scope else none, subs := 0, slots := 0 })
                    unfold Same at hun
                    simp only [enterNotSubscribed, h6, Bool.true_eq_false, if_false, h5, h3, h4, false_or,
                      show ¬ ((1 : Nat) = 0) by omega, show ¬ (m < m) by omega, Nat.sub_self]
                    have hl : (unregister { s with st := .notSubscribed, max := .some m, guard := true, scope := if ih then s.scope else none, subs := 0, slots := 0 }).logs = 1 := hun.2.2.2.2.1.trans h2
                    rw [if_neg (by omega)]
                    exact hun.2.2.2.2.2.2.2.2.2.1.trans hd
                  simpa [transition] using e
        | setHandler =>
          refine ⟨?_, hpos, hp⟩
          dsimp only; unfold bindSetHandler; split
          · exact (register_same _ _).2.2.2.2.2.2.2.2.2.1.trans hd
          · exact hd
        | unsetHandler ih =>
          refine ⟨?_, hpos, hp⟩
          dsimp only; split
          · exact hd
          · unfold bindUnsetHandler; split
            · exact (unregister_same _).2.2.2.2.2.2.2.2.2.1.trans hd
            · exact hd
        | stopOffer =>
          refine ⟨?_, hpos, hp.2⟩
          dsimp only; unfold stopOffer; split
          · exact hd
          · simp only [transition]; rw [if_neg (by simp)]; exact hd
          · rename_i hst
            cases hw : w.sub with
            | none => have := (hi.none hw).1; rw [hst] at this; cases this
            | some m =>
              have := (hi.some m hw).1
              rw [hst, hp.1] at this; cases this
        | reOffer pid =>
          refine ⟨?_, hpos, hp.2⟩
          dsimp only; unfold reOffer; split
          · exact hd
          · exact hd
          · simp only [transition]; rw [if_neg (by simp)]
            exact (reregister_same _).2.2.2.2.2.2.2.2.2.1.trans hd
      exact ih (w.step op) (step s op) (step_inv hi hd op hstep.1) hstep.2.1 hstep.1 hstep.2.2
  exact main ops _ (init pid) (init_inv pid) (by simp) rfl h

/-- Two stop-offers in a row while subscribed terminate the process. -/
theorem double_stop_offer_terminates :
    (run (init 7) [.subscribe 3 true true, .stopOffer, .stopOffer]).dead = true := by decide +kernel

example : Proper true C21.demo ∧ (run (init 7) C21.demo).st = .subscribed := by
  refine ⟨?_, by decide +kernel⟩
  unfold C21.demo
  simp [Proper]
example : (run (init 7) (C21.demo ++ [.stopOffer])).st = .pending ∧
    (run (init 7) (C21.demo ++ [.stopOffer])).trans = [.pending, .subscribed, .pending, .subscribed] := by decide +kernel

end Verif.Props.C22

namespace Verif.Props.C23
open Verif.Ssm

/-- A handler set before an UnsetReceiveHandler call is never called after it, whatever follows (also if the call came
from within the handler). Handlers are numbered in the order in which they are set. -/
theorem never_called_again (pid : Nat) (before after : List Op) (inHandler : Bool) (h : Nat)
    (hh : h < (run (init pid) before).nextH) (hd : (run (init pid) before).dead = false) :
    h ∉ called (run (run (init pid) before) (.unsetHandler inHandler :: after)) := by
  have hf : Fresh (run (init pid) before).nextH (step (run (init pid) before) (.unsetHandler inHandler)) := by
    have hnone : ∀ s : St, s.dead = false → (step s (.unsetHandler inHandler)).ptr = none ∧
        s.nextH ≤ (step s (.unsetHandler inHandler)).nextH := by
      intro s hs
      unfold step
      rw [if_neg (by simp [hs])]
      dsimp only
      split
      · rename_i e; exact ⟨e, Nat.le_refl _⟩
      · unfold bindUnsetHandler
        split
        · have f := unregister_same { s with scope := if inHandler then s.scope else none, ptr := none }
          unfold Same at f
          exact ⟨f.2.2.2.2.2.2.2.2.2.2.2.1, by rw [f.2.2.2.2.2.2.2.2.2.2.2.2.2]; exact Nat.le_refl _⟩
        · exact ⟨rfl, Nat.le_refl _⟩
    obtain ⟨e1, e2⟩ := hnone _ hd
    exact ⟨e2, fun x hx => by rw [e1] at hx; cases hx⟩
  have hr := run_fresh hf after
  intro hc
  change h ∈ called (run (step (run (init pid) before) (.unsetHandler inHandler)) after) at hc
  simp only [called, List.mem_map, List.mem_filter, Bool.and_eq_true, beq_iff_eq] at hc
  obtain ⟨r, ⟨-, hp, -⟩, e⟩ := hc
  have := hr.2 _ hp
  omega

/-- Unless the subscription is pending, UnsetReceiveHandler removes the notification registration, and no registration
for a handler set before comes back. Missing for the full property: the pending state, see the next theorem. -/
theorem registration_removed_partial (pid : Nat) (before after : List Op) (inHandler : Bool)
    (hptr : (run (init pid) before).ptr ≠ none)
    (hd : (run (init pid) before).dead = false) (hst : (run (init pid) before).st ≠ .pending) :
    ∀ r ∈ (run (run (init pid) before) (.unsetHandler inHandler :: after)).regs,
      (run (init pid) before).nextH ≤ r.2.1 := by
  have hi := run_inv (init_inv pid) rfl before hd
  generalize run (init pid) before = s at *
  have hc : Clean s.nextH (step s (.unsetHandler inHandler)) := by
    unfold step
    rw [if_neg (by simp [hd])]
    dsimp only
    split
    · rename_i e; exact absurd e hptr
    · unfold bindUnsetHandler
      split
      · rename_i e
        have f := unregister_same { s with scope := if inHandler then s.scope else none, ptr := none }
        have g := unregister_regs (s := { s with scope := if inHandler then s.scope else none, ptr := none }) hi.regs
        unfold Same at f
        refine ⟨by rw [f.2.2.2.2.2.2.2.2.2.2.2.2.2]; exact Nat.le_refl _, by rw [g.2]; simp, ?_⟩
        rw [f.2.2.2.2.2.2.2.2.2.2.1]
        rw [show s.pend = none from hi.pend e]; simp
      · rename_i e
        have hns : s.st = .notSubscribed := by
          cases e' : s.st with
          | notSubscribed => rfl
          | pending => exact absurd e' hst
          | subscribed => exact absurd e' e
        have hregs : s.regs = [] := by
          have hn : s.regNo = none := by
            cases hw : (before.foldl Wish.step { sub := none, avail := true }).sub with
            | none => exact (hi.none hw).2.2.2.2.2.2.2
            | some m =>
              have := (hi.some m hw).1
              rw [hns] at this
              split at this <;> cases this
          rcases hi.regs with ⟨-, e⟩ | ⟨k, x, p, e', -⟩
          · exact e
          · rw [hn] at e'; cases e'
        exact ⟨Nat.le_refl _, by simp [hregs], by simp⟩
  exact (run_clean hc after).2.1

/-- The property as stated is false of the code: UnsetReceiveHandler while the subscription is pending leaves the old
registration, and the next re-offer repeats it towards the new provider process. (The handler is not called, see
`never_called_again`: the provider notifies in vain.) -/
theorem registration_survives_while_pending :
    (run (init 7) [.setHandler, .subscribe 3 true true, .stopOffer, .unsetHandler false, .reOffer 9]).regs =
      [(0, 0, 9)] := by decide +kernel

/-- A handler is set and called, unset from within itself, and a second handler takes its place. -/
example : called (run (init 7) [.subscribe 3 true true, .setHandler]) = [0] ∧
    (run (init 7) [.subscribe 3 true true, .setHandler]).nextH = 1 ∧
    called (run (run (init 7) [.subscribe 3 true true, .setHandler])
      [.unsetHandler true, .stopOffer, .setHandler, .reOffer 4]) = [1] := by decide +kernel

end Verif.Props.C23

namespace Verif.Props.C76
open Verif.Ssm

/-- While subscribed to an available provider, a notification calls exactly the handler that is set (`Asked` follows which
one that is: the newest one, unless UnsetReceiveHandler or Unsubscribe removed it). -/
theorem handler_called (pid : Nat) (ops : List Op) (h n : Nat) (hd : (run (init pid) ops).dead = false)
    (hh : (Asked.run pid ops).handler = some h) (hs : (Wish.run ops).sub = some n) (ha : (Wish.run ops).avail = true) :
    called (run (init pid) ops) = [h] := by
  have hi := run_hinv (init_hinv pid) rfl ops hd
  change HInv (Asked.run pid ops) _ at hi
  have hat := hi.at_ h hh
  have hb := hi.base
  rw [asked_wish] at hb
  have hst := (hb.some n hs).1
  rw [ha, if_pos rfl] at hst
  obtain ⟨k, hk⟩ := hat.sub hst
  simp [called, hk, hat.ptr, hat.scope]

/-- The one registration is with the process that offers the event now, if stop-offers and re-offers alternate. -/
theorem registered_with_provider (pid : Nat) (ops : List Op) (h n : Nat) (hd : (run (init pid) ops).dead = false)
    (hh : (Asked.run pid ops).handler = some h) (hs : (Wish.run ops).sub = some n) (ha : (Wish.run ops).avail = true)
    (halt : Alternating true ops) :
    ∃ no, (run (init pid) ops).regs = [(no, h, (Asked.run pid ops).provider)] := by
  have hi := run_hinv (init_hinv pid) rfl ops hd
  change HInv (Asked.run pid ops) _ at hi
  have hat := hi.at_ h hh
  have hb := hi.base
  rw [asked_wish] at hb
  have hst := (hb.some n hs).1
  rw [ha, if_pos rfl] at hst
  obtain ⟨k, hk⟩ := hat.sub hst
  refine ⟨k, ?_⟩
  rw [hk, run_pid (a := { wish := { sub := none, avail := true }, handler := none, count := 0, provider := pid })
    (init_inv pid) rfl ops hd rfl halt]
  rfl

/-- An Unsubscribe that ends a subscription and is not called from within a receive handler removes the handler: no handler
set before it is called after it, whatever follows. Missing for the full property: Unsubscribe from within a handler, see
`called_after_unsubscribe`. -/
theorem unsubscribe_removes_partial (pid : Nat) (before after : List Op) (n h : Nat)
    (hd : (run (init pid) before).dead = false) (hs : (Wish.run before).sub = some n) (ok : Bool)
    (hh : h < (run (init pid) before).nextH) :
    h ∉ called (run (run (init pid) before) (.unsubscribe false ok :: after)) := by
  have hi := run_inv (init_inv pid) rfl before hd
  change Inv (Wish.run before) _ at hi
  obtain ⟨h1, -, -, -, -, -, h7, -⟩ := hi.some n hs
  generalize run (init pid) before = s at *
  have hne : s.st ≠ .notSubscribed := by rw [h1]; split <;> simp
  have hex : Expired s.nextH (step s (.unsubscribe false ok)) := by
    refine ⟨?_, ?_⟩
    · rcases step_handlers s (.unsubscribe false ok) with ⟨e, -⟩ | ⟨e, -⟩ <;> omega
    · intro x hx
      exfalso
      rw [scope_unsubscribe s ok hd h7 hne] at hx
      cases hx
  have hr := run_expired hex after
  intro hc
  change h ∈ called (run (step s (.unsubscribe false ok)) after) at hc
  simp only [called, List.mem_map, List.mem_filter, Bool.and_eq_true, beq_iff_eq] at hc
  obtain ⟨r, ⟨-, -, hp⟩, e⟩ := hc
  have := hr.2 _ hp
  omega

/-- The property as stated is false of the code: after an Unsubscribe from within a receive handler (of any event) a
handler that was set while the provider was away is called again once the user subscribes again. -/
theorem called_after_unsubscribe :
    called (run (init 7) [.subscribe 3 true true, .stopOffer, .setHandler, .unsubscribe true true, .reOffer 9,
      .subscribe 3 true true]) = [0] := by decide +kernel

/-- Also without that, such a handler is registered again, with the new provider, although it is never called: the provider
notifies in vain. -/
theorem registered_after_unsubscribe :
    (run (init 7) [.subscribe 3 true true, .stopOffer, .setHandler, .unsubscribe false true, .reOffer 9,
      .subscribe 3 true true]).regs = [(0, 0, 9)] ∧
    called (run (init 7) [.subscribe 3 true true, .stopOffer, .setHandler, .unsubscribe false true, .reOffer 9,
      .subscribe 3 true true]) = [] := by decide +kernel

/-- A handler set before Subscribe, replaced while the provider is away, and called for the new provider; then removed by
Unsubscribe. -/
def demo : List Op := [.setHandler, .subscribe 3 true true, .stopOffer, .setHandler, .reOffer 9]

example : (run (init 7) demo).dead = false ∧ (Asked.run 7 demo).handler = some 1 ∧ (Wish.run demo).sub = some 3 ∧
    (Wish.run demo).avail = true ∧ (Asked.run 7 demo).provider = 9 ∧ called (run (init 7) demo) = [1] := by decide +kernel
example : Alternating true demo := by simp [demo, Alternating]
example : called (run (run (init 7) demo) [.unsubscribe false true, .subscribe 3 true true]) = [] ∧
    1 < (run (init 7) demo).nextH := by decide +kernel

end Verif.Props.C76
