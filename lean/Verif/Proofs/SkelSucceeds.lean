import Verif.Proofs.SkelReady
import Verif.Proofs.SkelCrash

/-! `OfferService` succeeds when nothing is missing. -/
namespace Verif.SkelOffer
open Verif.SkelOfferSpec

variable {V : Type}

/-- A field that was offered before has all its handlers. -/
def Handled (_ : Nat) (f : Fld V) : Prop :=
  f.prepared = true → (f.getter = true → f.getHandler = true) ∧ (f.setter = true → f.handler ≠ none)

theorem handled_prepare {m : Option Nat} {i : Nat} {f f' : Fld V} {a b : Bool} {r : Option Err}
    (h : Handled i f) (e : f.prepare m a b = .ok (r, f')) : Handled i f' := by
  unfold Fld.prepare at e
  split at e
  · split at e
    · cases e
    · simp only [Except.ok.injEq, Prod.mk.injEq] at e; rw [← e.2]; exact h
    · simp only [Except.ok.injEq, Prod.mk.injEq] at e; rw [← e.2]; exact h
  · rename_i hp
    split at e
    · simp only [Except.ok.injEq, Prod.mk.injEq] at e; rw [← e.2]; exact h
    · rename_i hm
      split at e
      · simp only [Except.ok.injEq, Prod.mk.injEq] at e; rw [← e.2]; exact h
      · split at e
        · cases e
        · simp only [Except.ok.injEq, Prod.mk.injEq] at e
          rw [← e.2]; intro x; exact absurd x hp
        · unfold Fld.deferred at e
          split at e
          · cases e
          · split at e
            · cases e
            · simp only [Except.ok.injEq, Prod.mk.injEq] at e
              rw [← e.2]; intro x; exact absurd x hp
            · simp only [Except.ok.injEq, Prod.mk.injEq] at e
              rw [← e.2]
              refine fun _ => ⟨fun g => ?_, fun g hn => hm ?_⟩
              · dsimp only at g ⊢; rw [g]; simp
              · dsimp only at g hn
                simp [Fld.setHandlerMissing, g, hn]

theorem handled_stop {m : Option Nat} {i : Nat} {f f' : Fld V} (h : Handled i f)
    (e : f.stop m = .ok f') : Handled i f' := by
  unfold Fld.stop at e
  split at e
  · cases e
  · simp only [Except.ok.injEq] at e; subst e; exact h

theorem handled_closed : Closed (Handled (V := V)) :=
  ⟨fun _ _ _ _ _ _ _ h e => handled_prepare h e, fun _ _ _ _ h e => handled_stop h e⟩

theorem handled_step {s t : St V} {o : Op V} {r : Ret V}
    (h : FieldsAll Handled s.fields) (e : s.step o = .ok (t, r)) : FieldsAll Handled t.fields := by
  cases o with
  | offer env => exact offer_pres handled_closed (fun _ _ x => x) h e
  | stopOffer u d => exact stopOffer_pres handled_closed (fun _ _ _ x => x) h e
  | send i v slot =>
    simp only [St.step] at e
    split at e
    · simp only [Except.ok.injEq, Prod.mk.injEq] at e; rw [← e.1]; exact h
    · split at e
      · cases e
      · simp only [Except.ok.injEq, Prod.mk.injEq] at e; rw [← e.1]; exact h
  | update i v slot =>
    simp only [St.step] at e
    split at e
    · simp only [Except.ok.injEq, Prod.mk.injEq] at e; rw [← e.1]; exact h
    · rename_i f hf
      split at e
      · cases e
      · rename_i er f' hu
        simp only [Except.ok.injEq, Prod.mk.injEq] at e
        rw [← e.1]
        refine h.set ?_
        have := h i f hf
        rcases Fld.update_spec hu with ⟨_, _, rfl⟩ | ⟨_, _, rfl⟩ | ⟨_, _, rfl⟩ <;> exact this
  | setHandler i g =>
    simp only [St.step] at e
    split at e
    · simp only [Except.ok.injEq, Prod.mk.injEq] at e; rw [← e.1]; exact h
    · rename_i f hf
      have := h i f hf
      split at e
      · simp only [Except.ok.injEq, Prod.mk.injEq] at e; rw [← e.1]
        refine h.set fun x => ⟨(this x).1, fun _ => ?_⟩
        simp
      · simp only [Except.ok.injEq, Prod.mk.injEq] at e; rw [← e.1]; exact h
  | method i => simp only [St.step, Except.ok.injEq, Prod.mk.injEq] at e; rw [← e.1]; exact h
  | call c =>
    rcases call_spec e with ⟨rfl, _⟩ | ⟨i, v, slot, f, g, _, hf, _, _, _, _, rfl⟩
    · exact h
    · exact h.set (h i f hf)

theorem handled_run {n k : Nat} {tags : List Tags} {old : Option (Nat → Option V)}
    {os : List (Op V)} {s : St V} {h : History V}
    (hr : run (start n tags k old) os = .ok (s, h)) : FieldsAll Handled s.fields := by
  refine run_induct (P := fun s _ => FieldsAll Handled s.fields) ?_
    (fun _ _ _ _ _ hi e => handled_step hi e) hr
  intro i f hf
  simp only [start, List.getElem?_map, List.getElem?_zipIdx] at hf
  cases ht : tags[i]? with
  | none => rw [ht] at hf; cases hf
  | some x =>
    rw [ht] at hf
    simp only [Option.map_some, Option.some.injEq] at hf
    subst hf
    intro x; cases x

/-! ## Methods -/

theorem bindStop_methods {s t : St V} {u : Bool} (e : s.bindStop u = .ok t) : t.methods = s.methods := by
  unfold St.bindStop at e
  split at e
  · split at e <;> (simp only [Except.ok.injEq] at e; subst e; rfl)
  · cases e

theorem step_methods {s t : St V} {o : Op V} {r : Ret V} (e : s.step o = .ok (t, r))
    (ho : ∀ i, o ≠ .method i) : t.methods = s.methods := by
  cases o with
  | offer env =>
    rcases offer_spec e with ⟨hb, _⟩ | ⟨u, hb, he⟩
    · exact (bindPrepare_spec hb).2.2.2.2.1
    · rw [← (bindPrepare_spec hb).2.2.2.2.1]
      cases he with
      | events es _ h1 h2 => have := bindStop_methods h2; exact this
      | fields es es' fs er _ h1 h2 h3 h4 => have := bindStop_methods h4; exact this
      | late es es' fs fs' _ h1 h2 h3 h4 h5 => have := bindStop_methods h5; exact this
      | done es fs h1 h2 h3 h4 => rfl
  | stopOffer u d =>
    rcases (stopOffer_spec e).2 with ⟨_, rfl⟩ | ⟨_, es, fs, x, _, _, hx, ht⟩
    · rfl
    · rw [ht]; have := bindStop_methods hx; exact this
  | send i v slot =>
    simp only [St.step] at e
    split at e
    · simp only [Except.ok.injEq, Prod.mk.injEq] at e; rw [← e.1]
    · split at e
      · cases e
      · simp only [Except.ok.injEq, Prod.mk.injEq] at e; rw [← e.1]
  | update i v slot =>
    simp only [St.step] at e
    split at e
    · simp only [Except.ok.injEq, Prod.mk.injEq] at e; rw [← e.1]
    · split at e
      · cases e
      · simp only [Except.ok.injEq, Prod.mk.injEq] at e
        rw [← e.1]; rfl
  | setHandler i g =>
    simp only [St.step] at e
    split at e
    · simp only [Except.ok.injEq, Prod.mk.injEq] at e; rw [← e.1]
    · split at e <;> (simp only [Except.ok.injEq, Prod.mk.injEq] at e; rw [← e.1]; try rfl)
  | method i => exact absurd rfl (ho i)
  | call c =>
    rcases call_spec e with ⟨rfl, _⟩ | ⟨i, v, slot, f, g, _, hf, _, _, _, _, rfl⟩ <;> rfl

theorem methods_run {n k : Nat} {tags : List Tags} {old : Option (Nat → Option V)}
    {os : List (Op V)} {s : St V} {h : History V} (hr : run (start n tags k old) os = .ok (s, h)) :
    s.methods.length = k ∧ ∀ i, i < k → (∃ r, (Op.method i, r) ∈ h) → s.methods[i]? = some true := by
  refine run_induct (P := fun s h => s.methods.length = k ∧
    ∀ i, i < k → (∃ r, (Op.method i, r) ∈ h) → s.methods[i]? = some true) ?_ ?_ hr
  · exact ⟨by simp [start], by intro i _ ⟨r, hm⟩; cases hm⟩
  · intro t tr o t' r ⟨hl, hi⟩ e
    by_cases ho : ∃ j, o = .method j
    · obtain ⟨j, rfl⟩ := ho
      simp only [St.step, Except.ok.injEq, Prod.mk.injEq] at e
      rw [← e.1]
      dsimp only
      refine ⟨by simpa using hl, fun i hik ⟨r', hm⟩ => ?_⟩
      rw [List.getElem?_set]
      by_cases hj : j = i
      · subst hj; simp [hl, hik]
      · rw [if_neg hj]
        refine hi i hik ⟨r', ?_⟩
        rcases List.mem_append.1 hm with hm | hm
        · exact hm
        · simp only [List.mem_singleton, Prod.mk.injEq, Op.method.injEq] at hm
          exact absurd hm.1.symm hj
    · have hm := step_methods e fun i x => ho ⟨i, x⟩
      rw [hm]
      refine ⟨hl, fun i hik ⟨r', hx⟩ => hi i hik ⟨r', ?_⟩⟩
      rcases List.mem_append.1 hx with hx | hx
      · exact hx
      · simp only [List.mem_singleton, Prod.mk.injEq] at hx
        exact absurd ⟨i, hx.1.symm⟩ ho

/-! ## Success -/

/-- A field that can be offered. -/
def Complete (f : Fld V) : Prop :=
  Off f.ev ∧ (f.prepared = true ∨ f.initial ≠ none) ∧ (f.setter = true → f.handler ≠ none) ∧
  (f.prepared = true → f.getter = true → f.getHandler = true)

theorem Fld.prepare_succeeds {g : Nat} {f : Fld V} (h : Complete f) :
    ∃ f', f.prepare (some g) true true = .ok (none, f') ∧ (f'.getter = true → f'.getHandler = true) ∧
      (f'.setter = true → f'.handler ≠ none) := by
  obtain ⟨⟨h1, h2⟩, h3, h4, h5⟩ := h
  obtain ⟨gt, st, ev, ini, pr, hd, gh⟩ := f
  dsimp only at *
  cases pr with
  | true =>
    refine ⟨⟨gt, st, { ev with flag := true, views := some g, log := bif gt then some g else ev.log }, ini, true, hd, gh⟩,
      ?_, h5 rfl, h4⟩
    cases gt <;> simp [Fld.prepare, Ev.prepare, h2]
  | false =>
    rcases h3 with h3 | h3
    · cases h3
    · obtain ⟨v, rfl⟩ := Option.ne_none_iff_exists'.1 h3
      refine ⟨⟨gt, st, { ev with flag := true, views := some g, log := bif gt then some g else ev.log, val := some v }, none, true, hd,
        gh || gt⟩, ?_, ?_, h4⟩
      · have : (st && hd.isNone) = false := by
          cases st with
          | false => rfl
          | true => cases hd with
            | none => exact absurd rfl (h4 rfl)
            | some _ => rfl
        cases gt <;> simp [Fld.prepare, Ev.prepare, h2, Fld.setHandlerMissing, this, Fld.deferred, Ev.send]
      · intro x; dsimp only at x ⊢; rw [x]; simp

theorem offerFields_succeeds {g : Nat} {ok slot : Nat → Bool} (hok : ∀ i, ok i = true) (hsl : ∀ i, slot i = true) :
    ∀ (fs : List (Fld V)) (k : Nat), (∀ f ∈ fs, Complete f) →
    ∃ fs', offerFields (some g) ok slot k fs = .ok (none, fs') ∧
      ∀ f ∈ fs', (f.getter = true → f.getHandler = true) ∧ (f.setter = true → f.handler ≠ none) := by
  intro fs
  induction fs with
  | nil => intro k _; exact ⟨[], rfl, by simp⟩
  | cons f fs ih =>
    intro k h
    obtain ⟨f', hf, h1⟩ := Fld.prepare_succeeds (g := g) (h f (by simp))
    obtain ⟨fs', hfs, h2⟩ := ih (k + 1) fun x hx => h x (by simp [hx])
    refine ⟨f' :: fs', by simp only [offerFields, hok, hsl, hf, hfs], ?_⟩
    intro x hx
    rcases List.mem_cons.1 hx with rfl | hx
    · exact h1
    · exact h2 x hx

theorem offerEvents_succeeds {m : Option Nat} {ok : Nat → Bool} (hok : ∀ i, ok i = true) :
    ∀ (es : List (Ev V)) (k : Nat), ∃ es', offerEvents m ok k es = .ok (true, es') := by
  intro es
  induction es with
  | nil => intro k; exact ⟨[], rfl⟩
  | cons e es ih =>
    intro k
    obtain ⟨es', h⟩ := ih (k + 1)
    exact ⟨{ e with flag := true, views := m } :: es', by simp [offerEvents, Ev.prepare, hok, h]⟩

theorem offer_succeeds {s : St V} {env : Env} (hf : ∀ f ∈ s.fields, Complete f)
    (hm : s.methods.all id = true) (hl : s.listed = false) (h1 : env.bind = .ok) (h2 : env.unused = true)
    (h3 : ∀ i, env.evOk i = true) (h4 : ∀ i, env.fldOk i = true) (h5 : ∀ i, env.slot i = true)
    (h6 : env.disc = true) : ∃ t, s.offer env = .ok (t, .done) := by
  unfold St.offer
  have hb : s.bindPrepare env.bind env.unused =
      (true, { ({ s with marker := true } : St V).wipe with mem := some s.next, next := s.next + 1, bound := true }) := by
    simp [St.bindPrepare, St.setUpMemory, h1, h2, St.wipe]
  rw [hb]
  dsimp only
  unfold St.offerEventsOn
  dsimp only
  obtain ⟨es, he⟩ := offerEvents_succeeds (m := some s.next) h3 (({ s with marker := true } : St V).wipe.events) 0
  rw [he]
  dsimp only
  unfold St.offerFieldsOn
  dsimp only
  obtain ⟨fs, hfs, hall⟩ := offerFields_succeeds (g := s.next) h4 h5 (({ s with marker := true } : St V).wipe.fields) 0
    (by
      intro f hx
      simp only [St.wipe, List.mem_map] at hx
      obtain ⟨f0, hx, rfl⟩ := hx
      exact hf f0 hx)
  rw [hfs]
  dsimp only
  unfold St.offerEnd
  rw [if_pos, if_pos]
  · exact ⟨_, rfl⟩
  · simp [h6, St.wipe, hl]
  · simp only [St.allHandlers, St.wipe, Bool.and_eq_true, List.all_eq_true]
    refine ⟨fun x hx => List.all_eq_true.1 hm x hx, fun f hx => ?_⟩
    obtain ⟨a, b⟩ := hall f hx
    constructor
    · cases hg : f.getter with
      | false => rfl
      | true => simp [a hg]
    · cases hg : f.setter with
      | false => rfl
      | true => simpa [Option.isSome_iff_ne_none] using b hg

theorem careful_orderly {h : History V} (ha : Always Careful h) : Always Orderly h := by
  intro a o r b e ho
  have := ha a o r b e
  cases o <;> simp_all [Careful, isOffer]

end Verif.SkelOffer
