import Verif.Proofs.SkelSafe

/-!
# While the service is offered, everything is
-/
namespace Verif.SkelOffer
open Verif.SkelOfferSpec

variable {V : Type}

/-! ## The tags of the fields -/

/-- The field has the tags it was declared with. -/
def Tagged (tags : List Tags) (i : Nat) (f : Fld V) : Prop :=
  tags[i]? = some ⟨f.getter, f.setter⟩

theorem tagged_closed (tags : List Tags) : Closed (Tagged (V := V) tags) where
  prepare := by
    intro m i f f' a b r h e
    obtain ⟨h1, h2, _⟩ := Fld.prepare_spec e
    unfold Tagged; rw [h1, h2]; exact h
  stop := by
    intro m i f f' h e
    unfold Fld.stop at e
    split at e
    · cases e
    · simp only [Except.ok.injEq] at e
      subst e; exact h

theorem tagged_step {tags : List Tags} {s t : St V} {o : Op V} {r : Ret V}
    (h : FieldsAll (Tagged tags) s.fields) (e : s.step o = .ok (t, r)) :
    FieldsAll (Tagged tags) t.fields := by
  cases o with
  | offer env => exact offer_pres (tagged_closed tags) (fun _ _ x => x) h e
  | stopOffer u d => exact stopOffer_pres (tagged_closed tags) (fun _ _ _ x => x) h e
  | send i v slot =>
    simp only [St.step] at e
    split at e
    · simp only [Except.ok.injEq, Prod.mk.injEq] at e; rw [← e.1]; exact h
    · split at e
      · cases e
      · simp only [Except.ok.injEq, Prod.mk.injEq] at e; rw [← e.1]; exact h
  | update i v slot =>
    simp only [St.step] at e
    split at e
    · simp only [Except.ok.injEq, Prod.mk.injEq] at e; rw [← e.1]; exact h
    · rename_i f hf
      split at e
      · cases e
      · rename_i er f' hu
        simp only [Except.ok.injEq, Prod.mk.injEq] at e
        rw [← e.1]
        refine h.set ?_
        have := h i f hf
        rcases Fld.update_spec hu with ⟨_, _, rfl⟩ | ⟨_, _, rfl⟩ | ⟨_, _, rfl⟩ <;> exact this
  | setHandler i g =>
    simp only [St.step] at e
    split at e
    · simp only [Except.ok.injEq, Prod.mk.injEq] at e; rw [← e.1]; exact h
    · rename_i f hf
      have := h i f hf
      split at e
      · simp only [Except.ok.injEq, Prod.mk.injEq] at e; rw [← e.1]; exact h.set this
      · simp only [Except.ok.injEq, Prod.mk.injEq] at e; rw [← e.1]; exact h
  | method i => simp only [St.step, Except.ok.injEq, Prod.mk.injEq] at e; rw [← e.1]; exact h
  | call c =>
    rcases call_spec e with ⟨rfl, _⟩ | ⟨i, v, slot, f, g, _, hf, _, _, _, _, rfl⟩
    · exact h
    · exact h.set (h i f hf)

theorem tagged_run {n k : Nat} {tags : List Tags} {old : Option (Nat → Option V)}
    {os : List (Op V)} {s : St V} {h : History V}
    (hr : run (start n tags k old) os = .ok (s, h)) : FieldsAll (Tagged tags) s.fields := by
  refine run_induct (P := fun s _ => FieldsAll (Tagged tags) s.fields) ?_
    (fun _ _ _ _ _ hi e => tagged_step hi e) hr
  intro i f hf
  simp only [start, List.getElem?_map, List.getElem?_zipIdx] at hf
  cases ht : tags[i]? with
  | none => rw [ht] at hf; cases hf
  | some x =>
    rw [ht] at hf
    simp only [Option.map_some, Option.some.injEq] at hf
    subst hf
    exact ht

/-! ## Offered -/

/-- The field is offered in the memory `m` with all its handlers. -/
def ReadyF (m : Option Nat) (_ : Nat) (f : Fld V) : Prop :=
  f.prepared = true ∧ f.ev.flag = true ∧ f.ev.views = m ∧
  (f.getter = true → f.getHandler = true) ∧ (f.setter = true → f.handler.isSome = true)

/-- The service is offered. -/
structure Ready (s : St V) : Prop where
  bound : s.bound = true
  listed : s.listed = true
  mem : s.mem.isSome = true
  events : ∀ e ∈ s.events, e.flag = true ∧ e.views = s.mem
  fields : FieldsAll (ReadyF s.mem) s.fields

theorem offer_ready {s t : St V} {env : Env} (e : s.offer env = .ok (t, .done)) : Ready t := by
  obtain ⟨h1, _, h3, _, h5, h6, h7⟩ := offer_done e
  have ha : t.allHandlers = true := by
    rcases offer_spec e with ⟨_, h⟩ | ⟨u, hb, he⟩
    · cases h
    · cases he with
      | done es fs _ _ _ hA => exact hA
  refine ⟨h3, h1, h5, h6, ?_⟩
  intro i f hf
  obtain ⟨a, b, c⟩ := h7 i f hf
  simp only [St.allHandlers, Bool.and_eq_true, List.all_eq_true] at ha
  have := ha.2 f (List.mem_of_getElem? hf)
  simp only [Bool.or_eq_true, Bool.not_eq_true'] at this
  refine ⟨a, b, c, ?_, ?_⟩
  · intro hg
    rcases this.1 with h | h
    · rw [hg] at h; cases h
    · exact h
  · intro hg
    rcases this.2 with h | h
    · rw [hg] at h; cases h
    · exact h

theorem plain_ready {s t : St V} {o : Op V} {r : Ret V} (h : Ready s)
    (ho : ∀ env, o ≠ .offer env) (hs : ∀ u d, o ≠ .stopOffer u d)
    (e : s.step o = .ok (t, r)) : Ready t := by
  obtain ⟨h1, _, h3, h4, _, _⟩ := plain_off ho hs e
  refine ⟨h1.trans h.bound, h3.trans h.listed, by rw [h4]; exact h.mem, ?_, ?_⟩
  · rw [h4]
    cases o with
    | offer env => exact absurd rfl (ho env)
    | stopOffer u d => exact absurd rfl (hs u d)
    | send i v slot =>
      simp only [St.step] at e
      split at e
      · simp only [Except.ok.injEq, Prod.mk.injEq] at e; rw [← e.1]; exact h.events
      · rename_i x hx
        split at e
        · cases e
        · rename_i er x' hs
          simp only [Except.ok.injEq, Prod.mk.injEq] at e
          rw [← e.1]
          intro y hy
          rcases List.mem_or_eq_of_mem_set hy with hy | rfl
          · exact h.events y hy
          · have := h.events x (List.mem_of_getElem? hx)
            rcases Ev.send_spec hs with ⟨_, rfl, _⟩ | ⟨_, rfl⟩ <;> exact this
    | update i v slot =>
      simp only [St.step] at e
      split at e
      · simp only [Except.ok.injEq, Prod.mk.injEq] at e; rw [← e.1]; exact h.events
      · split at e
        · cases e
        · simp only [Except.ok.injEq, Prod.mk.injEq] at e; rw [← e.1]; exact h.events
    | setHandler i g =>
      simp only [St.step] at e
      split at e
      · simp only [Except.ok.injEq, Prod.mk.injEq] at e; rw [← e.1]; exact h.events
      · split at e <;> simp only [Except.ok.injEq, Prod.mk.injEq] at e <;> rw [← e.1] <;>
          exact h.events
    | method i =>
      simp only [St.step, Except.ok.injEq, Prod.mk.injEq] at e; rw [← e.1]; exact h.events
    | call c =>
      rcases call_spec e with ⟨rfl, _⟩ | ⟨i, v, slot, f, g, _, _, _, _, _, _, rfl⟩ <;>
        exact h.events
  · rw [h4]
    cases o with
    | offer env => exact absurd rfl (ho env)
    | stopOffer u d => exact absurd rfl (hs u d)
    | send i v slot =>
      simp only [St.step] at e
      split at e
      · simp only [Except.ok.injEq, Prod.mk.injEq] at e; rw [← e.1]; exact h.fields
      · split at e
        · cases e
        · simp only [Except.ok.injEq, Prod.mk.injEq] at e; rw [← e.1]; exact h.fields
    | update i v slot =>
      simp only [St.step] at e
      split at e
      · simp only [Except.ok.injEq, Prod.mk.injEq] at e; rw [← e.1]; exact h.fields
      · rename_i f hf
        split at e
        · cases e
        · rename_i er f' hu
          simp only [Except.ok.injEq, Prod.mk.injEq] at e
          rw [← e.1]
          refine h.fields.set ?_
          have := h.fields i f hf
          rcases Fld.update_spec hu with ⟨_, _, rfl⟩ | ⟨_, _, rfl⟩ | ⟨_, _, rfl⟩ <;> exact this
    | setHandler i g =>
      simp only [St.step] at e
      split at e
      · simp only [Except.ok.injEq, Prod.mk.injEq] at e; rw [← e.1]; exact h.fields
      · rename_i f hf
        have := h.fields i f hf
        split at e
        · simp only [Except.ok.injEq, Prod.mk.injEq] at e
          rw [← e.1]
          exact h.fields.set ⟨this.1, this.2.1, this.2.2.1, this.2.2.2.1, fun _ => rfl⟩
        · simp only [Except.ok.injEq, Prod.mk.injEq] at e; rw [← e.1]; exact h.fields
    | method i =>
      simp only [St.step, Except.ok.injEq, Prod.mk.injEq] at e; rw [← e.1]; exact h.fields
    | call c =>
      rcases call_spec e with ⟨rfl, _⟩ | ⟨i, v, slot, f, g, _, hf, _, _, _, _, rfl⟩
      · exact h.fields
      · exact h.fields.set (h.fields i f hf)

theorem ready_step {s t : St V} {h : History V} {o : Op V} {r : Ret V}
    (hi : isOn h = true → Ready s) (hp : Orderly h o) (e : s.step o = .ok (t, r)) :
    isOn (h ++ [(o, r)]) = true → Ready t := by
  rw [isOn_snoc]
  by_cases hof : ∃ env, o = .offer env
  · obtain ⟨env, rfl⟩ := hof
    rcases offer_ret e with rfl | ⟨er, rfl⟩
    · exact fun _ => offer_ready e
    · intro x
      have x : isOn h = true := x
      rw [hp rfl] at x; cases x
  · by_cases hst : ∃ u d, o = .stopOffer u d
    · obtain ⟨u, d, rfl⟩ := hst
      intro x; cases x
    · have ho : ∀ env, o ≠ .offer env := fun env x => hof ⟨env, x⟩
      have hs : ∀ u d, o ≠ .stopOffer u d := fun u d x => hst ⟨u, d, x⟩
      rw [switch_plain _ ho hs]
      exact fun x => plain_ready (hi x) ho hs e

theorem ready_run {n k : Nat} {tags : List Tags} {old : Option (Nat → Option V)}
    {os : List (Op V)} {s : St V} {h : History V}
    (hr : run (start n tags k old) os = .ok (s, h)) (ha : Always Orderly h)
    (hon : isOn h = true) : Ready s :=
  run_induct_always (P := fun s h => isOn h = true → Ready s) (by intro x; cases x)
    (fun _ _ _ _ _ hi hp e => ready_step hi hp e) hr ha hon

theorem offerCalled_isOn {h : History V} (x : offerCalled h = false) : isOn h = false := by
  unfold isOn
  suffices ∀ b : Bool, b = false → h.foldl switch b = false from this false rfl
  induction h with
  | nil => intro b hb; exact hb
  | cons p h ih =>
    intro b hb
    have hx : isOffer p.1 = false ∧ offerCalled h = false := by
      simpa [offerCalled] using x
    rw [List.foldl_cons]
    refine ih hx.2 _ ?_
    obtain ⟨o, r⟩ := p
    cases o with
    | offer env => cases hx.1
    | stopOffer u d => rfl
    | _ => exact hb

theorem once_orderly {h : History V} (ha : Always Once h) : Always Orderly h :=
  fun a o r b e x => offerCalled_isOn (ha a o r b e x)

/-! ## The answers -/

theorem ready_get {s : St V} {i : Nat} {f : Fld V} (h : Ready s) (hf : s.fields[i]? = some f)
    (hg : f.getter = true) (hv : f.ev.val ≠ none) :
    ∃ v, f.ev.val = some v ∧ s.step (.call (.get i true)) = .ok (s, .value v) := by
  obtain ⟨_, _, h3, h4, _⟩ := h.fields i f hf
  cases hval : f.ev.val with
  | none => exact absurd hval hv
  | some v =>
    obtain ⟨g, hm⟩ := Option.isSome_iff_exists.1 h.mem
    refine ⟨v, rfl, ?_⟩
    simp [St.step, St.call, hf, h.bound, hg, h4 hg, St.doGet, Ev.latest, h3, hm, hval]

theorem ready_set {s : St V} {i : Nat} {f : Fld V} (h : Ready s) (hf : s.fields[i]? = some f)
    (hg : f.setter = true) (v : V) :
    ∃ g, f.handler = some g ∧ Answers s (.call (.set i v true)) (.value (g v)) := by
  obtain ⟨_, h2, h3, _, h5⟩ := h.fields i f hf
  obtain ⟨g, hh⟩ := Option.isSome_iff_exists.1 (h5 hg)
  obtain ⟨m, hm⟩ := Option.isSome_iff_exists.1 h.mem
  refine ⟨g, hh, ?_⟩
  simp [Answers, St.step, St.call, hf, h.bound, hg, hh, St.doSet, Ev.send, h2, h3, hm]

end Verif.SkelOffer
