import Verif.Proofs.SkelKeep

/-!
# What is offered after a call, and calls that cannot end the process
-/
namespace Verif.SkelOffer
open Verif.SkelOfferSpec

variable {V : Type}

/-! ## The number of events and fields -/

theorem offerEvents_length {m : Option Nat} {ok : Nat → Bool} : ∀ (es : List (Ev V)) (k : Nat)
    (r : Bool) (es' : List (Ev V)), offerEvents m ok k es = .ok (r, es') →
    es'.length = es.length := by
  intro es
  induction es with
  | nil =>
    intro k r es' h
    simp only [offerEvents, Except.ok.injEq, Prod.mk.injEq] at h
    rw [← h.2]
  | cons e es ih =>
    intro k r es' h
    simp only [offerEvents] at h
    split at h
    · cases h
    · simp only [Except.ok.injEq, Prod.mk.injEq] at h
      rw [← h.2]; simp
    · split at h
      · cases h
      · rename_i gs hgs
        simp only [Except.ok.injEq, Prod.mk.injEq] at h
        rw [← h.2]; simp [ih _ _ _ hgs]
      · rename_i gs hgs
        split at h
        · cases h
        · simp only [Except.ok.injEq, Prod.mk.injEq] at h
          rw [← h.2]; simp [ih _ _ _ hgs]

theorem stopEvents_length {m : Option Nat} : ∀ (es es' : List (Ev V)),
    stopEvents m es = .ok es' → es'.length = es.length := by
  intro es
  induction es with
  | nil =>
    intro es' h
    simp only [stopEvents, Except.ok.injEq] at h
    rw [← h]
  | cons e es ih =>
    intro es' h
    simp only [stopEvents] at h
    split at h
    · cases h
    · split at h
      · cases h
      · rename_i gs hgs
        simp only [Except.ok.injEq] at h
        rw [← h]; simp [ih _ hgs]

theorem offerFields_length {m : Option Nat} {ok slot : Nat → Bool} : ∀ (fs : List (Fld V))
    (k : Nat) (r : Option Err) (fs' : List (Fld V)), offerFields m ok slot k fs = .ok (r, fs') →
    fs'.length = fs.length := by
  intro fs
  induction fs with
  | nil =>
    intro k r fs' h
    simp only [offerFields, Except.ok.injEq, Prod.mk.injEq] at h
    rw [← h.2]
  | cons f fs ih =>
    intro k r fs' h
    simp only [offerFields] at h
    split at h
    · cases h
    · simp only [Except.ok.injEq, Prod.mk.injEq] at h
      rw [← h.2]; simp
    · split at h
      · cases h
      · rename_i gs hgs
        simp only [Except.ok.injEq, Prod.mk.injEq] at h
        rw [← h.2]; simp [ih _ _ _ hgs]
      · rename_i gs hgs
        split at h
        · cases h
        · simp only [Except.ok.injEq, Prod.mk.injEq] at h
          rw [← h.2]; simp [ih _ _ _ hgs]

theorem stopFields_length {m : Option Nat} : ∀ (fs fs' : List (Fld V)),
    stopFields m fs = .ok fs' → fs'.length = fs.length := by
  intro fs
  induction fs with
  | nil =>
    intro fs' h
    simp only [stopFields, Except.ok.injEq] at h
    rw [← h]
  | cons f fs ih =>
    intro fs' h
    simp only [stopFields] at h
    split at h
    · cases h
    · split at h
      · cases h
      · rename_i gs hgs
        simp only [Except.ok.injEq] at h
        rw [← h]; simp [ih _ hgs]

theorem bindStop_length {s t : St V} {unused : Bool} (e : s.bindStop unused = .ok t) :
    t.events.length = s.events.length ∧ t.fields.length = s.fields.length := by
  unfold St.bindStop at e
  split at e
  · split at e <;> simp only [Except.ok.injEq] at e <;> subst e <;> simp [St.wipe]
  · cases e

theorem offer_length {s t : St V} {env : Env} {r : Ret V} (e : s.offer env = .ok (t, r)) :
    t.events.length = s.events.length ∧ t.fields.length = s.fields.length := by
  have hbp : ∀ ok u, s.bindPrepare env.bind env.unused = (ok, u) →
      u.events.length = s.events.length ∧ u.fields.length = s.fields.length := by
    intro ok u hb
    obtain ⟨h1, h2, _⟩ := bindPrepare_spec hb
    constructor
    · rcases h2 with h2 | ⟨_, h2⟩ <;> rw [h2]
      simp
    · rcases h1 with h1 | ⟨_, h1⟩ <;> rw [h1]
      simp
  rcases offer_spec e with ⟨hb, _⟩ | ⟨u, hb, he⟩
  · exact hbp _ _ hb
  · have := hbp _ _ hb
    cases he with
    | events es _ h1 h2 =>
      have a := bindStop_length h2
      have b := offerEvents_length _ _ _ _ h1
      exact ⟨(a.1.trans b).trans this.1, a.2.trans this.2⟩
    | fields es es' fs er _ h1 h2 h3 h4 =>
      have a := bindStop_length h4
      have b := offerEvents_length _ _ _ _ h1
      have c := stopEvents_length _ _ h3
      have d := offerFields_length _ _ _ _ h2
      exact ⟨((a.1.trans c).trans b).trans this.1, (a.2.trans d).trans this.2⟩
    | late es es' fs fs' _ h1 h2 h3 h4 h5 =>
      have a := bindStop_length h5
      have b := offerEvents_length _ _ _ _ h1
      have c := stopEvents_length _ _ h4
      have d := offerFields_length _ _ _ _ h2
      have f := stopFields_length _ _ h3
      exact ⟨((a.1.trans c).trans b).trans this.1, ((a.2.trans f).trans d).trans this.2⟩
    | done es fs h1 h2 h3 h4 =>
      exact ⟨(offerEvents_length _ _ _ _ h1).trans this.1,
        (offerFields_length _ _ _ _ h2).trans this.2⟩

theorem step_length {s t : St V} {o : Op V} {r : Ret V} (e : s.step o = .ok (t, r)) :
    t.events.length = s.events.length ∧ t.fields.length = s.fields.length := by
  cases o with
  | offer env => exact offer_length e
  | stopOffer u d =>
    rcases (stopOffer_spec e).2 with ⟨_, rfl⟩ | ⟨_, es, fs, w, h1, h2, h3, rfl⟩
    · exact ⟨rfl, rfl⟩
    · have a := bindStop_length h3
      exact ⟨a.1.trans (stopEvents_length _ _ h1), a.2.trans (stopFields_length _ _ h2)⟩
  | send i v slot =>
    simp only [St.step] at e
    split at e
    · simp only [Except.ok.injEq, Prod.mk.injEq] at e; rw [← e.1]; simp
    · split at e
      · cases e
      · simp only [Except.ok.injEq, Prod.mk.injEq] at e; rw [← e.1]; simp
  | update i v slot =>
    simp only [St.step] at e
    split at e
    · simp only [Except.ok.injEq, Prod.mk.injEq] at e; rw [← e.1]; simp
    · split at e
      · cases e
      · simp only [Except.ok.injEq, Prod.mk.injEq] at e; rw [← e.1]; simp [St.putField]
  | setHandler i g =>
    simp only [St.step] at e
    split at e
    · simp only [Except.ok.injEq, Prod.mk.injEq] at e; rw [← e.1]; simp
    · split at e <;> simp only [Except.ok.injEq, Prod.mk.injEq] at e <;> rw [← e.1] <;>
        simp [St.putField]
  | method i => simp only [St.step, Except.ok.injEq, Prod.mk.injEq] at e; rw [← e.1]; simp
  | call c =>
    rcases call_spec e with ⟨rfl, _⟩ | ⟨i, v, slot, f, g, _, _, _, _, _, _, rfl⟩ <;>
      simp [St.putField]

theorem length_run {n k : Nat} {tags : List Tags} {old : Option (Nat → Option V)}
    {os : List (Op V)} {s : St V} {h : History V}
    (hr : run (start n tags k old) os = .ok (s, h)) :
    s.events.length = n ∧ s.fields.length = tags.length :=
  run_induct (P := fun s _ => s.events.length = n ∧ s.fields.length = tags.length)
    (by simp [start])
    (fun _ _ _ _ _ hi e => ⟨(step_length e).1.trans hi.1, (step_length e).2.trans hi.2⟩) hr

/-! ## After a successful `OfferService` -/

theorem offerEvents_done {m : Option Nat} {ok : Nat → Bool} : ∀ (es : List (Ev V)) (k : Nat)
    (es' : List (Ev V)), offerEvents m ok k es = .ok (true, es') →
    ∀ e ∈ es', e.flag = true ∧ e.views = m := by
  intro es
  induction es with
  | nil =>
    intro k es' h
    simp only [offerEvents, Except.ok.injEq, Prod.mk.injEq, true_and] at h
    subst h
    simp
  | cons e es ih =>
    intro k es' h
    simp only [offerEvents] at h
    split at h
    · cases h
    · cases h
    · rename_i e' he
      split at h
      · cases h
      · rename_i gs hgs
        simp only [Except.ok.injEq, Prod.mk.injEq, true_and] at h
        subst h
        intro x hx
        rcases List.mem_cons.1 hx with rfl | hx
        · exact (Ev.prepare_spec he).2.1 rfl
        · exact ih _ _ hgs x hx
      · split at h
        · cases h
        · cases h

/-- The state after a successful `OfferService`. -/
theorem offer_done {s t : St V} {env : Env} (e : s.offer env = .ok (t, .done)) :
    t.listed = true ∧ t.offered = true ∧ t.bound = true ∧ t.marker = true ∧
    t.mem.isSome = true ∧
    (∀ x ∈ t.events, x.flag = true ∧ x.views = t.mem) ∧
    FieldsAll (fun _ f => f.prepared = true ∧ f.ev.flag = true ∧ f.ev.views = t.mem) t.fields := by
  rcases offer_spec e with ⟨_, h⟩ | ⟨u, hb, he⟩
  · cases h
  · obtain ⟨h1, h2, h3⟩ := (bindPrepare_spec hb).2.2.2.2.2.1 rfl
    cases he with
    | done es fs h4 h5 h6 h7 =>
      exact ⟨rfl, rfl, h1, h2, h3, offerEvents_done _ _ _ h4, offerFields_done _ _ _ h5⟩

theorem send_answers {s : St V} {i : Nat} {e : Ev V} (v : V) (he : s.events[i]? = some e)
    (hf : e.flag = true) (hv : e.views = s.mem) (hm : s.mem.isSome = true) :
    Answers s (.send i v true) .done := by
  cases hg : s.mem with
  | none => rw [hg] at hm; cases hm
  | some g =>
    rw [hg] at hv
    simp [Answers, St.step, he, Ev.send, hf, hv, hg, Ret.ofErr]

theorem update_answers {s : St V} {i : Nat} {f : Fld V} (v : V) (he : s.fields[i]? = some f)
    (hp : f.prepared = true)
    (hf : f.ev.flag = true) (hv : f.ev.views = s.mem) (hm : s.mem.isSome = true) :
    Answers s (.update i v true) .done := by
  cases hg : s.mem with
  | none => rw [hg] at hm; cases hm
  | some g =>
    rw [hg] at hv
    simp [Answers, St.step, he, Fld.update, hp, Ev.send, hf, hv, hg, Ret.ofErr]

theorem send_off {s : St V} {i : Nat} {e : Ev V} (v : V) (slot : Bool)
    (he : s.events[i]? = some e) (hf : e.flag = false) :
    Answers s (.send i v slot) (.err .notOffered) := by
  simp [Answers, St.step, he, Ev.send, hf, Ret.ofErr]

theorem call_off {s : St V} (c : Call V) (hb : s.bound = false) :
    Answers s (.call c) .unreached := by
  refine ⟨s, ?_⟩
  cases c with
  | get i found =>
    simp only [St.step, St.call]
    split
    · rfl
    · rw [hb]; rfl
  | set i v slot =>
    simp only [St.step, St.call]
    split
    · rfl
    · split
      · rfl
      · rw [hb]; rfl

/-! ## After a failed `OfferService` and after `StopOfferService` -/

theorem stopEvents_flag {m : Option Nat} : ∀ (es es' : List (Ev V)),
    stopEvents m es = .ok es' → ∀ e ∈ es', e.flag = false := by
  intro es
  induction es with
  | nil =>
    intro es' h
    simp only [stopEvents, Except.ok.injEq] at h
    subst h
    simp
  | cons e es ih =>
    intro es' h
    simp only [stopEvents] at h
    split at h
    · cases h
    · rename_i e' he
      split at h
      · cases h
      · rename_i gs hgs
        simp only [Except.ok.injEq] at h
        subst h
        intro x hx
        rcases List.mem_cons.1 hx with rfl | hx
        · exact (Ev.stop_spec he).2
        · exact ih _ hgs x hx

theorem offerEvents_fail {m : Option Nat} {ok : Nat → Bool} : ∀ (es : List (Ev V)) (k : Nat)
    (es' : List (Ev V)), (∀ e ∈ es, e.flag = false) →
    offerEvents m ok k es = .ok (false, es') → ∀ e ∈ es', e.flag = false := by
  intro es
  induction es with
  | nil =>
    intro k es' _ h
    simp only [offerEvents, Except.ok.injEq, Prod.mk.injEq] at h
    cases h.1
  | cons e es ih =>
    intro k es' hoff h
    have h0 : e.flag = false := hoff e (by simp)
    have h1 : ∀ x ∈ es, x.flag = false := fun x hx => hoff x (by simp [hx])
    simp only [offerEvents] at h
    split at h
    · cases h
    · rename_i e' he
      simp only [Except.ok.injEq, Prod.mk.injEq, true_and] at h
      subst h
      intro x hx
      rcases List.mem_cons.1 hx with rfl | hx
      · rw [(Ev.prepare_spec he).2.2 rfl]; exact h0
      · exact h1 x hx
    · split at h
      · cases h
      · cases h
      · rename_i gs hgs
        split at h
        · cases h
        · rename_i e'' he''
          simp only [Except.ok.injEq, Prod.mk.injEq, true_and] at h
          subst h
          intro x hx
          rcases List.mem_cons.1 hx with rfl | hx
          · exact (Ev.stop_spec he'').2
          · exact ih _ _ h1 hgs x hx

theorem bindStop_flag {s t : St V} {unused : Bool} (h : ∀ e ∈ s.events, e.flag = false)
    (e : s.bindStop unused = .ok t) : ∀ e ∈ t.events, e.flag = false := by
  unfold St.bindStop at e
  split at e
  · split at e
    · simp only [Except.ok.injEq] at e
      subst e
      intro x hx
      simp only [St.wipe, List.mem_map] at hx
      obtain ⟨y, hy, rfl⟩ := hx
      exact h y hy
    · simp only [Except.ok.injEq] at e
      subst e
      exact h
  · cases e

/-- Nothing is offered. -/
structure AllOff (s : St V) : Prop where
  listed : s.listed = false
  bound : s.bound = false
  events : ∀ e ∈ s.events, e.flag = false

theorem bindPrepare_flag {s t : St V} {b : Bind} {unused ok : Bool}
    (h : ∀ e ∈ s.events, e.flag = false) (e : s.bindPrepare b unused = (ok, t)) :
    ∀ e ∈ t.events, e.flag = false := by
  rcases (bindPrepare_spec e).2.1 with hf | ⟨_, hf⟩
  · rw [hf]; exact h
  · rw [hf]
    intro x hx
    simp only [List.mem_map] at hx
    obtain ⟨y, hy, rfl⟩ := hx
    exact h y hy

/-- A failed `OfferService` of a service that is not offered. -/
theorem offer_fail {s t : St V} {env : Env} {er : Err} (h : AllOff s)
    (e : s.offer env = .ok (t, .err er)) : AllOff t ∧ t.offered = s.offered := by
  rcases offer_spec e with ⟨hb, _⟩ | ⟨u, hb, he⟩
  · obtain ⟨_, _, h1, h2, _, _, h3⟩ := bindPrepare_spec hb
    exact ⟨⟨h1.trans h.listed, (h3 rfl).trans h.bound, bindPrepare_flag h.events hb⟩, h2⟩
  · obtain ⟨_, _, h1, h2, _⟩ := bindPrepare_spec hb
    have hev := bindPrepare_flag h.events hb
    have hl : u.listed = false := h1.trans h.listed
    cases he with
    | events es _ h4 h5 =>
      obtain ⟨a, b, c⟩ := bindStop_bound h5
      exact ⟨⟨b.trans hl, a, bindStop_flag (offerEvents_fail _ _ _ hev h4) h5⟩, c.trans h2⟩
    | fields es es' fs er _ h4 h5 h6 h7 =>
      obtain ⟨a, b, c⟩ := bindStop_bound h7
      exact ⟨⟨b.trans hl, a, bindStop_flag (stopEvents_flag _ _ h6) h7⟩, c.trans h2⟩
    | late es es' fs fs' _ h4 h5 h6 h7 h8 =>
      obtain ⟨a, b, c⟩ := bindStop_bound h8
      exact ⟨⟨b.trans hl, a, bindStop_flag (stopEvents_flag _ _ h7) h8⟩, c.trans h2⟩

/-- `StopOfferService` of a service that is offered. -/
theorem stop_off {s t : St V} {u : Bool} {d : List (Call V)} {r : Ret V}
    (ho : s.offered = true) (e : s.stopOffer u d = .ok (t, r)) :
    AllOff t ∧ t.offered = false := by
  rcases (stopOffer_spec e).2 with ⟨hx, _⟩ | ⟨_, es, fs, w, h1, h2, h3, rfl⟩
  · rw [ho] at hx; cases hx
  · obtain ⟨a, b, _⟩ := bindStop_bound h3
    exact ⟨⟨b, a, fun e he => bindStop_flag (t := w) (stopEvents_flag _ _ h1) h3 e he⟩, rfl⟩

/-- The answer of `OfferService` is one of three. -/
theorem offer_ret {s t : St V} {env : Env} {r : Ret V} (e : s.offer env = .ok (t, r)) :
    r = .done ∨ ∃ er, r = .err er := by
  rcases offer_spec e with ⟨_, h⟩ | ⟨u, _, he⟩
  · exact Or.inr ⟨_, h⟩
  · cases he with
    | events => exact Or.inr ⟨_, rfl⟩
    | fields => exact Or.inr ⟨_, rfl⟩
    | late => exact Or.inr ⟨_, rfl⟩
    | done => exact Or.inl rfl

/-- The calls other than `OfferService` and `StopOfferService`. -/
theorem plain_off {s t : St V} {o : Op V} {r : Ret V}
    (ho : ∀ env, o ≠ .offer env) (hs : ∀ u d, o ≠ .stopOffer u d)
    (e : s.step o = .ok (t, r)) :
    t.bound = s.bound ∧ t.offered = s.offered ∧ t.listed = s.listed ∧ t.mem = s.mem ∧
    t.marker = s.marker ∧
    ((∀ e ∈ s.events, e.flag = false) → ∀ e ∈ t.events, e.flag = false) := by
  cases o with
  | offer env => exact absurd rfl (ho env)
  | stopOffer u d => exact absurd rfl (hs u d)
  | send i v slot =>
    simp only [St.step] at e
    split at e
    · simp only [Except.ok.injEq, Prod.mk.injEq] at e
      obtain ⟨rfl, _⟩ := e
      exact ⟨rfl, rfl, rfl, rfl, rfl, fun x => x⟩
    · rename_i x hx
      split at e
      · cases e
      · rename_i er x' hs
        simp only [Except.ok.injEq, Prod.mk.injEq] at e
        obtain ⟨rfl, _⟩ := e
        refine ⟨rfl, rfl, rfl, rfl, rfl, fun hall => ?_⟩
        have h0 := hall x (List.mem_of_getElem? hx)
        intro y hy
        rcases List.mem_or_eq_of_mem_set hy with hy | rfl
        · exact hall y hy
        · rcases Ev.send_spec hs with ⟨_, rfl, _⟩ | ⟨_, rfl⟩ <;> exact h0
  | update i v slot =>
    simp only [St.step] at e
    split at e
    · simp only [Except.ok.injEq, Prod.mk.injEq] at e
      obtain ⟨rfl, _⟩ := e
      exact ⟨rfl, rfl, rfl, rfl, rfl, fun x => x⟩
    · split at e
      · cases e
      · simp only [Except.ok.injEq, Prod.mk.injEq] at e
        obtain ⟨rfl, _⟩ := e
        exact ⟨rfl, rfl, rfl, rfl, rfl, fun x => x⟩
  | setHandler i g =>
    simp only [St.step] at e
    split at e
    · simp only [Except.ok.injEq, Prod.mk.injEq] at e
      obtain ⟨rfl, _⟩ := e
      exact ⟨rfl, rfl, rfl, rfl, rfl, fun x => x⟩
    · split at e
      all_goals
        simp only [Except.ok.injEq, Prod.mk.injEq] at e
        obtain ⟨rfl, _⟩ := e
        exact ⟨rfl, rfl, rfl, rfl, rfl, fun x => x⟩
  | method i =>
    simp only [St.step, Except.ok.injEq, Prod.mk.injEq] at e
    obtain ⟨rfl, _⟩ := e
    exact ⟨rfl, rfl, rfl, rfl, rfl, fun x => x⟩
  | call c =>
    rcases call_spec e with ⟨rfl, _⟩ | ⟨i, v, slot, f, g, _, _, _, _, _, _, rfl⟩ <;>
      exact ⟨rfl, rfl, rfl, rfl, rfl, fun x => x⟩

theorem switch_plain {o : Op V} {r : Ret V} (b : Bool) (ho : ∀ env, o ≠ .offer env)
    (hs : ∀ u d, o ≠ .stopOffer u d) : switch b (o, r) = b := by
  cases o with
  | offer env => exact absurd rfl (ho env)
  | stopOffer u d => exact absurd rfl (hs u d)
  | _ => rfl

/-- The flag of the skeleton tells whether the service is offered. -/
theorem offered_step {s t : St V} {h : History V} {o : Op V} {r : Ret V}
    (hi : s.offered = isOn h) (e : s.step o = .ok (t, r)) :
    t.offered = isOn (h ++ [(o, r)]) := by
  rw [isOn_snoc]
  by_cases hof : ∃ env, o = .offer env
  · obtain ⟨env, rfl⟩ := hof
    rcases offer_ret e with rfl | ⟨er, rfl⟩
    · exact (offer_done e).2.1
    · have : t.offered = s.offered := by
        rcases offer_spec e with ⟨hb, _⟩ | ⟨u, hb, he⟩
        · exact (bindPrepare_spec hb).2.2.2.1
        · have h2 := (bindPrepare_spec hb).2.2.2.1
          cases he with
          | events es _ h4 h5 => exact (bindStop_bound h5).2.2.trans h2
          | fields es es' fs er _ h4 h5 h6 h7 => exact (bindStop_bound h7).2.2.trans h2
          | late es es' fs fs' _ h4 h5 h6 h7 h8 => exact (bindStop_bound h8).2.2.trans h2
      rw [this, hi]; rfl
  · by_cases hst : ∃ u d, o = .stopOffer u d
    · obtain ⟨u, d, rfl⟩ := hst
      show t.offered = false
      rcases (stopOffer_spec e).2 with ⟨hx, rfl⟩ | ⟨_, es, fs, w, h1, h2, h3, rfl⟩
      · exact hx
      · rfl
    · have ho : ∀ env, o ≠ .offer env := fun env x => hof ⟨env, x⟩
      have hs : ∀ u d, o ≠ .stopOffer u d := fun u d x => hst ⟨u, d, x⟩
      rw [switch_plain _ ho hs, ← hi]
      exact (plain_off ho hs e).2.1

theorem offered_run {n k : Nat} {tags : List Tags} {old : Option (Nat → Option V)}
    {os : List (Op V)} {s : St V} {h : History V}
    (hr : run (start n tags k old) os = .ok (s, h)) : s.offered = isOn h :=
  run_induct (P := fun s h => s.offered = isOn h) rfl
    (fun _ _ _ _ _ hi e => offered_step hi e) hr

/-- While the service is not offered, nothing is. -/
def InvOff (s : St V) (h : History V) : Prop := s.offered = isOn h ∧ (isOn h = false → AllOff s)

theorem invOff_step {s t : St V} {h : History V} {o : Op V} {r : Ret V} (hi : InvOff s h)
    (hp : Orderly h o) (e : s.step o = .ok (t, r)) : InvOff t (h ++ [(o, r)]) := by
  refine ⟨offered_step hi.1 e, ?_⟩
  rw [isOn_snoc]
  by_cases hof : ∃ env, o = .offer env
  · obtain ⟨env, rfl⟩ := hof
    have h0 := hp rfl
    rcases offer_ret e with rfl | ⟨er, rfl⟩
    · intro x; cases x
    · intro _; exact (offer_fail (hi.2 h0) e).1
  · by_cases hst : ∃ u d, o = .stopOffer u d
    · obtain ⟨u, d, rfl⟩ := hst
      intro _
      cases hon : isOn h with
      | true => exact (stop_off (hi.1.trans hon) e).1
      | false =>
        have := stopOffer_off (hi.1.trans hon) e
        subst this
        exact hi.2 hon
    · have ho : ∀ env, o ≠ .offer env := fun env x => hof ⟨env, x⟩
      have hs : ∀ u d, o ≠ .stopOffer u d := fun u d x => hst ⟨u, d, x⟩
      rw [switch_plain _ ho hs]
      intro x
      have ha := hi.2 x
      obtain ⟨h1, h2, h3, _, _, h5⟩ := plain_off ho hs e
      exact ⟨h3.trans ha.listed, h1.trans ha.bound, h5 ha.events⟩

theorem invOff_run {n k : Nat} {tags : List Tags} {old : Option (Nat → Option V)}
    {os : List (Op V)} {s : St V} {h : History V}
    (hr : run (start n tags k old) os = .ok (s, h)) (ha : Always Orderly h) : InvOff s h :=
  run_induct_always
    ⟨rfl, fun _ => ⟨rfl, rfl, by
      intro e he
      simp only [start, List.mem_replicate] at he
      rw [he.2]⟩⟩
    (fun _ _ _ _ _ hi hp e => invOff_step hi hp e) hr ha

/-! ## The error for a missing value -/

theorem prepare_invalid {m : Option Nat} {a b : Bool} {f f' : Fld V}
    (h : f.prepare m a b = .ok (some .fieldValueIsNotValid, f')) :
    f.prepared = false ∧ f.initial = none := by
  unfold Fld.prepare at h
  split at h
  · split at h
    · cases h
    · cases h
    · cases h
  · rename_i hp
    split at h
    · cases h
    · split at h
      · rename_i hi
        exact ⟨by simpa using hp, by simpa using hi⟩
      · split at h
        · cases h
        · cases h
        · unfold Fld.deferred at h
          split at h
          · cases h
          · split at h
            · cases h
            · rename_i er ev hs
              simp only [Except.ok.injEq, Prod.mk.injEq, Option.some.injEq] at h
              rw [h.1] at hs
              unfold Ev.send at hs
              split at hs
              · split at hs
                · cases hs
                · split at hs
                  · split at hs <;> cases hs
                  · cases hs
              · cases hs
            · cases h

theorem offerFields_invalid {m : Option Nat} {ok slot : Nat → Bool} : ∀ (fs : List (Fld V))
    (k : Nat) (fs' : List (Fld V)),
    offerFields m ok slot k fs = .ok (some .fieldValueIsNotValid, fs') →
    ∃ (i : Nat) (f : Fld V), fs[i]? = some f ∧ f.prepared = false ∧ f.initial = none := by
  intro fs
  induction fs with
  | nil =>
    intro k fs' h
    simp only [offerFields, Except.ok.injEq, Prod.mk.injEq] at h
    cases h.1
  | cons f fs ih =>
    intro k fs' h
    simp only [offerFields] at h
    split at h
    · cases h
    · rename_i er f' hf
      simp only [Except.ok.injEq, Prod.mk.injEq, Option.some.injEq] at h
      have : er = .fieldValueIsNotValid := by
        have := h.1
        split at this
        · rename_i hx; exact hx
        · cases this
      subst this
      exact ⟨0, f, rfl, prepare_invalid hf⟩
    · split at h
      · cases h
      · cases h
      · rename_i er gs hgs
        split at h
        · cases h
        · simp only [Except.ok.injEq, Prod.mk.injEq, Option.some.injEq] at h
          rw [h.1] at hgs
          obtain ⟨i, g, hg, h1⟩ := ih _ _ hgs
          exact ⟨i + 1, g, by simpa using hg, h1⟩

theorem offerFields_codes {m : Option Nat} {ok slot : Nat → Bool} : ∀ (fs : List (Fld V))
    (k : Nat) (fs' : List (Fld V)) (er : Err),
    offerFields m ok slot k fs = .ok (some er, fs') →
    er = .bindingFailure ∨ er = .fieldValueIsNotValid := by
  intro fs
  induction fs with
  | nil =>
    intro k fs' er h
    simp only [offerFields, Except.ok.injEq, Prod.mk.injEq] at h
    cases h.1
  | cons f fs ih =>
    intro k fs' er h
    simp only [offerFields] at h
    split at h
    · cases h
    · simp only [Except.ok.injEq, Prod.mk.injEq, Option.some.injEq] at h
      rw [← h.1]
      split
      · rename_i hx; exact Or.inr hx
      · exact Or.inl rfl
    · split at h
      · cases h
      · cases h
      · rename_i er' gs hgs
        split at h
        · cases h
        · simp only [Except.ok.injEq, Prod.mk.injEq, Option.some.injEq] at h
          rw [← h.1]
          exact ih _ _ _ hgs

theorem offer_codes {s t : St V} {env : Env} {er : Err} (e : s.offer env = .ok (t, .err er)) :
    er = .bindingFailure ∨ (er = .fieldValueIsNotValid ∧
      ∃ (i : Nat) (f : Fld V), s.fields[i]? = some f ∧ f.prepared = false ∧ f.initial = none) := by
  rcases offer_spec e with ⟨_, h⟩ | ⟨u, hb, he⟩
  · simp only [Ret.err.injEq] at h; exact Or.inl h
  · cases he with
    | events => exact Or.inl rfl
    | late => exact Or.inl rfl
    | fields es es' fs er _ h4 h5 h6 h7 =>
      rcases offerFields_codes _ _ _ _ h5 with rfl | rfl
      · exact Or.inl rfl
      · right
        refine ⟨rfl, ?_⟩
        obtain ⟨i, f, hf, h1, h2⟩ := offerFields_invalid _ _ _ h5
        rcases (bindPrepare_spec hb).1 with hx | ⟨_, hx⟩
        · rw [hx] at hf; exact ⟨i, f, hf, h1, h2⟩
        · rw [hx, List.getElem?_map] at hf
          cases hg : s.fields[i]? with
          | none => rw [hg] at hf; cases hf
          | some g =>
            rw [hg] at hf
            simp only [Option.map_some, Option.some.injEq] at hf
            subst hf
            exact ⟨i, g, hg, h1, h2⟩

end Verif.SkelOffer
