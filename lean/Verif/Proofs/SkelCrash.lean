import Verif.Proofs.SkelSafe

/-!
# Calls that cannot end the process
-/
namespace Verif.SkelOffer
open Verif.SkelOfferSpec

variable {V : Type}

/-- The event is not offered and holds no log. -/
def Off (e : Ev V) : Prop := e.flag = false ∧ e.log = none

/-- The event is offered in the memory `m`. -/
def On (m : Option Nat) (e : Ev V) : Prop :=
  e.flag = true ∧ e.views = m ∧ (e.log = none ∨ e.log = m)

theorem Ev.prepare_safe {m : Option Nat} {useLog ok : Bool} {e : Ev V} (h : Off e) :
    (ok = true ∧ ∃ e', e.prepare m useLog ok = .ok (true, e') ∧ On m e') ∨
    (ok = false ∧ e.prepare m useLog ok = .ok (false, e)) := by
  obtain ⟨_, h2⟩ := h
  cases ok <;> cases useLog <;> simp [Ev.prepare, On, h2]

theorem Ev.stop_safe {m : Option Nat} {e : Ev V} (h : On m e) :
    ∃ e', e.stop m = .ok e' ∧ Off e' := by
  obtain ⟨h1, h2, h3⟩ := h
  unfold Ev.stop
  rw [if_pos h1]
  split
  · rename_i hl; exact ⟨_, rfl, rfl, hl⟩
  · rename_i g hl
    rcases h3 with h3 | h3
    · rw [hl] at h3; cases h3
    · rw [if_pos (hl.symm.trans h3)]
      exact ⟨_, rfl, rfl, rfl⟩

theorem Ev.send_safe {g : Nat} {v : V} {slot : Bool} {e : Ev V} (h : On (some g) e) :
    ∃ er e', e.send (some g) v slot = .ok (er, e') ∧ On (some g) e' ∧
      (slot = true → er = none) := by
  obtain ⟨h1, h2, h3⟩ := h
  cases slot
  · exact ⟨some .bindingFailure, e, by simp [Ev.send, h1, h2], ⟨h1, h2, h3⟩, by simp⟩
  · exact ⟨none, { e with val := some v }, by simp [Ev.send, h1, h2], ⟨h1, h2, h3⟩, by simp⟩

theorem Ev.send_safe_off {m : Option Nat} {v : V} {slot : Bool} {e : Ev V} (h : Off e) :
    e.send m v slot = .ok (some .notOffered, e) := by
  simp [Ev.send, h.1]

theorem offerEvents_safe {m : Option Nat} {ok : Nat → Bool} : ∀ (es : List (Ev V)) (k : Nat),
    (∀ e ∈ es, Off e) → ∃ r es', offerEvents m ok k es = .ok (r, es') ∧
      ((r = true ∧ ∀ e ∈ es', On m e) ∨ (r = false ∧ ∀ e ∈ es', Off e)) := by
  intro es
  induction es with
  | nil => intro k _; exact ⟨true, [], rfl, Or.inl ⟨rfl, by simp⟩⟩
  | cons e es ih =>
    intro k h
    have h0 : Off e := h e (by simp)
    have h1 : ∀ x ∈ es, Off x := fun x hx => h x (by simp [hx])
    rcases Ev.prepare_safe (m := m) (useLog := false) (ok := ok k) h0 with
      ⟨_, e', he, hon⟩ | ⟨_, he⟩
    · obtain ⟨r, es', hes, hr⟩ := ih (k + 1) h1
      rcases hr with ⟨rfl, hall⟩ | ⟨rfl, hall⟩
      · refine ⟨true, e' :: es', by simp only [offerEvents, he, hes], Or.inl ⟨rfl, ?_⟩⟩
        simpa using ⟨hon, hall⟩
      · obtain ⟨e'', hs, hoff⟩ := Ev.stop_safe hon
        refine ⟨false, e'' :: es', by simp only [offerEvents, he, hes, hs], Or.inr ⟨rfl, ?_⟩⟩
        simpa using ⟨hoff, hall⟩
    · exact ⟨false, e :: es, by simp only [offerEvents, he], Or.inr ⟨rfl, h⟩⟩

theorem stopEvents_safe {m : Option Nat} : ∀ (es : List (Ev V)), (∀ e ∈ es, On m e) →
    ∃ es', stopEvents m es = .ok es' ∧ ∀ e ∈ es', Off e := by
  intro es
  induction es with
  | nil => intro _; exact ⟨[], rfl, by simp⟩
  | cons e es ih =>
    intro h
    obtain ⟨e', he, hoff⟩ := Ev.stop_safe (h e (by simp))
    obtain ⟨es', hes, hall⟩ := ih fun x hx => h x (by simp [hx])
    exact ⟨e' :: es', by simp only [stopEvents, he, hes], by simpa using ⟨hoff, hall⟩⟩

theorem Fld.stop_safe {m : Option Nat} {f : Fld V} (h : On m f.ev) :
    ∃ f', f.stop m = .ok f' ∧ Off f'.ev := by
  obtain ⟨e', he, hoff⟩ := Ev.stop_safe h
  exact ⟨{ f with ev := e' }, by simp only [Fld.stop, he], hoff⟩

theorem Fld.prepare_safe {g : Nat} {ok : Bool} {f : Fld V} (h : Off f.ev) :
    ∃ r f', f.prepare (some g) ok true = .ok (r, f') ∧
      ((r = none ∧ On (some g) f'.ev) ∨ (r ≠ none ∧ Off f'.ev)) := by
  have hp := Ev.prepare_safe (m := some g) (useLog := f.getter) (ok := ok) h
  unfold Fld.prepare
  split
  · rcases hp with ⟨_, e', he, hon⟩ | ⟨_, he⟩
    · exact ⟨none, { f with ev := e' }, by simp only [he], Or.inl ⟨rfl, hon⟩⟩
    · exact ⟨some .bindingFailure, f, by simp only [he], Or.inr ⟨by simp, h⟩⟩
  · split
    · exact ⟨_, f, rfl, Or.inr ⟨by simp, h⟩⟩
    · split
      · exact ⟨_, f, rfl, Or.inr ⟨by simp, h⟩⟩
      · rename_i hn
        cases hi : f.initial with
        | none => rw [hi] at hn; simp at hn
        | some v =>
          rcases hp with ⟨_, e', he, hon⟩ | ⟨_, he⟩
          · obtain ⟨er, e'', hs, hon', hd⟩ := Ev.send_safe (v := v) (slot := true) hon
            have := hd rfl
            subst this
            refine ⟨none, { f with ev := e'', getHandler := f.getHandler || f.getter,
                                   initial := none, prepared := true }, ?_, Or.inl ⟨rfl, hon'⟩⟩
            simp [he, Fld.deferred, hi, hs]
          · refine ⟨some .bindingFailure, { f with getHandler := f.getHandler || f.getter },
              ?_, Or.inr ⟨by simp, h⟩⟩
            simp only [he, hi]

theorem offerFields_safe {g : Nat} {ok slot : Nat → Bool} (hsl : ∀ i, slot i = true) :
    ∀ (fs : List (Fld V)) (k : Nat),
    (∀ f ∈ fs, Off f.ev) → ∃ r fs', offerFields (some g) ok slot k fs = .ok (r, fs') ∧
      ((r = none ∧ ∀ f ∈ fs', On (some g) f.ev) ∨ (r ≠ none ∧ ∀ f ∈ fs', Off f.ev)) := by
  intro fs
  induction fs with
  | nil => intro k _; exact ⟨none, [], rfl, Or.inl ⟨rfl, by simp⟩⟩
  | cons f fs ih =>
    intro k h
    have h0 : Off f.ev := h f (by simp)
    have h1 : ∀ x ∈ fs, Off x.ev := fun x hx => h x (by simp [hx])
    obtain ⟨r, f', hf, hr⟩ := Fld.prepare_safe (g := g) (ok := ok k) h0
    rw [← hsl k] at hf
    rcases hr with ⟨rfl, hon⟩ | ⟨hne, hoff⟩
    · obtain ⟨r, fs', hfs, hr⟩ := ih (k + 1) h1
      rcases hr with ⟨rfl, hall⟩ | ⟨hne, hall⟩
      · refine ⟨none, f' :: fs', by simp only [offerFields, hf, hfs], Or.inl ⟨rfl, ?_⟩⟩
        simpa using ⟨hon, hall⟩
      · obtain ⟨f'', hs, hoff⟩ := Fld.stop_safe hon
        cases r with
        | none => exact absurd rfl hne
        | some er =>
          refine ⟨some er, f'' :: fs', by simp only [offerFields, hf, hfs, hs],
            Or.inr ⟨by simp, ?_⟩⟩
          simpa using ⟨hoff, hall⟩
    · cases r with
      | none => exact absurd rfl hne
      | some er =>
        refine ⟨some (if er = .fieldValueIsNotValid then er else .bindingFailure), f' :: fs,
          by simp only [offerFields, hf], Or.inr ⟨by simp, ?_⟩⟩
        simpa using ⟨hoff, h1⟩

theorem stopFields_safe {m : Option Nat} : ∀ (fs : List (Fld V)), (∀ f ∈ fs, On m f.ev) →
    ∃ fs', stopFields m fs = .ok fs' ∧ ∀ f ∈ fs', Off f.ev := by
  intro fs
  induction fs with
  | nil => intro _; exact ⟨[], rfl, by simp⟩
  | cons f fs ih =>
    intro h
    obtain ⟨f', hf, hoff⟩ := Fld.stop_safe (h f (by simp))
    obtain ⟨fs', hfs, hall⟩ := ih fun x hx => h x (by simp [hx])
    exact ⟨f' :: fs', by simp only [stopFields, hf, hfs], by simpa using ⟨hoff, hall⟩⟩

/-! ## States -/

/-- The events and fields are not offered. -/
structure OffAll (s : St V) : Prop where
  events : ∀ e ∈ s.events, Off e
  fields : ∀ f ∈ s.fields, Off f.ev

/-- The events and fields are offered in the memory `g`. -/
structure OnAll (g : Nat) (s : St V) : Prop where
  mem : s.mem = some g
  marker : s.marker = true
  events : ∀ e ∈ s.events, On (some g) e
  fields : ∀ f ∈ s.fields, On (some g) f.ev

theorem OffAll.wipe {s : St V} (h : OffAll s) : OffAll s.wipe := by
  constructor
  · intro e he
    simp only [St.wipe, List.mem_map] at he
    obtain ⟨x, hx, rfl⟩ := he
    exact h.events x hx
  · intro f hf
    simp only [St.wipe, List.mem_map] at hf
    obtain ⟨x, hx, rfl⟩ := hf
    exact h.fields x hx

theorem bindStop_safe {s : St V} {unused : Bool} (h : OffAll s) (hm : s.marker = true) :
    ∃ t, s.bindStop unused = .ok t ∧ OffAll t ∧ t.bound = false := by
  unfold St.bindStop
  rw [if_pos hm]
  cases unused
  · exact ⟨_, rfl, ⟨h.events, h.fields⟩, rfl⟩
  · exact ⟨_, rfl, ⟨h.wipe.events, h.wipe.fields⟩, rfl⟩

theorem setUpMemory_safe {s t : St V} {unused created r : Bool} (h : OffAll s)
    (e : s.setUpMemory unused created = (r, t)) :
    OffAll t ∧ t.marker = s.marker ∧ t.bound = s.bound ∧ (r = true → t.mem.isSome = true) := by
  unfold St.setUpMemory at e
  split at e
  · split at e
    all_goals
      simp only [Prod.mk.injEq] at e
      obtain ⟨rfl, rfl⟩ := e
      exact ⟨⟨h.wipe.events, h.wipe.fields⟩, rfl, rfl, by simp⟩
  · simp only [Prod.mk.injEq] at e
    obtain ⟨rfl, rfl⟩ := e
    refine ⟨h, rfl, rfl, ?_⟩
    intro hx
    simp only [Bool.and_eq_true] at hx
    exact hx.1

theorem bindPrepare_safe {s t : St V} {b : Bind} {unused r : Bool} (h : OffAll s)
    (hb : s.bound = false) (e : s.bindPrepare b unused = (r, t)) :
    OffAll t ∧ (r = false → t.bound = false) ∧
      (r = true → t.marker = true ∧ t.mem.isSome = true) := by
  unfold St.bindPrepare at e
  split at e
  · simp only [Prod.mk.injEq] at e
    obtain ⟨rfl, rfl⟩ := e
    exact ⟨⟨h.events, h.fields⟩, fun _ => hb, by simp⟩
  · split at e
    · rename_i u hu
      simp only [Prod.mk.injEq] at e
      obtain ⟨rfl, rfl⟩ := e
      obtain ⟨h1, _, h3, _⟩ := setUpMemory_safe (s := { s with marker := true })
        ⟨h.events, h.fields⟩ hu
      exact ⟨h1, fun _ => h3.trans hb, by simp⟩
    · rename_i u hu
      obtain ⟨h1, h2, h3, h4⟩ := setUpMemory_safe (s := { s with marker := true })
        ⟨h.events, h.fields⟩ hu
      split at e
      · simp only [Prod.mk.injEq] at e
        obtain ⟨rfl, rfl⟩ := e
        exact ⟨h1, fun _ => h3.trans hb, by simp⟩
      · simp only [Prod.mk.injEq] at e
        obtain ⟨rfl, rfl⟩ := e
        exact ⟨⟨h1.events, h1.fields⟩, by simp, fun _ => ⟨h2, h4 rfl⟩⟩

theorem failBind_safe {s : St V} {env : Env} {er : Err} (h : OffAll s) (hm : s.marker = true) :
    ∃ t, s.failBind env er = .ok (t, .err er) ∧ OffAll t ∧ t.bound = false := by
  obtain ⟨t, e, h1, h2⟩ := bindStop_safe (unused := env.unusedEnd) h hm
  exact ⟨t, by simp only [St.failBind, e], h1, h2⟩

theorem failEvents_safe {s : St V} {env : Env} {er : Err} {g : Nat} (hg : s.mem = some g)
    (he : ∀ e ∈ s.events, On (some g) e) (hf : ∀ f ∈ s.fields, Off f.ev)
    (hm : s.marker = true) :
    ∃ t, s.failEvents env er = .ok (t, .err er) ∧ OffAll t ∧ t.bound = false := by
  obtain ⟨es, hes, hall⟩ := stopEvents_safe _ he
  obtain ⟨t, e, h⟩ := failBind_safe (s := { s with events := es }) (env := env) (er := er)
    ⟨hall, hf⟩ hm
  rw [hg] at e
  exact ⟨t, by simp only [St.failEvents, hg, hes, e], h⟩

theorem failFields_safe {s : St V} {env : Env} {er : Err} {g : Nat} (h : OnAll g s) :
    ∃ t, s.failFields env er = .ok (t, .err er) ∧ OffAll t ∧ t.bound = false := by
  obtain ⟨fs, hfs, hall⟩ := stopFields_safe _ h.fields
  obtain ⟨t, e, hx⟩ := failEvents_safe (s := { s with fields := fs }) (env := env) (er := er)
    h.mem h.events hall h.marker
  rw [h.mem] at e
  exact ⟨t, by simp only [St.failFields, h.mem, hfs, e], hx⟩

theorem offerEnd_safe {s : St V} {env : Env} {g : Nat} (h : OnAll g s) :
    ∃ t r, s.offerEnd env = .ok (t, r) ∧
      ((r = .done ∧ OnAll g t) ∨ (∃ er, r = .err er ∧ OffAll t ∧ t.bound = false)) := by
  unfold St.offerEnd
  split
  · split
    · exact ⟨_, _, rfl, Or.inl ⟨rfl, h.mem, h.marker, h.events, h.fields⟩⟩
    · obtain ⟨t, e, hx⟩ := failFields_safe (env := env) (er := .bindingFailure) h
      exact ⟨t, _, e, Or.inr ⟨_, rfl, hx⟩⟩
  · obtain ⟨t, e, hx⟩ := failFields_safe (env := env) (er := .bindingFailure) h
    exact ⟨t, _, e, Or.inr ⟨_, rfl, hx⟩⟩

/-- `OfferService` of a service that is not offered. -/
theorem offer_safe {s : St V} {env : Env} (h : OffAll s) (hb : s.bound = false)
    (hsl : ∀ i, env.slot i = true) :
    ∃ t r, s.offer env = .ok (t, r) ∧
      ((r = .done ∧ ∃ g, OnAll g t) ∨ (∃ er, r = .err er ∧ OffAll t ∧ t.bound = false)) := by
  unfold St.offer
  split
  · rename_i t ht
    obtain ⟨h1, h2, _⟩ := bindPrepare_safe h hb ht
    exact ⟨t, _, rfl, Or.inr ⟨_, rfl, h1, h2 rfl⟩⟩
  · rename_i t ht
    obtain ⟨h1, _, h3⟩ := bindPrepare_safe h hb ht
    obtain ⟨hm, hs⟩ := h3 rfl
    obtain ⟨g, hg⟩ := Option.isSome_iff_exists.1 hs
    obtain ⟨r, es, hes, hr⟩ := offerEvents_safe (m := t.mem) (ok := env.evOk) _ 0 h1.events
    unfold St.offerEventsOn
    rw [hes]
    rcases hr with ⟨rfl, hall⟩ | ⟨rfl, hall⟩
    · dsimp only
      obtain ⟨r, fs, hfs, hr⟩ := offerFields_safe (g := g) (ok := env.fldOk) hsl _ 0 h1.fields
      unfold St.offerFieldsOn
      dsimp only
      rw [hg, hfs]
      rw [hg] at hall
      cases r with
      | none =>
        rcases hr with ⟨_, hf⟩ | ⟨hne, _⟩
        · obtain ⟨u, r, e, hx⟩ := offerEnd_safe (env := env) (g := g)
            (s := { t with events := es, fields := fs, mem := some g }) ⟨rfl, hm, hall, hf⟩
          refine ⟨u, r, e, ?_⟩
          rcases hx with ⟨hr, hon⟩ | hx
          · exact Or.inl ⟨hr, g, hon⟩
          · exact Or.inr hx
        · exact absurd rfl hne
      | some er =>
        rcases hr with ⟨hne, _⟩ | ⟨_, hf⟩
        · cases hne
        · obtain ⟨u, e, hx⟩ := failEvents_safe (env := env) (g := g) (er := er)
            (s := { t with events := es, fields := fs, mem := some g }) rfl hall hf hm
          exact ⟨u, _, e, Or.inr ⟨_, rfl, hx⟩⟩
    · dsimp only
      obtain ⟨u, e, hx⟩ := failBind_safe (s := { t with events := es }) (env := env)
        (er := .bindingFailure) ⟨hall, h1.fields⟩ hm
      exact ⟨u, _, e, Or.inr ⟨_, rfl, hx⟩⟩

/-! ## Calls of consumers -/

theorem mem_set_fields {P : Fld V → Prop} {fs : List (Fld V)} {i : Nat} {f : Fld V}
    (h : ∀ x ∈ fs, P x) (hf : P f) : ∀ x ∈ fs.set i f, P x := by
  intro x hx
  rcases List.mem_or_eq_of_mem_set hx with hx | rfl
  · exact h x hx
  · exact hf

/-- A call of a consumer while the service is offered. -/
theorem call_on {s : St V} {g : Nat} (h : OnAll g s) (c : Call V) :
    ∃ t r, s.call c = .ok (t, r) ∧ OnAll g t := by
  cases c with
  | get i found =>
    simp only [St.call]
    split
    · exact ⟨_, _, rfl, h⟩
    · rename_i f hf
      split
      · have hon := h.fields f (List.mem_of_getElem? hf)
        unfold St.doGet Ev.latest
        rw [hon.2.1, h.mem]
        simp only [if_true]
        split
        · rename_i hx; cases hx
        · exact ⟨_, _, rfl, h⟩
        · exact ⟨_, _, rfl, h⟩
      · exact ⟨_, _, rfl, h⟩
  | set i v slot =>
    simp only [St.call]
    split
    · exact ⟨_, _, rfl, h⟩
    · rename_i f hf
      split
      · exact ⟨_, _, rfl, h⟩
      · rename_i hd _
        split
        · have hon := h.fields f (List.mem_of_getElem? hf)
          obtain ⟨er, e', hs, hon', _⟩ := Ev.send_safe (v := hd v) (slot := slot) hon
          unfold St.doSet
          rw [h.mem, hs]
          cases er <;> exact ⟨_, _, rfl, ⟨h.mem, h.marker, h.events,
            mem_set_fields (P := fun x => On (some g) x.ev) h.fields hon'⟩⟩
        · exact ⟨_, _, rfl, h⟩

/-- A call of a consumer while the service is not offered. -/
theorem call_off_safe {s : St V} (h : OffAll s) (c : Call V)
    (hc : s.bound = false ∨ isGet c = false) :
    ∃ t r, s.call c = .ok (t, r) ∧ OffAll t ∧ t.bound = s.bound ∧ t.marker = s.marker := by
  cases c with
  | get i found =>
    have hb : s.bound = false := by
      rcases hc with hc | hc
      · exact hc
      · cases hc
    simp only [St.call]
    split
    · exact ⟨_, _, rfl, h, rfl, rfl⟩
    · simp only [hb, Bool.false_and, Bool.false_eq_true, if_false]
      exact ⟨_, _, rfl, h, hb, rfl⟩
  | set i v slot =>
    simp only [St.call]
    split
    · exact ⟨_, _, rfl, h, rfl, rfl⟩
    · rename_i f hf
      split
      · exact ⟨_, _, rfl, h, rfl, rfl⟩
      · rename_i hd _
        split
        · have hoff := h.fields f (List.mem_of_getElem? hf)
          unfold St.doSet
          rw [Ev.send_safe_off hoff]
          exact ⟨_, _, rfl, ⟨h.events,
            mem_set_fields (P := fun x => Off x.ev) h.fields hoff⟩, rfl, rfl⟩
        · exact ⟨_, _, rfl, h, rfl, rfl⟩

theorem calls_off_safe : ∀ (cs : List (Call V)) {s : St V}, OffAll s →
    (∀ c ∈ cs, isGet c = false) →
    ∃ t, St.calls cs s = .ok t ∧ OffAll t ∧ t.marker = s.marker := by
  intro cs
  induction cs with
  | nil => intro s h _; exact ⟨s, rfl, h, rfl⟩
  | cons c cs ih =>
    intro s h hc
    obtain ⟨t, r, e, h1, _, h3⟩ := call_off_safe h c (Or.inr (hc c (by simp)))
    obtain ⟨u, e', h4, h5⟩ := ih h1 fun x hx => hc x (by simp [hx])
    exact ⟨u, by simp only [St.calls, e, e'], h4, h5.trans h3⟩

/-! ## The invariant -/

/-- The state is safe: on or off, as the history says. -/
structure InvSafe (s : St V) (h : History V) : Prop where
  offered : s.offered = isOn h
  off : isOn h = false → OffAll s ∧ s.bound = false
  on : isOn h = true → ∃ g, OnAll g s

/-- The calls other than `OfferService` and `StopOfferService`. -/
theorem plain_safe {s : St V} {o : Op V}
    (ho : ∀ env, o ≠ .offer env) (hs : ∀ u d, o ≠ .stopOffer u d) :
    (OffAll s → s.bound = false → ∃ t r, s.step o = .ok (t, r) ∧ OffAll t ∧ t.bound = false) ∧
    (∀ g, OnAll g s → ∃ t r, s.step o = .ok (t, r) ∧ OnAll g t) := by
  cases o with
  | offer env => exact absurd rfl (ho env)
  | stopOffer u d => exact absurd rfl (hs u d)
  | send i v slot =>
    simp only [St.step]
    constructor
    · intro h hb
      split
      · exact ⟨_, _, rfl, h, hb⟩
      · rename_i e he
        have hoff := h.events e (List.mem_of_getElem? he)
        rw [Ev.send_safe_off hoff]
        refine ⟨_, _, rfl, ⟨?_, h.fields⟩, hb⟩
        intro x hx
        rcases List.mem_or_eq_of_mem_set hx with hx | rfl
        · exact h.events x hx
        · exact hoff
    · intro g h
      split
      · exact ⟨_, _, rfl, h⟩
      · rename_i e he
        obtain ⟨er, e', hx, hon, _⟩ := Ev.send_safe (v := v) (slot := slot)
          (h.events e (List.mem_of_getElem? he))
        rw [h.mem, hx]
        refine ⟨_, _, rfl, rfl, h.marker, ?_, h.fields⟩
        intro x hx
        rcases List.mem_or_eq_of_mem_set hx with hx | rfl
        · exact h.events x hx
        · exact hon
  | update i v slot =>
    simp only [St.step]
    constructor
    · intro h hb
      split
      · exact ⟨_, _, rfl, h, hb⟩
      · rename_i f hf
        have hoff := h.fields f (List.mem_of_getElem? hf)
        unfold Fld.update
        rw [Ev.send_safe_off hoff]
        cases f.prepared <;> exact ⟨_, _, rfl, ⟨h.events,
          mem_set_fields (P := fun x => Off x.ev) h.fields hoff⟩, hb⟩
    · intro g h
      split
      · exact ⟨_, _, rfl, h⟩
      · rename_i f hf
        have hon := h.fields f (List.mem_of_getElem? hf)
        obtain ⟨er, e', hx, hon', _⟩ := Ev.send_safe (v := v) (slot := slot) hon
        unfold Fld.update
        rw [h.mem, hx]
        cases f.prepared
        · exact ⟨_, _, rfl, h.mem, h.marker, h.events,
            mem_set_fields (P := fun x => On (some g) x.ev) h.fields hon⟩
        · exact ⟨_, _, rfl, h.mem, h.marker, h.events,
            mem_set_fields (P := fun x => On (some g) x.ev) h.fields hon'⟩
  | setHandler i gh =>
    simp only [St.step]
    constructor
    · intro h hb
      split
      · exact ⟨_, _, rfl, h, hb⟩
      · rename_i f hf
        have hoff := h.fields f (List.mem_of_getElem? hf)
        split
        · exact ⟨_, _, rfl, ⟨h.events,
            mem_set_fields (P := fun x => Off x.ev) h.fields hoff⟩, hb⟩
        · exact ⟨_, _, rfl, h, hb⟩
    · intro g h
      split
      · exact ⟨_, _, rfl, h⟩
      · rename_i f hf
        have hon := h.fields f (List.mem_of_getElem? hf)
        split
        · exact ⟨_, _, rfl, h.mem, h.marker, h.events,
            mem_set_fields (P := fun x => On (some g) x.ev) h.fields hon⟩
        · exact ⟨_, _, rfl, h⟩
  | method i =>
    exact ⟨fun h hb => ⟨_, _, rfl, ⟨h.events, h.fields⟩, hb⟩,
      fun g h => ⟨_, _, rfl, h.mem, h.marker, h.events, h.fields⟩⟩
  | call c =>
    constructor
    · intro h hb
      obtain ⟨t, r, e, h1, h2, _⟩ := call_off_safe h c (Or.inl hb)
      exact ⟨t, r, e, h1, h2.trans hb⟩
    · intro g h
      exact call_on h c

/-- A careful call does not end the process and keeps the state safe. -/
theorem safe_step {s : St V} {h : History V} {o : Op V} (hi : InvSafe s h)
    (hp : Careful h o) : ∃ t r, s.step o = .ok (t, r) ∧ InvSafe t (h ++ [(o, r)]) := by
  by_cases hof : ∃ env, o = .offer env
  · obtain ⟨env, rfl⟩ := hof
    obtain ⟨h0, hsl⟩ := hp
    obtain ⟨hoff, hb⟩ := hi.off h0
    obtain ⟨t, r, e, hx⟩ := offer_safe hoff hb hsl
    refine ⟨t, r, e, offered_step (s := s) (o := .offer env) hi.offered e, ?_, ?_⟩
    · rw [isOn_snoc]
      rcases hx with ⟨rfl, _⟩ | ⟨er, rfl, hx⟩
      · intro y; cases y
      · exact fun _ => hx
    · rw [isOn_snoc]
      rcases hx with ⟨rfl, hon⟩ | ⟨er, rfl, hx⟩
      · exact fun _ => hon
      · intro y
        have : isOn h = true := y
        rw [h0] at this; cases this
  · by_cases hst : ∃ u d, o = .stopOffer u d
    · obtain ⟨u, d, rfl⟩ := hst
      have key : ∃ t r, s.step (.stopOffer u d) = .ok (t, r) ∧ OffAll t ∧ t.bound = false := by
        cases hon : isOn h with
        | false =>
          obtain ⟨hoff, hb⟩ := hi.off hon
          have : s.offered = false := hi.offered.trans hon
          exact ⟨s, .done, by simp [St.step, St.stopOffer, this], hoff, hb⟩
        | true =>
          obtain ⟨g, hall⟩ := hi.on hon
          have ho : s.offered = true := hi.offered.trans hon
          obtain ⟨es, hes, he⟩ := stopEvents_safe _ hall.events
          obtain ⟨fs, hfs, hf⟩ := stopFields_safe _ hall.fields
          obtain ⟨t, ht, h1, h2⟩ := calls_off_safe d
            (s := { s with listed := false, events := es, fields := fs }) ⟨he, hf⟩ hp
          obtain ⟨w, hw, h3, h4⟩ := bindStop_safe (unused := u) h1 (h2.trans hall.marker)
          refine ⟨{ w with offered := false }, .done, ?_, ⟨h3.events, h3.fields⟩, h4⟩
          rw [← hall.mem] at hes hfs
          simp only [St.step, St.stopOffer, ho, if_true, hes, hfs]
          rw [ho] at ht
          simp only [ht, hw]
      obtain ⟨t, r, e, hx⟩ := key
      refine ⟨t, r, e, offered_step hi.offered e, fun _ => hx, ?_⟩
      rw [isOn_snoc]
      intro y; cases y
    · have ho : ∀ env, o ≠ .offer env := fun env x => hof ⟨env, x⟩
      have hs : ∀ u d, o ≠ .stopOffer u d := fun u d x => hst ⟨u, d, x⟩
      obtain ⟨p1, p2⟩ := plain_safe (s := s) ho hs
      cases hon : isOn h with
      | false =>
        obtain ⟨hoff, hb⟩ := hi.off hon
        obtain ⟨t, r, e, hx⟩ := p1 hoff hb
        refine ⟨t, r, e, offered_step hi.offered e, fun _ => hx, ?_⟩
        rw [isOn_snoc, switch_plain _ ho hs, hon]
        intro y; cases y
      | true =>
        obtain ⟨g, hall⟩ := hi.on hon
        obtain ⟨t, r, e, hx⟩ := p2 g hall
        refine ⟨t, r, e, offered_step hi.offered e, ?_, fun _ => ⟨g, hx⟩⟩
        rw [isOn_snoc, switch_plain _ ho hs, hon]
        intro y; cases y

theorem safe_run {n k : Nat} {tags : List Tags} {old : Option (Nat → Option V)}
    {os : List (Op V)} {s : St V} {h : History V}
    (hr : run (start n tags k old) os = .ok (s, h)) (ha : Always Careful h) : InvSafe s h :=
  run_induct_always (P := InvSafe)
    ⟨rfl, fun _ => ⟨⟨by
        intro e he
        simp only [start, List.mem_replicate] at he
        rw [he.2]; exact ⟨rfl, rfl⟩, by
        intro f hf
        simp only [start, List.mem_map] at hf
        obtain ⟨x, _, rfl⟩ := hf
        exact ⟨rfl, rfl⟩⟩, rfl⟩, by intro x; cases x⟩
    (fun _ _ _ _ _ hi hp e => by
      obtain ⟨t, r, e', hx⟩ := safe_step hi hp
      rw [e] at e'
      cases e'
      exact hx) hr ha

end Verif.SkelOffer
