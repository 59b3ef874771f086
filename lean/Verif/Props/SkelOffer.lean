import Verif.Proofs.SkelSucceeds
import Verif.Proofs.SkelCrash
import Verif.Proofs.SkelReady
/-! C82: the value of a field.  C83: `OfferService` is all or nothing.  C84: the process survives. -/

namespace Verif.Props.C82
open Verif.SkelOffer Verif.SkelOfferSpec

variable {V : Type} {n k : Nat} {tags : List Tags} {old : Option (Nat → Option V)}
  {os : List (Op V)} {s t : St V} {h : History V}

/-- In every run: when `Get` of a consumer is answered with a value, it is the value that was given last to the field, by an accepted
`Update` of the provider or an accepted `Set` of a consumer. -/
theorem get_is_last (hr : run (start n tags k old) os = .ok (s, h)) (i : Nat) (found : Bool) (v : V)
    (e : s.step (.call (.get i found)) = .ok (t, .value v)) : lastValue i h = some v := by
  have hi := inv_run hr
  obtain ⟨f, hf, hb, hv⟩ := get_spec e
  exact ((hi.agrees i f hf).2 (hi.bound hb i f hf)).2 v hv

/-- In every run: when `Set` of a consumer is answered with a value, it is what the set handler registered last makes of the value the
consumer asked for. -/
theorem set_is_handler (hr : run (start n tags k old) os = .ok (s, h)) (i : Nat) (v w : V) (slot : Bool)
    (e : s.step (.call (.set i v slot)) = .ok (t, .value w)) : ∃ g, lastHandler i h = some g ∧ w = g v := by
  have hi := inv_run hr
  rcases call_spec (c := .set i v slot) e with ⟨_, hx⟩ | ⟨i', v', slot', f, g, hc, hf, hg, _, _, hw, _⟩
  · exact absurd rfl (hx i v slot w rfl)
  · cases hc
    cases hw
    have hh : f.handler = lastHandler i h := hi.handler i f hf
    exact ⟨g, hh ▸ hg, rfl⟩

/-- In every run: after a successful `OfferService` every field has been given a value. -/
theorem offer_done_has_value (hr : run (start n tags k old) os = .ok (s, h)) (env : Env)
    (e : s.step (.offer env) = .ok (t, .done)) (i : Nat) (hi : i < tags.length) : lastValue i h ≠ none := by
  have hinv : Inv t (h ++ [(.offer env, .done)]) := inv_step (inv_run hr) e
  have hl : i < t.fields.length := by
    rw [(step_length e).2, (length_run hr).2]; exact hi
  have hf : t.fields[i]? = some t.fields[i] := List.getElem?_eq_getElem hl
  have := ((hinv.agrees i _ hf).2 ((offer_done e).2.2.2.2.2.2 i _ hf).1).1
  dsimp only at this
  rw [lastValue_snoc] at this
  exact this

/-- If `OfferService` is called once only: while the service is offered, `Get` of a field with getter is answered with the value given
last.  (Missing: services that are offered again, see `reoffer_loses_value` and `retry_loses_value`.) -/
theorem get_answers_once_partial (hr : run (start n tags k old) os = .ok (s, h)) (ha : Always Once h) (hon : isOn h = true)
    (i : Nat) (tg : Tags) (ht : tags[i]? = some tg) (hg : tg.getter = true) :
    ∃ v, lastValue i h = some v ∧ Answers s (.call (.get i true)) (.value v) := by
  have hrd := ready_run hr (once_orderly ha) hon
  have hl : i < s.fields.length := by
    rw [(length_run hr).2]; exact (List.getElem?_eq_some_iff.1 ht).1
  have hf : s.fields[i]? = some s.fields[i] := List.getElem?_eq_getElem hl
  have htag := tagged_run hr i _ hf
  rw [Tagged, ht] at htag
  cases htag
  obtain ⟨v, _, e⟩ := ready_get hrd hf hg ((invOnce_run hr ha).value hrd.bound i _ hf (hrd.fields i _ hf).1)
  exact ⟨v, get_is_last hr i true v e, s, e⟩

/-- The same for services that are offered any number of times, if from the first `OfferService` on some consumer always uses the
shared memory. -/
theorem get_answers_used_partial (hr : run (start n tags k old) os = .ok (s, h)) (ho : Always Orderly h) (ha : Always Used h)
    (hon : isOn h = true) (i : Nat) (tg : Tags) (ht : tags[i]? = some tg) (hg : tg.getter = true) :
    ∃ v, lastValue i h = some v ∧ Answers s (.call (.get i true)) (.value v) := by
  have hrd := ready_run hr ho hon
  have hl : i < s.fields.length := by
    rw [(length_run hr).2]; exact (List.getElem?_eq_some_iff.1 ht).1
  have hf : s.fields[i]? = some s.fields[i] := List.getElem?_eq_getElem hl
  have htag := tagged_run hr i _ hf
  rw [Tagged, ht] at htag
  cases htag
  obtain ⟨v, _, e⟩ := ready_get hrd hf hg ((invUsed_run hr ha).value i _ hf (hrd.fields i _ hf).1)
  exact ⟨v, get_is_last hr i true v e, s, e⟩

/-- While the service is offered, `Set` of a field with setter is answered with what the set handler registered last returns, if a slot
is free and `OfferService` is never called while the service is offered. -/
theorem set_answers_partial (hr : run (start n tags k old) os = .ok (s, h)) (ho : Always Orderly h) (hon : isOn h = true)
    (i : Nat) (tg : Tags) (ht : tags[i]? = some tg) (hg : tg.setter = true) (v : V) :
    ∃ g, lastHandler i h = some g ∧ Answers s (.call (.set i v true)) (.value (g v)) := by
  have hrd := ready_run hr ho hon
  have hl : i < s.fields.length := by
    rw [(length_run hr).2]; exact (List.getElem?_eq_some_iff.1 ht).1
  have hf : s.fields[i]? = some s.fields[i] := List.getElem?_eq_getElem hl
  have htag := tagged_run hr i _ hf
  rw [Tagged, ht] at htag
  cases htag
  obtain ⟨g, hh, e⟩ := ready_set hrd hf hg v
  have hx : s.fields[i].handler = lastHandler i h := (inv_run hr).handler i _ hf
  exact ⟨g, hx ▸ hh, e⟩

/-- A field that is offered again has no value, if no consumer was connected in between: `Get` is answered with an error although
`OfferService` succeeded, and the provider could not have given a new value before, because `Update` is refused. -/
theorem reoffer_loses_value : ∃ (os : List (Op Nat)) (s : St Nat) (h : History Nat),
    run (start 0 [⟨true, false⟩] 0 none) os = .ok (s, h) ∧ Always Orderly h ∧ isOn h = true ∧ lastValue 0 h = some 7 ∧
    (.update 0 8 true, .err .notOffered) ∈ h ∧ Answers s (.call (.get 0 true)) (.err .bindingFailure) := by
  refine ⟨[.update 0 7 true, .offer {}, .stopOffer true [], .update 0 8 true, .offer {}], _, _, rfl, ?_, rfl, rfl, ?_, ⟨_, rfl⟩⟩
  · intro a o r b e x
    match a, e with
    | [], e => cases e; cases x
    | [_], e => cases e; rfl
    | [_, _], e => cases e; cases x
    | [_, _, _], e => cases e; cases x
    | [_, _, _, _], e => cases e; rfl
    | _ :: _ :: _ :: _ :: _ :: a, e =>
      simp only [List.cons_append, List.cons.injEq] at e
      exact absurd e.2.2.2.2.2 (by simp)
  · simp [Ret.ofErr]

/-- The same after an `OfferService` that failed because the service could not be announced: the second one succeeds and offers a field
without a value. -/
theorem retry_loses_value : ∃ (os : List (Op Nat)) (s : St Nat) (h : History Nat),
    run (start 0 [⟨true, false⟩] 0 none) os = .ok (s, h) ∧ os.map isOffer = [false, true, true] ∧ isOn h = true ∧
    lastValue 0 h = some 7 ∧ Answers s (.call (.get 0 true)) (.err .bindingFailure) :=
  ⟨[.update 0 7 true, .offer { disc := false }, .offer {}], _, _, rfl, rfl, rfl, rfl, ⟨_, rfl⟩⟩

end Verif.Props.C82

namespace Verif.Props.C83
open Verif.SkelOffer Verif.SkelOfferSpec

variable {V : Type} {n k : Nat} {tags : List Tags} {old : Option (Nat → Option V)}
  {os : List (Op V)} {s t : St V} {h : History V}

/-- In every run: after a successful `OfferService` the service can be found, and every event can be sent and every field updated. -/
theorem offer_all (hr : run (start n tags k old) os = .ok (s, h)) (env : Env) (e : s.step (.offer env) = .ok (t, .done)) :
    t.listed = true ∧ (∀ i v, i < n → Answers t (.send i v true) .done) ∧
    (∀ i v, i < tags.length → Answers t (.update i v true) .done) := by
  obtain ⟨h1, _, _, _, h5, h6, h7⟩ := offer_done e
  have hl := step_length e
  have hs := length_run hr
  refine ⟨h1, ?_, ?_⟩
  · intro i v hi
    have hlt : i < t.events.length := by rw [hl.1, hs.1]; exact hi
    have := h6 _ (List.getElem_mem hlt)
    exact send_answers v (List.getElem?_eq_getElem hlt) this.1 this.2 h5
  · intro i v hi
    have hlt : i < t.fields.length := by rw [hl.2, hs.2]; exact hi
    have hf := List.getElem?_eq_getElem hlt
    obtain ⟨a, b, c⟩ := h7 i _ hf
    exact update_answers v hf a b c h5

/-- This stays so until `StopOfferService`, if `OfferService` is never called while the service is offered.  (Missing: calls of
`OfferService` on an offered service, see `second_offer_breaks`.) -/
theorem stays_offered_partial (hr : run (start n tags k old) os = .ok (s, h)) (ho : Always Orderly h) (hon : isOn h = true) :
    s.listed = true ∧ (∀ i v, i < n → Answers s (.send i v true) .done) ∧
    (∀ i v, i < tags.length → Answers s (.update i v true) .done) := by
  have hrd := ready_run hr ho hon
  have hs := length_run hr
  refine ⟨hrd.listed, ?_, ?_⟩
  · intro i v hi
    have hlt : i < s.events.length := by rw [hs.1]; exact hi
    have := hrd.events _ (List.getElem_mem hlt)
    exact send_answers v (List.getElem?_eq_getElem hlt) this.1 this.2 hrd.mem
  · intro i v hi
    have hlt : i < s.fields.length := by rw [hs.2]; exact hi
    have hf := List.getElem?_eq_getElem hlt
    obtain ⟨a, b, c, _⟩ := hrd.fields i _ hf
    exact update_answers v hf a b c hrd.mem

/-- A failed `OfferService` on a service that is not offered leaves nothing offered, whatever failed: the service cannot be found, no
event can be sent and no call of a consumer reaches the provider. -/
theorem offer_none_partial (hr : run (start n tags k old) os = .ok (s, h)) (ho : Always Orderly h) (hoff : isOn h = false)
    (env : Env) (er : Err) (e : s.step (.offer env) = .ok (t, .err er)) :
    t.listed = false ∧ (∀ i v slot, i < n → Answers t (.send i v slot) (.err .notOffered)) ∧
    (∀ c, Answers t (.call c) .unreached) := by
  obtain ⟨ha, _⟩ := offer_fail ((invOff_run hr ho).2 hoff) e
  refine ⟨ha.listed, ?_, fun c => call_off c ha.bound⟩
  intro i v slot hi
  have hlt : i < t.events.length := by rw [(step_length e).1, (length_run hr).1]; exact hi
  exact send_off v slot (List.getElem?_eq_getElem hlt) (ha.events _ (List.getElem_mem hlt))

/-- In every run: a failed `OfferService` reports a failure of the binding or a missing value of a field; the latter only if some field
really has not been given a value. -/
theorem offer_errors (hr : run (start n tags k old) os = .ok (s, h)) (env : Env) (er : Err)
    (e : s.step (.offer env) = .ok (t, .err er)) :
    er = .bindingFailure ∨ (er = .fieldValueIsNotValid ∧ ∃ i, i < tags.length ∧ lastValue i h = none) := by
  rcases offer_codes e with hx | ⟨hx, i, f, hf, hp, hn⟩
  · exact Or.inl hx
  · refine Or.inr ⟨hx, i, ?_, ?_⟩
    · rw [← (length_run hr).2]; exact (List.getElem?_eq_some_iff.1 hf).1
    · exact (((inv_run hr).agrees i f hf).1 hp).trans hn

/-- `OfferService` succeeds if all fields have been given values, all setters and methods have handlers and nothing outside the skeleton
prevents it; after every careful run (see C84).  (Missing: services whose memory is used by consumers; other runs.) -/
theorem offer_succeeds_partial (hr : run (start n tags k old) os = .ok (s, h)) (ha : Always Careful h) (hoff : isOn h = false)
    (hv : ∀ i, i < tags.length → lastValue i h ≠ none)
    (hh : ∀ i tg, tags[i]? = some tg → tg.setter = true → lastHandler i h ≠ none)
    (hm : ∀ i, i < k → ∃ r, (.method i, r) ∈ h) (env : Env) (he : Fine env) : Answers s (.offer env) .done := by
  obtain ⟨h1, h2, h3, h4, h5, h6⟩ := he
  refine offer_succeeds ?_ ?_ ((invOff_run hr (careful_orderly ha)).2 hoff).listed h1 h2 h3 h4 h5 h6
  · intro f hf
    obtain ⟨i, hi, hx⟩ := List.getElem_of_mem hf
    have hf' : s.fields[i]? = some f := by rw [List.getElem?_eq_getElem hi, hx]
    have hi' : i < tags.length := by rw [← (length_run hr).2]; exact hi
    have hinv := inv_run hr
    have htag := tagged_run hr i f hf'
    have hH := handled_run hr i f hf'
    refine ⟨((safe_run hr ha).off hoff).1.fields f hf, ?_, ?_, fun hp => (hH hp).1⟩
    · cases hp : f.prepared with
      | true => exact Or.inl rfl
      | false =>
        refine Or.inr ?_
        have := (hinv.agrees i f hf').1 hp
        rw [← this]; exact hv i hi'
    · intro hs
      have := hinv.handler i f hf'
      rw [HandlerIs] at this
      rw [this]; exact hh i _ htag hs
  · obtain ⟨hl, hmr⟩ := methods_run hr
    rw [List.all_eq_true]
    intro x hx
    obtain ⟨i, hi, rfl⟩ := List.getElem_of_mem hx
    have := hmr i (hl ▸ hi) (hm i (hl ▸ hi))
    rw [List.getElem?_eq_getElem hi] at this
    simpa using this

/-- In every run: `StopOfferService` on an offered service succeeds or ends the process (see C84), and afterwards nothing is offered,
whatever calls of consumers were processed meanwhile. -/
theorem stop_all (hr : run (start n tags k old) os = .ok (s, h)) (hon : isOn h = true) (unused : Bool) (during : List (Call V))
    (r : Ret V) (e : s.step (.stopOffer unused during) = .ok (t, r)) :
    r = .done ∧ t.listed = false ∧ (∀ i v slot, i < n → Answers t (.send i v slot) (.err .notOffered)) ∧
    (∀ c, Answers t (.call c) .unreached) := by
  obtain ⟨ha, _⟩ := stop_off ((offered_run hr).trans hon) e
  refine ⟨(stopOffer_spec e).1, ha.listed, ?_, fun c => call_off c ha.bound⟩
  intro i v slot hi
  have hlt : i < t.events.length := by rw [(step_length e).1, (length_run hr).1]; exact hi
  exact send_off v slot (List.getElem?_eq_getElem hlt) (ha.events _ (List.getElem_mem hlt))

/-- `OfferService` on a service that is already offered fails and takes the offer back in part: the service still can be found, but its
events cannot be sent any more. -/
theorem second_offer_breaks : ∃ (os : List (Op Nat)) (s : St Nat) (h : History Nat),
    run (start 1 [] 0 none) os = .ok (s, h) ∧ h.map (·.2) = [.done, .err .bindingFailure] ∧ os.map isOffer = [true, true] ∧
    isOn h = true ∧ s.listed = true ∧ Answers s (.send 0 5 true) (.err .notOffered) :=
  ⟨[.offer {}, .offer {}], _, _, rfl, rfl, rfl, rfl, rfl, ⟨_, rfl⟩⟩

end Verif.Props.C83

namespace Verif.Props.C84
open Verif.SkelOffer Verif.SkelOfferSpec

variable {V : Type} {n k : Nat} {tags : List Tags} {old : Option (Nat → Option V)}
  {os : List (Op V)} {s : St V} {h : History V}

/-- No call ends the process of the provider, if `OfferService` is called only while the service is not offered and finds slots for the
initial values of the fields, and no `Get` is processed within `StopOfferService`.  (Missing: exactly these cases, see
`double_offer_crashes`, `full_field_crashes` and `get_in_stop_crashes`.) -/
theorem no_crash_partial (hr : run (start n tags k old) os = .ok (s, h)) (ha : Always Careful h) (o : Op V) (ho : Careful h o) :
    ∃ x, s.step o = .ok x := by
  obtain ⟨t, r, e, _⟩ := safe_step (safe_run hr ha) ho
  exact ⟨_, e⟩

/-- `OfferService` twice and then `StopOfferService`: the second stop of the binding accesses the empty optional of the marker file. -/
theorem double_offer_crashes : ∃ (os : List (Op Nat)) (s : St Nat) (h : History Nat),
    run (start 1 [] 0 none) os = .ok (s, h) ∧ os.map isOffer = [true, true] ∧
    s.step (.stopOffer true []) = .error .undefined :=
  ⟨[.offer {}, .offer {}], _, _, rfl, rfl, rfl⟩

/-- A restarted provider whose old memory is in use and has no free slot for the initial value of a field with getter: `OfferService`
fails, and when it is tried again, the process ends. -/
theorem full_field_crashes : ∃ (os : List (Op Nat)) (s : St Nat) (h : History Nat),
    run (start 0 [⟨true, false⟩] 0 (some fun _ => some 1)) os = .ok (s, h) ∧ h.map (·.2) = [.done, .err .bindingFailure] ∧
    isOn h = false ∧ s.step (.offer { unused := false }) = .error .assertion :=
  ⟨[.update 0 7 true, .offer { unused := false, slot := fun _ => false, unusedEnd := false }], _, _, rfl, rfl, rfl, rfl⟩

/-- A `Get` of a consumer that is processed while `StopOfferService` runs ends the process. -/
theorem get_in_stop_crashes : ∃ (os : List (Op Nat)) (s : St Nat) (h : History Nat),
    run (start 0 [⟨true, false⟩] 0 none) os = .ok (s, h) ∧ h.map (·.2) = [.done, .done] ∧
    s.step (.stopOffer true [.get 0 true]) = .error .assertion :=
  ⟨[.update 0 7 true, .offer {}], _, _, rfl, rfl, rfl⟩

end Verif.Props.C84

/-! ## The hypotheses are met -/

namespace Verif.Demo.SkelOffer
open Verif.SkelOffer Verif.SkelOfferSpec

/-- An event and a field with getter and setter: handler, initial value, offer, send, update, set. -/
def ops : List (Op Nat) :=
  [.setHandler 0 (· + 1), .update 0 7 true, .offer { unusedEnd := false }, .send 0 3 true, .update 0 8 true, .call (.set 0 20 true)]

example : ∃ s h, run (start 1 [⟨true, true⟩] 0 none) ops = .ok (s, h) ∧ isOn h = true ∧ lastValue 0 h = some 21 ∧
    Answers s (.call (.get 0 true)) (.value 21) :=
  ⟨_, _, rfl, rfl, rfl, ⟨_, rfl⟩⟩

/-- All hypotheses on the order of calls are met by this run. -/
theorem all_met : ∃ s h, run (start 1 [⟨true, true⟩] 0 none) ops = .ok (s, h) ∧ Always Once h ∧ Always Orderly h ∧
    Always Used h ∧ Always Careful h := by
  refine ⟨_, _, rfl, ?_, ?_, ?_, ?_⟩
  all_goals
    intro a o r b e
    match a, e with
    | [], e => cases e; first | trivial | (intro x; cases x)
    | [_], e => cases e; first | trivial | (intro x; cases x)
    | [_, _], e => cases e; first | exact ⟨rfl, fun _ => rfl⟩ | exact ⟨(by intro x; cases x), rfl⟩ | exact fun _ => rfl
    | [_, _, _], e => cases e; first | trivial | (intro x; cases x)
    | [_, _, _, _], e => cases e; first | trivial | (intro x; cases x)
    | [_, _, _, _, _], e => cases e; first | trivial | (intro x; cases x)
    | _ :: _ :: _ :: _ :: _ :: _ :: a, e =>
      simp only [List.cons_append, List.cons.injEq] at e
      exact absurd e.2.2.2.2.2.2 (by simp)

/-- A service offered twice while a consumer uses the memory keeps its value. -/
def again : List (Op Nat) :=
  [.update 0 7 true, .offer { unusedEnd := false }, .stopOffer false [], .offer { unused := false, unusedEnd := false }]

example : ∃ s h, run (start 0 [⟨true, false⟩] 0 none) again = .ok (s, h) ∧ isOn h = true ∧
    Always Orderly h ∧ Always Used h ∧ Answers s (.call (.get 0 true)) (.value 7) := by
  refine ⟨_, _, rfl, rfl, ?_, ?_, ⟨_, rfl⟩⟩
  all_goals
    intro a o r b e
    match a, e with
    | [], e => cases e; first | trivial | (intro x; cases x)
    | [_], e => cases e; first | exact fun _ => rfl | exact ⟨(by intro x; cases x), rfl⟩
    | [_, _], e => cases e; first | (intro x; cases x; done) | exact fun _ => rfl
    | [_, _, _], e => cases e; first | exact fun _ => rfl | exact ⟨fun _ => rfl, rfl⟩
    | _ :: _ :: _ :: _ :: a, e =>
      simp only [List.cons_append, List.cons.injEq] at e
      exact absurd e.2.2.2.2 (by simp)

/-- An offer that fails, with an event; then one that succeeds, and its stop. -/
example : ∃ s h, run (start 1 [] 0 none) [.offer { disc := false }, (.offer {} : Op Nat), .stopOffer false []] = .ok (s, h) ∧
    h.map (·.2) = [.err .bindingFailure, .done, .done] := ⟨_, _, rfl, rfl⟩

/-- `offer_succeeds_partial`: after a failed offer. -/
example : ∃ s h, run (start 1 [⟨true, true⟩] 1 none) [.setHandler 0 (· + 1), .method 0, .offer {}, .update 0 (7 : Nat) true] = .ok (s, h) ∧
    h.map (·.2) = [.done, .done, .err .fieldValueIsNotValid, .done] ∧ Always Careful h ∧ isOn h = false ∧ lastValue 0 h = some 7 ∧
    lastHandler 0 h ≠ none ∧ (∃ r, (.method 0, r) ∈ h) ∧ Fine {} := by
  refine ⟨_, _, rfl, rfl, ?_, rfl, rfl, (by intro x; cases x), ⟨.done, List.mem_cons_of_mem _ (List.mem_cons_self ..)⟩,
    rfl, rfl, fun _ => rfl, fun _ => rfl, fun _ => rfl, rfl⟩
  intro a o r b e
  match a, e with
  | [], e => cases e; trivial
  | [_], e => cases e; trivial
  | [_, _], e => cases e; exact ⟨rfl, fun _ => rfl⟩
  | [_, _, _], e => cases e; trivial
  | _ :: _ :: _ :: _ :: a, e =>
    simp only [List.cons_append, List.cons.injEq] at e
    exact absurd e.2.2.2.2 (by simp)

/-- An offer that fails because a field has no value. -/
example : Answers (start 0 [⟨false, false⟩] 0 none) (.offer {} : Op Nat) (.err .fieldValueIsNotValid) := ⟨_, rfl⟩

end Verif.Demo.SkelOffer
