import Verif.Proofs.TraceReg

namespace Verif.Demo.C109
open Verif.TraceReg Verif.TraceRegSpec
open Verif.TraceCall (Answer Point)

/-- Instance 7 has the events 1 and 2; event 1 is traced when it is sent. -/
def elems : Nat → List Nat := fun i => if i = 7 then [2, 1] else if i = 8 then [3] else []
def on : Point → Bool := fun p => p = ⟨7, 1, 0⟩
def mem : Mem := ⟨3, 1000, true⟩
def good : World := { mem := some mem, fresh := true, answer := .ok, handle := 5, methods := true, listed := true }
def unlisted : World := { good with listed := false }

/-- The service is offered, sent to (the trace call ends with `a`) and stopped. -/
def sent (a : Answer) : List Op :=
  [.offer 7 good false, .trace 0 ⟨7, 1, 0⟩ (some 1040), .next 0 true .ok 0, .next 0 true .ok 0, .next 0 true .ok 0,
   .next 0 true a 0, .next 0 true .ok 0, .next 0 true .ok 0, .next 0 true .ok 0]

theorem clean_sent (a : Answer) : Always CleanAt (start elems on) (sent a) :=
  ⟨⟨rfl, .inr ⟨mem, rfl, rfl, rfl⟩⟩, trivial, trivial, trivial, trivial, trivial, trivial, trivial, trivial, trivial⟩

theorem on_sent (a : Answer) : Always StillOnAt (start elems on) (sent a) :=
  ⟨trivial, trivial, trivial, trivial, trivial, trivial, trivial, trivial, trivial, trivial⟩

end Verif.Demo.C109

namespace Verif.Props.C109
open Verif.TraceReg Verif.TraceRegSpec Verif.Demo.C109
open Verif.TraceCall (Answer Point)

/-- **C109.** The trace subsystem knows the memory of a service only while the service is offered, and
then it knows the memory that the service uses.  No call ends the process.

Partial: services must not be offered twice, offers must fail early or not at all, and tracing must not be
switched off for the service before it is stopped (see `failed_offer_fails`, `second_offer_fails`
and `switched_off_fails`). -/
theorem follows_partial (elems : Nat → List Nat) (on : Point → Bool) (ops : List Op) (hc : Always CleanAt (start elems on) ops)
    (hs : Always StillOnAt (start elems on) ops) :
    (run (start elems on) ops).tr.dead = false ∧ Follows (run (start elems on) ops) :=
  ⟨(left_run ops (left_start elems on) hc).dead, follows_run ops (left_start elems on) (follows_start elems on) hc hs⟩

example : (run (start elems on) (sent .ok ++ [.stop 7 .ok false])).tr.dead = false ∧
    registered (run (start elems on) (sent .ok)) 7 = some (5, 1000) ∧
    registered (run (start elems on) (sent .ok ++ [.stop 7 .ok false])) 7 = none := by decide +kernel
example : Always CleanAt (start elems on) (sent .ok) ∧ Always StillOnAt (start elems on) (sent .ok) := ⟨clean_sent _, on_sent _⟩

/-- **C109.** Even if tracing is switched off at any time, no call ends the process. -/
theorem alive_partial (elems : Nat → List Nat) (on : Point → Bool) (ops : List Op) (hc : Always CleanAt (start elems on) ops) :
    (run (start elems on) ops).tr.dead = false := (left_run ops (left_start elems on) hc).dead

example : Always CleanAt (start elems on) (sent .terminal) := clean_sent _

/-- **C109.** A successful offer registers the memory exactly if tracing is enabled, a trace point for
sending is on for an element, the memory lies in typed memory and the subsystem accepts it; it is
registered with its start address. -/
theorem offer_registers_partial (elems : Nat → List Nat) (on : Point → Bool) (ops : List Op) (i : Nat) (w : World) (u : Bool)
    (m : Mem) (hc : Always CleanAt (start elems on) (ops ++ [.offer i w u])) (hs : Always StillOnAt (start elems on) ops)
    (hw : Succeeds w m) :
    ((run (start elems on) ops).offer i w u).2 = true ∧
    (run (start elems on) (ops ++ [.offer i w u])).offered i = true ∧
    (registered (run (start elems on) (ops ++ [.offer i w u])) i ≠ none ↔
      (run (start elems on) ops).tr.enabled = true ∧ Traced (run (start elems on) ops) i ∧ m.typed = true ∧ w.answer = .ok) ∧
    (registered (run (start elems on) (ops ++ [.offer i w u])) i ≠ none →
      registered (run (start elems on) (ops ++ [.offer i w u])) i = some (w.handle, m.start)) := by
  obtain ⟨hc1, hc2⟩ := always_append ops _ hc
  have hl := left_run ops (left_start elems on) hc1
  have hf := follows_run ops (left_start elems on) (follows_start elems on) hc1 hs
  rw [run_append]
  generalize run (start elems on) ops = s at *
  have hl' := left_op hl _ hc2.1
  show _ ∧ (s.op (.offer i w u)).offered i = true ∧ (registered (s.op (.offer i w u)) i ≠ none ↔ _) ∧
    (registered (s.op (.offer i w u)) i ≠ none → registered (s.op (.offer i w u)) i = _)
  rw [registered_eq hl'.objects]
  have hnone : s.tr.handles i = none := by
    cases hh : s.tr.handles i with
    | none => rfl
    | some v =>
      have := (hf i v.1 v.2 ((registered_eq hl.objects i).trans hh)).1
      rw [hc2.1.1] at this; cases this
  have e : s.op (.offer i w u) = (s.offer i w u).1 := by unfold St.op; rw [hl.dead]; rfl
  have hd : (s.take i w m).tr.dead = false := by
    have h1 := hl'.dead
    rw [e] at h1
    have h2 : (s.offer i w u).1.tr = (s.take i w m).tr := by
      obtain ⟨a1, a2, a3⟩ := hw
      unfold St.offer; rw [a1]; dsimp only
      repeat' split
      all_goals rfl
    rw [← h2]; exact h1
  rw [e, offer_good s i w u m hw hd]
  refine ⟨rfl, by simp [St.setOffered], ?_⟩
  show ((s.take i w m).tr.handles i ≠ none ↔ _) ∧ ((s.take i w m).tr.handles i ≠ none → (s.take i w m).tr.handles i = _)
  rw [take_eq] at hd ⊢
  dsimp only at hd ⊢
  by_cases hx : (s.wanted i && m.typed) = true
  · rw [if_pos hx] at hd ⊢
    simp only [Bool.and_eq_true] at hx
    have key : ∀ v, (s.tr.register i (s.taken i w m).fd m.start w.handle w.answer).handles i = some v →
        s.tr.enabled = true ∧ w.answer = .ok ∧ v = (w.handle, m.start) := by
      intro v hv
      rcases handles_register _ _ _ _ _ _ hd v.1 v.2 hv with h | ⟨h1, h2, h3, h4⟩
      · rw [hnone] at h; cases h
      · exact ⟨h1, h2, Prod.ext h3 h4⟩
    refine ⟨⟨fun h => ?_, fun ⟨h1, _, _, h2⟩ => ?_⟩, fun h => ?_⟩
    · obtain ⟨v, hv⟩ := Option.ne_none_iff_exists'.1 h
      obtain ⟨h1, h2, _⟩ := key v hv
      exact ⟨h1, (wanted_iff s i).1 hx.1, hx.2, h2⟩
    · unfold TraceCall.St.register
      simp [h1, h2, hnone, TraceCall.St.add, TraceCall.St.setHandle]
    · obtain ⟨v, hv⟩ := Option.ne_none_iff_exists'.1 h
      rw [hv, (key v hv).2.2]
  · rw [if_neg hx, hnone]
    refine ⟨⟨fun h => absurd rfl h, fun ⟨_, h1, h2, _⟩ => ?_⟩, fun h => absurd rfl h⟩
    rw [(wanted_iff s i).2 h1, h2] at hx
    exact absurd rfl hx

example : Traced (start elems on) 7 ∧ Succeeds good mem := ⟨⟨1, by decide, .inl rfl⟩, rfl, rfl, rfl⟩

/-- **C109.** Memory that is registered stays registered, with the same handle, until the offer is stopped,
whatever is traced and whatever happens to other services. -/
theorem until_stop_partial (elems : Nat → List Nat) (on : Point → Bool) (ops more : List Op) (i h st : Nat)
    (hc : Always CleanAt (start elems on) (ops ++ more)) (ho : (run (start elems on) ops).offered i = true)
    (hr : registered (run (start elems on) ops) i = some (h, st)) (hn : ∀ a u, Op.stop i a u ∉ more) :
    registered (run (start elems on) (ops ++ more)) i = some (h, st) := by
  obtain ⟨hc1, hc2⟩ := always_append ops _ hc
  have hl := left_run ops (left_start elems on) hc1
  rw [run_append, registered_eq (objects_run more hl.objects)]
  exact (stays_run more i h st hn hl hc2 ho ((registered_eq hl.objects i).symm.trans hr)).2

example : Always CleanAt (start elems on) ([.offer 7 good false] ++ (sent .ok).tail) ∧
    registered (run (start elems on) [.offer 7 good false]) 7 = some (5, 1000) := ⟨clean_sent .ok, by decide +kernel⟩

/-- **C109.** `StopOfferService` removes the memory from the subsystem, whatever happened before and whatever the
subsystem answers.

Partial: tracing must not have been switched off for the service (`switched_off_fails`). -/
theorem stop_unregisters_partial (elems : Nat → List Nat) (on : Point → Bool) (ops : List Op) (i : Nat) (a : Answer) (u : Bool)
    (hd : (run (start elems on) ops).tr.dead = false) (ho : (run (start elems on) ops).offered i = true)
    (he : (run (start elems on) ops).tr.enabled = true) (ht : Traced (run (start elems on) ops) i) :
    registered (run (start elems on) (ops ++ [.stop i a u])) i = none ∧
    (run (start elems on) (ops ++ [.stop i a u])).offered i = false := by
  have hobj : TraceCall.Objects (run (start elems on) ops).tr := objects_run ops (TraceCall.objects_start on)
  rw [run_append]
  generalize run (start elems on) ops = s at *
  have e : run s [.stop i a u] = s.stop i a u := by show s.op _ = _; unfold St.op; rw [hd]; rfl
  have hobj' : TraceCall.Objects (run s [.stop i a u]).tr := objects_run _ hobj
  rw [registered_eq hobj', e, stop_eq s i a u ho]
  dsimp only
  rw [if_pos ((wanted_iff s i).2 ht), handles_unregister _ _ _ he]
  simp

example : (run (start elems on) (sent .recoverable)).tr.enabled = true ∧
    (run (start elems on) (sent .recoverable)).offered 7 = true ∧
    (run (start elems on) (sent .recoverable)).tr.on ⟨7, 1, 0⟩ = true := by decide +kernel

/-- **C109.** The memory of a service for which no trace point for sending is on is never registered. -/
theorem untraced_is_never_registered (elems : Nat → List Nat) (on : Point → Bool) (ops : List Op) (i : Nat)
    (hn : ∀ e ∈ elems i, on ⟨i, e, 0⟩ = false ∧ on ⟨i, e, 1⟩ = false) (h st : Nat) :
    TraceCall.Ev.registered i h st ∉ (run (start elems on) ops).tr.log := by
  have hw : (start elems on).wanted i = false := by
    cases hw : (start elems on).wanted i
    · rfl
    · obtain ⟨e, he, hp⟩ := (wanted_iff _ _).1 hw
      obtain ⟨h1, h2⟩ := hn e he
      rcases hp with hp | hp
      · exact absurd (hp.symm.trans h1) (by simp)
      · exact absurd (hp.symm.trans h2) (by simp)
  intro hm
  have := (never_run ops i (s := start elems on) (TraceCall.objects_start on) hw).2 h st hm
  cases this

example : ∀ e ∈ elems 8, on ⟨8, e, 0⟩ = false ∧ on ⟨8, e, 1⟩ = false := by decide
example : (run (start elems on) [.offer 8 good false]).offered 8 = true ∧
    (run (start elems on) [.offer 8 good false]).tr.log = [] := by decide +kernel

/-- **C109.** Tracing never gets in the way of an offer: it succeeds exactly if the memory, the methods and
the service discovery do, unless the process ends.  A failed one does not change what is offered. -/
theorem offer_succeeds_iff (elems : Nat → List Nat) (on : Point → Bool) (ops : List Op) (i : Nat) (w : World) (u : Bool)
    (hd : (run (start elems on) (ops ++ [.offer i w u])).tr.dead = false) :
    (((run (start elems on) ops).offer i w u).2 = true ↔ ∃ m, Succeeds w m) ∧
    (((run (start elems on) ops).offer i w u).2 = false →
      (run (start elems on) (ops ++ [.offer i w u])).offered = (run (start elems on) ops).offered) := by
  rw [run_append] at hd ⊢
  generalize run (start elems on) ops = s at *
  have hd0 : s.tr.dead = false := by
    cases h : s.tr.dead
    · rfl
    · have e : run s [.offer i w u] = s := by show s.op _ = _; unfold St.op; rw [h]; rfl
      rw [e, h] at hd; cases hd
  have e : run s [.offer i w u] = (s.offer i w u).1 := by show s.op _ = _; unfold St.op; rw [hd0]; rfl
  rw [e] at hd ⊢
  have ht : ∀ m, (s.take i w m).offered = s.offered := fun m => by
    unfold St.take; dsimp only [St.setMem]; split <;> split <;> rfl
  unfold St.offer at hd ⊢
  cases hm : w.mem with
  | none => simp [Succeeds, hm]
  | some m =>
    simp only [hm] at hd
    dsimp only at hd ⊢
    by_cases h1 : (s.take i w m).tr.dead = true
    · rw [if_pos h1] at hd; rw [h1] at hd; cases hd
    rw [if_neg h1]
    cases h2 : w.methods
    · simp [Succeeds, h2, ht]
    cases h3 : w.listed
    · cases u <;> simp [Succeeds, h3, ht, St.setMem]
    · simp [Succeeds, hm, h2, h3]

example : (run (start elems on) [.offer 7 unlisted false]).tr.dead = false ∧
    ((start elems on).offer 7 unlisted false).2 = false := by decide +kernel

/-- **C109.** `StopOfferService` ends the offer in any case, also with tracing switched off, and no other. -/
theorem stop_ends_offer (elems : Nat → List Nat) (on : Point → Bool) (ops : List Op) (i j : Nat) (a : Answer) (u : Bool)
    (hd : (run (start elems on) ops).tr.dead = false) :
    (run (start elems on) (ops ++ [.stop i a u])).offered j = ((run (start elems on) ops).offered j && decide (j ≠ i)) := by
  rw [run_append]
  generalize run (start elems on) ops = s at *
  have e : run s [.stop i a u] = s.stop i a u := by show s.op _ = _; unfold St.op; rw [hd]; rfl
  rw [e]
  by_cases ho : s.offered i = true
  · rw [stop_eq s i a u ho]
    by_cases hj : j = i <;> simp [hj]
  · unfold St.stop
    rw [if_pos (by simpa using ho)]
    by_cases hj : j = i
    · subst hj; simpa using ho
    · simp [hj]

example : (run (start elems on) (sent .terminal)).tr.enabled = false ∧ (run (start elems on) (sent .terminal)).tr.dead = false ∧
    (run (start elems on) (sent .terminal)).offered 7 = true := by decide +kernel

/-- **C109.** New memory lies in typed memory exactly if it is traced and typed memory is available. -/
theorem typed_iff (elems : Nat → List Nat) (on : Point → Bool) (ops : List Op) (i : Nat) (w : World) (u : Bool) (m : Mem)
    (hd : (run (start elems on) (ops ++ [.offer i w u])).tr.dead = false) (hw : Succeeds w m) (hf : w.fresh = true) :
    ∃ m', (run (start elems on) (ops ++ [.offer i w u])).mem i = some m' ∧ m'.start = m.start ∧
      (m'.typed = true ↔ Traced (run (start elems on) ops) i ∧ m.typed = true) := by
  rw [run_append] at hd ⊢
  generalize run (start elems on) ops = s at *
  replace hd : (s.op (.offer i w u)).tr.dead = false := hd
  show ∃ m', (s.op (.offer i w u)).mem i = some m' ∧ _
  have hd0 : s.tr.dead = false := by
    cases h : s.tr.dead
    · rfl
    · unfold St.op at hd; rw [h] at hd; exact absurd (hd.symm.trans h) (by simp)
  have e : s.op (.offer i w u) = (s.offer i w u).1 := by unfold St.op; rw [hd0]; rfl
  rw [e] at hd ⊢
  have h2 : (s.offer i w u).1.tr = (s.take i w m).tr := by
    obtain ⟨a1, a2, a3⟩ := hw
    unfold St.offer; rw [a1]; dsimp only
    repeat' split
    all_goals rfl
  rw [h2] at hd
  rw [offer_good s i w u m hw hd]
  refine ⟨s.taken i w m, ?_, start_taken s i w m, ?_⟩
  · show (s.take i w m).mem i = _
    rw [take_eq]; simp
  · rw [← wanted_iff]; unfold St.taken; rw [hf]; simp

example : ((run (start elems on) [.offer 7 good false]).mem 7).map (·.typed) = some true ∧
    ((run (start elems on) [.offer 8 good false]).mem 8).map (·.typed) = some false := by decide +kernel

/-- **C109.** Exactly when a call ends the process: `OfferService` gets traced memory while an earlier
registration of the service is left (or an earlier failure is remembered and the registration
fails again). -/
theorem ends_iff (elems : Nat → List Nat) (on : Point → Bool) (ops : List Op) (o : Op)
    (hd : (run (start elems on) ops).tr.dead = false) :
    (run (start elems on) (ops ++ [o])).tr.dead = true ↔
    ∃ i w u m, o = .offer i w u ∧ w.mem = some m ∧ m.typed = true ∧ (run (start elems on) ops).tr.enabled = true ∧
      Traced (run (start elems on) ops) i ∧
      ((w.answer = .ok ∧ registered (run (start elems on) ops) i ≠ none) ∨
       (w.answer = .recoverable ∧ (run (start elems on) ops).tr.cache (.shm i) ≠ none)) := by
  have hobj : TraceCall.Objects (run (start elems on) ops).tr := objects_run ops (TraceCall.objects_start on)
  rw [run_append]
  simp only [registered_eq hobj, ← wanted_iff]
  exact dies_iff hobj hd o

/-- **C109. Violated.** An offer that fails after the memory was registered (here: the service discovery cannot list
it) does not remove the registration although the memory is gone, and the next attempt to offer the
service ends the process. -/
theorem failed_offer_fails : ∃ (elems : Nat → List Nat) (on : Point → Bool) (i : Nat) (w w' : World) (m : Mem),
    Succeeds w' m ∧
    ((start elems on).offer i w false).2 = false ∧
    registered (run (start elems on) [.offer i w false]) i ≠ none ∧
    (run (start elems on) [.offer i w false]).offered i = false ∧
    (run (start elems on) [.offer i w false]).mem i = none ∧
    (run (start elems on) [.offer i w false, .offer i w' false]).tr.dead = true :=
  ⟨elems, on, 7, unlisted, good, mem, ⟨rfl, rfl, rfl⟩, by decide +kernel⟩

/-- **C109. Violated.** A second `OfferService` on an offered service ends the process. -/
theorem second_offer_fails : ∃ (elems : Nat → List Nat) (on : Point → Bool) (i : Nat) (w : World) (m : Mem),
    Succeeds w m ∧ (run (start elems on) [.offer i w false]).offered i = true ∧
    (run (start elems on) [.offer i w false, .offer i w false]).tr.dead = true :=
  ⟨elems, on, 7, good, mem, ⟨rfl, rfl, rfl⟩, by decide +kernel⟩

/-- **C109. Violated.** If the only trace point of a service was switched off because a trace failed,
`StopOfferService` does not remove the registration: it stays although the memory is gone, and also
when the service is offered again with other memory. -/
theorem switched_off_fails : ∃ (elems : Nat → List Nat) (on : Point → Bool) (ops more : List Op) (i : Nat),
    Always CleanAt (start elems on) ops ∧ (run (start elems on) ops).tr.enabled = true ∧
    registered (run (start elems on) ops) i = some (5, 1000) ∧
    (run (start elems on) ops).offered i = false ∧ (run (start elems on) ops).mem i = none ∧
    registered (run (start elems on) (ops ++ more)) i = some (5, 1000) ∧
    (run (start elems on) (ops ++ more)).offered i = true ∧
    ((run (start elems on) (ops ++ more)).mem i).map (·.start) = some 9000 := by
  refine ⟨elems, on, sent .nonRecoverable ++ [.stop 7 .ok false],
    [.offer 7 { good with mem := some ⟨3, 9000, true⟩ } false], 7, ?_, by decide +kernel⟩
  exact ⟨⟨rfl, .inr ⟨mem, rfl, rfl, rfl⟩⟩, trivial, trivial, trivial, trivial, trivial, trivial, trivial, trivial, trivial, trivial⟩

end Verif.Props.C109
