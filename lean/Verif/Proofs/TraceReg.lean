import Verif.Spec.TraceReg
import Verif.Proofs.TraceCall

namespace Verif.TraceReg
open Verif.TraceRegSpec
open Verif.TraceCall (Answer Point Key Objects)

/-! ## What trace calls leave alone -/

/-- What can be seen of the calls of threads. -/
structure Kept (s s' : TraceCall.St) : Prop where
  handles : s'.handles = s.handles
  cache : ∀ i, s'.cache (.shm i) = s.cache (.shm i)
  enabled : s'.enabled = true → s.enabled = true
  on : ∀ p, s'.on p = true → s.on p = true
  dead : s'.dead = s.dead
  log : ∀ i, TraceCallSpec.object i s'.log = TraceCallSpec.object i s.log
  fresh : ∀ i h st, TraceCall.Ev.registered i h st ∈ s'.log → TraceCall.Ev.registered i h st ∈ s.log

theorem Kept.refl (s : TraceCall.St) : Kept s s :=
  ⟨rfl, fun _ => rfl, id, fun _ => id, rfl, fun _ => rfl, fun _ _ _ => id⟩

theorem kept_step {s : TraceCall.St} (ho : Objects s) (t : Nat) (sl : Bool) (a : Answer) (h : Nat) : Kept s (s.step t sl a h) := by
  unfold TraceCall.St.step
  split
  · exact .refl s
  all_goals (repeat' split)
  all_goals first
    | (rename_i hc _; exact absurd hc (by rw [ho.cache]; simp))
    | (rename_i hc _ _ _; exact absurd hc (by rw [ho.cache]; simp))
    | (refine ⟨rfl, ?_, ?_, ?_, rfl, ?_, ?_⟩
       · intro i; first | rfl | simp [TraceCall.St.setPc, TraceCall.St.add, TraceCall.St.setCache]
       · simp [TraceCall.St.setPc, TraceCall.St.add, TraceCall.St.elemOff, TraceCall.St.pointOff, TraceCall.St.setCache]
       · intro p; simp [TraceCall.St.setPc, TraceCall.St.add, TraceCall.St.elemOff, TraceCall.St.pointOff, TraceCall.St.setCache]
       · intro i; simp [TraceCall.object_append, TraceCall.St.setPc, TraceCall.St.add, TraceCall.St.elemOff, TraceCall.St.pointOff, TraceCall.St.setCache]
       · intro i h st; simp [TraceCall.St.setPc, TraceCall.St.add, TraceCall.St.elemOff, TraceCall.St.pointOff, TraceCall.St.setCache])

theorem kept_next {s : TraceCall.St} (ho : Objects s) (t : Nat) (sl : Bool) (a : Answer) (h : Nat) : Kept s (s.op (.next t sl a h)) := by
  unfold TraceCall.St.op
  split
  · exact .refl s
  · exact kept_step ho t sl a h

theorem kept_trace (s : TraceCall.St) (t : Nat) (p : Point) (x : Option Nat) : Kept s (s.op (.trace t p x)) := by
  unfold TraceCall.St.op TraceCall.St.next'
  split
  · exact .refl s
  · dsimp only
    split
    · exact ⟨rfl, fun _ => rfl, id, fun _ => id, rfl, fun _ => rfl, fun _ _ _ => id⟩
    · exact .refl s

theorem wanted_iff (s : St) (i : Nat) : s.wanted i = true ↔ Traced s i := by
  simp [St.wanted, Traced, sendPoint, allocPoint]

theorem wanted_mono {s s' : St} (he : s'.elems = s.elems) (ho : ∀ p, s'.tr.on p = true → s.tr.on p = true) (i : Nat)
    (h : s'.wanted i = true) : s.wanted i = true := by
  obtain ⟨e, hm, hp⟩ := (wanted_iff s' i).1 h
  exact (wanted_iff s i).2 ⟨e, he ▸ hm, hp.imp (ho _) (ho _)⟩

theorem objects_register {s : TraceCall.St} (ho : Objects s) (hd : s.dead = false) (i fd st h : Nat) (a : Answer) :
    Objects (s.register i fd st h a) := by
  have := TraceCall.objects_op ho (.register i fd st h a)
  simpa [TraceCall.St.op, hd, TraceCall.St.next'] using this

theorem objects_unregister {s : TraceCall.St} (ho : Objects s) (hd : s.dead = false) (i : Nat) (a : Answer) :
    Objects (s.unregister i a) := by
  have := TraceCall.objects_op ho (.unregister i a)
  simpa [TraceCall.St.op, hd, TraceCall.St.next'] using this

@[simp] theorem on_register (s : TraceCall.St) (i fd st h : Nat) (a : Answer) : (s.register i fd st h a).on = s.on := by
  unfold TraceCall.St.register; repeat' split
  all_goals rfl

@[simp] theorem on_unregister (s : TraceCall.St) (i : Nat) (a : Answer) : (s.unregister i a).on = s.on := by
  unfold TraceCall.St.unregister
  split
  · rfl
  · split
    · rfl
    · dsimp only; split <;> rfl

theorem enabled_register (s : TraceCall.St) (i fd st h : Nat) (a : Answer) (hs : s.enabled = false) :
    (s.register i fd st h a).enabled = false := by
  unfold TraceCall.St.register; simp [hs]

theorem enabled_unregister (s : TraceCall.St) (i : Nat) (a : Answer) (hs : s.enabled = false) :
    (s.unregister i a).enabled = false := by
  unfold TraceCall.St.unregister; simp [hs]

@[simp] theorem dead_unregister (s : TraceCall.St) (i : Nat) (a : Answer) : (s.unregister i a).dead = s.dead := by
  unfold TraceCall.St.unregister
  split
  · rfl
  · split
    · rfl
    · dsimp only; split <;> rfl

/-- The process ends in a registration only if another one is left. -/
theorem dead_register (s : TraceCall.St) (hd : s.dead = false) (i fd st h : Nat) (a : Answer) :
    (s.register i fd st h a).dead = true ↔
      s.enabled = true ∧ ((a = .ok ∧ s.handles i ≠ none) ∨ (a = .recoverable ∧ s.cache (.shm i) ≠ none)) := by
  unfold TraceCall.St.register
  cases he : s.enabled
  · simp [hd]
  · cases a
    · simp only [Bool.not_true, Bool.false_eq_true, if_false]
      cases hh : s.handles i <;> simp [hd, TraceCall.St.add, TraceCall.St.setHandle]
    · simp only [Bool.not_true, Bool.false_eq_true, if_false]
      cases hh : s.cache (.shm i) <;> simp [hd, TraceCall.St.add, TraceCall.St.setCache]
    · simp [hd]
    · simp [hd, TraceCall.St.add]

/-- Other instances are not touched. -/
theorem other_register (s : TraceCall.St) (i j fd st h : Nat) (a : Answer) (hij : j ≠ i) :
    (s.register i fd st h a).handles j = s.handles j ∧ (s.register i fd st h a).cache (.shm j) = s.cache (.shm j) := by
  unfold TraceCall.St.register
  split
  · exact ⟨rfl, rfl⟩
  · cases a
    · dsimp only; split
      · exact ⟨rfl, rfl⟩
      · simp [TraceCall.St.add, TraceCall.St.setHandle, hij]
    · dsimp only; split
      · exact ⟨rfl, rfl⟩
      · simp [TraceCall.St.add, TraceCall.St.setCache, hij]
    · exact ⟨rfl, rfl⟩
    · exact ⟨rfl, rfl⟩

theorem other_unregister (s : TraceCall.St) (i j : Nat) (a : Answer) (hij : j ≠ i) :
    (s.unregister i a).handles j = s.handles j ∧ (s.unregister i a).cache (.shm j) = s.cache (.shm j) := by
  unfold TraceCall.St.unregister
  split
  · exact ⟨rfl, rfl⟩
  · split
    · simp [TraceCall.St.setCache, hij]
    · dsimp only; split <;> simp [TraceCall.St.add, TraceCall.St.setHandle, hij]

/-- After the call nothing is registered, if tracing is on. -/
theorem handles_unregister (s : TraceCall.St) (i : Nat) (a : Answer) (he : s.enabled = true) :
    (s.unregister i a).handles i = none := by
  unfold TraceCall.St.unregister
  simp only [he, Bool.not_true, Bool.false_eq_true, if_false]
  split
  · assumption
  · split <;> simp [TraceCall.St.add, TraceCall.St.setHandle]

theorem cache_unregister (s : TraceCall.St) (i : Nat) (a : Answer) (he : s.enabled = true) (hn : s.handles i = none) :
    (s.unregister i a).cache (.shm i) = none := by
  unfold TraceCall.St.unregister
  simp [he, hn, TraceCall.St.setCache]

theorem cache_unregister_none (s : TraceCall.St) (i : Nat) (a : Answer) (hn : s.cache (.shm i) = none) :
    (s.unregister i a).cache (.shm i) = none := by
  unfold TraceCall.St.unregister
  split
  · exact hn
  · split
    · simp [TraceCall.St.setCache]
    · dsimp only; split <;> exact hn

theorem handles_unregister_none (s : TraceCall.St) (i : Nat) (a : Answer) (hn : s.handles i = none) :
    (s.unregister i a).handles i = none := by
  unfold TraceCall.St.unregister
  simp [hn, TraceCall.St.setCache]
  split <;> exact hn

/-- A registration with nothing left before it. -/
theorem one_register (s : TraceCall.St) (i fd st h : Nat) (a : Answer) (h1 : s.handles i = none) (h2 : s.cache (.shm i) = none) :
    (s.register i fd st h a).handles i = none ∨ (s.register i fd st h a).cache (.shm i) = none := by
  unfold TraceCall.St.register
  split
  · exact .inl h1
  · cases a
    · dsimp only; split
      · exact .inl h1
      · exact .inr h2
    · dsimp only; split
      · exact .inl h1
      · exact .inl h1
    · exact .inl h1
    · exact .inl h1

theorem register_off (s : TraceCall.St) (i fd st h : Nat) (a : Answer) (he : s.enabled = false) : s.register i fd st h a = s := by
  simp [TraceCall.St.register, he]

/-- A successful registration. -/
theorem handles_register (s : TraceCall.St) (i fd st h : Nat) (a : Answer) (hd : (s.register i fd st h a).dead = false)
    (g x : Nat) (hg : (s.register i fd st h a).handles i = some (g, x)) :
    s.handles i = some (g, x) ∨ (s.enabled = true ∧ a = .ok ∧ g = h ∧ x = st) := by
  unfold TraceCall.St.register at hd hg
  split at hg
  · exact .inl hg
  · rename_i he
    rw [if_neg he] at hd
    cases a with
    | ok =>
      dsimp only at hg
      split at hg
      · exact .inl hg
      · simp [TraceCall.St.add, TraceCall.St.setHandle] at hg
        exact .inr ⟨by simpa using he, rfl, hg.1.symm, hg.2.symm⟩
    | recoverable =>
      dsimp only at hg
      split at hg
      · exact .inl hg
      · exact .inl hg
    | nonRecoverable => exact .inl hg
    | terminal => exact .inl hg

/-! ## One call of `OfferService` -/

/-- What the memory is after `OfferService` has taken it. -/
def St.taken (s : St) (i : Nat) (w : World) (m : Mem) : Mem :=
  if w.fresh then { m with typed := s.wanted i && m.typed } else m

@[simp] theorem start_taken (s : St) (i : Nat) (w : World) (m : Mem) : (s.taken i w m).start = m.start := by
  unfold St.taken; split <;> rfl

theorem typed_taken (s : St) (i : Nat) (w : World) (m : Mem) : (s.wanted i && (s.taken i w m).typed) = (s.wanted i && m.typed) := by
  unfold St.taken; split
  · cases s.wanted i <;> simp
  · rfl

theorem take_eq (s : St) (i : Nat) (w : World) (m : Mem) : s.take i w m = { s with
      mem := fun j => if j = i then some (s.taken i w m) else s.mem j,
      tr := if s.wanted i && m.typed then s.tr.register i (s.taken i w m).fd m.start w.handle w.answer else s.tr } := by
  have h := typed_taken s i w m
  unfold St.take
  dsimp only
  rw [show (if w.fresh = true then { m with typed := s.wanted i && m.typed } else m : Mem) = s.taken i w m from rfl]
  rw [h]
  split
  · rw [start_taken]; rfl
  · rfl

/-- The part of the state that belongs to tracing after an offer. -/
theorem offer_tr (s : St) (i : Nat) (w : World) (u : Bool) : (s.offer i w u).1.tr = s.tr ∨
    ∃ m, w.mem = some m ∧ s.wanted i = true ∧ m.typed = true ∧
      (s.offer i w u).1.tr = s.tr.register i (s.taken i w m).fd m.start w.handle w.answer := by
  unfold St.offer
  cases hm : w.mem with
  | none => exact .inl rfl
  | some m =>
    have key : (s.take i w m).tr = s.tr ∨ (s.wanted i = true ∧ m.typed = true ∧
        (s.take i w m).tr = s.tr.register i (s.taken i w m).fd m.start w.handle w.answer) := by
      rw [take_eq]
      dsimp only
      split
      · rename_i h; simp only [Bool.and_eq_true] at h; exact .inr ⟨h.1, h.2, rfl⟩
      · exact .inl rfl
    have this : ∀ x : St, x.tr = (s.take i w m).tr → x.tr = s.tr ∨ ∃ m', some m = some m' ∧ s.wanted i = true ∧ m'.typed = true ∧
        x.tr = s.tr.register i (s.taken i w m').fd m'.start w.handle w.answer := by
      intro x hx
      rcases key with h | ⟨h1, h2, h3⟩
      · exact .inl (hx.trans h)
      · exact .inr ⟨m, rfl, h1, h2, hx.trans h3⟩
    dsimp only
    apply this
    repeat' split
    all_goals rfl

theorem offer_elems (s : St) (i : Nat) (w : World) (u : Bool) : (s.offer i w u).1.elems = s.elems := by
  unfold St.offer
  split
  · rfl
  · rw [take_eq]; dsimp only; repeat' split
    all_goals rfl

theorem offer_other (s : St) (i j : Nat) (w : World) (u : Bool) (hij : j ≠ i) :
    (s.offer i w u).1.offered j = s.offered j ∧ (s.offer i w u).1.mem j = s.mem j := by
  unfold St.offer
  split
  · exact ⟨rfl, rfl⟩
  · rw [take_eq]; dsimp only; repeat' split
    all_goals simp [St.setOffered, St.setMem, hij]

/-- An offer that ends well. -/
theorem offer_good (s : St) (i : Nat) (w : World) (u : Bool) (m : Mem) (hw : Succeeds w m)
    (hd : (s.take i w m).tr.dead = false) :
    s.offer i w u = ((s.take i w m).setOffered i true, true) := by
  obtain ⟨h1, h2, h3⟩ := hw
  unfold St.offer
  simp [h1, h2, h3, hd]

/-! ## One call of `StopOfferService` -/

theorem stop_eq (s : St) (i : Nat) (a : Answer) (u : Bool) (ho : s.offered i = true) : s.stop i a u = { s with
      tr := if s.wanted i then s.tr.unregister i a else s.tr,
      mem := if u then s.mem else fun j => if j = i then none else s.mem j,
      offered := fun j => if j = i then false else s.offered j } := by
  unfold St.stop
  simp only [ho, Bool.not_true, Bool.false_eq_true, if_false]
  split <;> split <;> rfl

theorem stop_not (s : St) (i : Nat) (a : Answer) (u : Bool) (ho : s.offered i = false) : s.stop i a u = s := by
  simp [St.stop, ho]

/-! ## All histories -/

theorem run_append (s : St) (ops ops' : List Op) : run s (ops ++ ops') = run (run s ops) ops' := by
  simp [run, List.foldl_append]

theorem objects_tr {s : St} (h : Objects s.tr) (o : Op) : Objects (s.op o).tr := by
  unfold St.op
  by_cases hdt : s.tr.dead = true
  · rw [if_pos hdt]; exact h
  have hd : s.tr.dead = false := by simpa using hdt
  rw [if_neg hdt]
  cases o with
  | offer i w u =>
    rcases offer_tr s i w u with e | ⟨m, _, _, _, e⟩
    · exact (show (s.offer i w u).1.tr = s.tr from e) ▸ h
    · show Objects (s.offer i w u).1.tr
      rw [e]; exact objects_register h hd ..
  | stop i a u =>
    show Objects (s.stop i a u).tr
    cases ho : s.offered i
    · rw [stop_not s i a u ho]; exact h
    · rw [stop_eq s i a u ho]; dsimp only; split
      · exact objects_unregister h hd ..
      · exact h
  | trace t p x => exact TraceCall.objects_op h _
  | next t sl a g => exact TraceCall.objects_op h _

theorem objects_run (ops : List Op) : ∀ {s : St}, Objects s.tr → Objects (run s ops).tr := by
  induction ops with
  | nil => exact fun h => h
  | cons o ops ih => exact fun h => ih (objects_tr h o)

theorem registered_eq {s : St} (h : Objects s.tr) (i : Nat) : registered s i = s.tr.handles i := (h.handles i).symm

/-- Trace points are never switched on. -/
theorem on_op {s : St} (h : Objects s.tr) (o : Op) : (s.op o).elems = s.elems ∧
    (∀ p, (s.op o).tr.on p = true → s.tr.on p = true) ∧ ((s.op o).tr.enabled = true → s.tr.enabled = true) := by
  unfold St.op
  by_cases hdt : s.tr.dead = true
  · rw [if_pos hdt]; exact ⟨rfl, fun _ => id, id⟩
  rw [if_neg hdt]
  cases o with
  | offer i w u =>
    refine ⟨offer_elems s i w u, ?_, ?_⟩
    · show ∀ p, (s.offer i w u).1.tr.on p = true → _
      rcases offer_tr s i w u with e | ⟨m, _, _, _, e⟩
      · rw [e]; exact fun _ => id
      · rw [e, on_register]; exact fun _ => id
    · show (s.offer i w u).1.tr.enabled = true → _
      rcases offer_tr s i w u with e | ⟨m, _, _, _, e⟩
      · rw [e]; exact id
      · rw [e]; intro h'
        cases he : s.tr.enabled
        · rw [enabled_register _ _ _ _ _ _ he] at h'; cases h'
        · rfl
  | stop i a u =>
    show (s.stop i a u).elems = s.elems ∧ (∀ p, (s.stop i a u).tr.on p = true → _) ∧ ((s.stop i a u).tr.enabled = true → _)
    cases ho : s.offered i
    · rw [stop_not s i a u ho]; exact ⟨rfl, fun _ => id, id⟩
    · rw [stop_eq s i a u ho]; dsimp only; split
      · refine ⟨rfl, by simp, ?_⟩
        intro h'
        cases he : s.tr.enabled
        · rw [enabled_unregister _ _ _ he] at h'; cases h'
        · rfl
      · exact ⟨rfl, fun _ => id, id⟩
  | trace t p x => exact ⟨rfl, (kept_trace s.tr t p x).on, (kept_trace s.tr t p x).enabled⟩
  | next t sl a g => exact ⟨rfl, (kept_next h t sl a g).on, (kept_next h t sl a g).enabled⟩

/-- What is left behind belongs to an offered service, or will not be registered again. -/
structure Left (s : St) : Prop where
  objects : Objects s.tr
  dead : s.tr.dead = false
  left : ∀ i, s.tr.handles i ≠ none ∨ s.tr.cache (.shm i) ≠ none →
    s.offered i = true ∨ s.wanted i = false ∨ s.tr.enabled = false
  one : ∀ i, s.tr.handles i = none ∨ s.tr.cache (.shm i) = none

theorem left_start (elems : Nat → List Nat) (on : Point → Bool) : Left (start elems on) :=
  ⟨TraceCall.objects_start on, rfl, fun i h => by simp [start, TraceCall.start] at h, fun i => .inl rfl⟩

theorem weaken {s s' : St} {i : Nat} (he : s'.elems = s.elems) (ho : ∀ p, s'.tr.on p = true → s.tr.on p = true)
    (hn : s'.tr.enabled = true → s.tr.enabled = true) (h : s.wanted i = false ∨ s.tr.enabled = false) :
    s'.wanted i = false ∨ s'.tr.enabled = false := by
  rcases h with h | h
  · left
    cases hw : s'.wanted i
    · rfl
    · rw [wanted_mono he ho i hw] at h; cases h
  · right
    cases hw : s'.tr.enabled
    · rfl
    · rw [hn hw] at h; cases h

theorem left_op {s : St} (h : Left s) (o : Op) (hc : CleanAt s o) : Left (s.op o) := by
  have hobj := objects_tr h.objects o
  obtain ⟨hel, hon, hen⟩ := on_op h.objects o
  refine ⟨hobj, ?_, ?_, ?_⟩
  · unfold St.op
    rw [h.dead]; simp only [Bool.false_eq_true, if_false]
    cases o with
    | offer i w u =>
      show (s.offer i w u).1.tr.dead = false
      rcases offer_tr s i w u with e | ⟨m, _, hw, _, e⟩
      · rw [e]; exact h.dead
      · rw [e]
        cases hd : (s.tr.register i (s.taken i w m).fd m.start w.handle w.answer).dead
        · rfl
        · obtain ⟨h1, h2⟩ := (dead_register s.tr h.dead ..).1 hd
          have := h.left i (h2.imp (·.2) (·.2))
          rw [hc.1, hw, h1] at this
          simp at this
    | stop i a u =>
      show (s.stop i a u).tr.dead = false
      cases ho : s.offered i
      · rw [stop_not s i a u ho]; exact h.dead
      · rw [stop_eq s i a u ho]; dsimp only; split
        · rw [dead_unregister]; exact h.dead
        · exact h.dead
    | trace t p x => exact (kept_trace s.tr t p x).dead.trans h.dead
    | next t sl a g => exact (kept_next h.objects t sl a g).dead.trans h.dead
  · intro j hj
    have weak := @weaken s (s.op o) j hel hon hen
    revert hj weak
    have e : s.op o = s.next' o := by unfold St.op; rw [h.dead]; rfl
    rw [e]
    cases o with
    | offer i w u =>
      intro hj weak
      replace hj : (s.offer i w u).1.tr.handles j ≠ none ∨ (s.offer i w u).1.tr.cache (.shm j) ≠ none := hj
      show (s.offer i w u).1.offered j = true ∨ (s.offer i w u).1.wanted j = false ∨ (s.offer i w u).1.tr.enabled = false
      replace weak : _ → (s.offer i w u).1.wanted j = false ∨ (s.offer i w u).1.tr.enabled = false := weak
      have old : s.tr.handles j ≠ none ∨ s.tr.cache (.shm j) ≠ none → (s.offer i w u).1.offered j = s.offered j →
          (s.offer i w u).1.offered j = true ∨ (s.offer i w u).1.wanted j = false ∨ (s.offer i w u).1.tr.enabled = false := fun h1 h2 => by
        rcases h.left j h1 with h3 | h3
        · exact .inl (h2.trans h3)
        · exact .inr (weak h3)
      by_cases hij : j = i
      · subst hij
        rcases hc.2 with hm | ⟨m, hm⟩
        · have : (s.offer j w u).1 = s := by unfold St.offer; rw [hm]
          rw [this] at hj
          exact old hj (by rw [this])
        · cases hd : (s.take j w m).tr.dead
          · left; rw [offer_good s j w u m hm hd]; simp [St.setOffered]
          · exfalso
            have hdead : ∀ b, (s.take j w m).tr.dead = b → b = false := by
              intro b hb
              rw [take_eq] at hb; dsimp only at hb
              split at hb
              · rename_i hw; simp only [Bool.and_eq_true] at hw
                cases b
                · rfl
                · obtain ⟨h1, h2⟩ := (dead_register s.tr h.dead ..).1 hb
                  have := h.left j (h2.imp (·.2) (·.2))
                  rw [hc.1, hw.1, h1] at this
                  simp at this
              · rw [← hb]; exact h.dead
            exact absurd (hdead _ hd) (by simp)
      · have ho := (offer_other s i j w u hij).1
        refine old ?_ ho
        rcases offer_tr s i w u with e' | ⟨m, _, hw, _, e'⟩
        · rw [e'] at hj; exact hj
        · rw [e', (other_register _ _ _ _ _ _ _ hij).1, (other_register _ _ _ _ _ _ _ hij).2] at hj; exact hj
    | stop i a u =>
      intro hj weak
      replace hj : (s.stop i a u).tr.handles j ≠ none ∨ (s.stop i a u).tr.cache (.shm j) ≠ none := hj
      show (s.stop i a u).offered j = true ∨ (s.stop i a u).wanted j = false ∨ (s.stop i a u).tr.enabled = false
      replace weak : _ → (s.stop i a u).wanted j = false ∨ (s.stop i a u).tr.enabled = false := weak
      cases ho : s.offered i
      · rw [stop_not s i a u ho] at hj ⊢; exact h.left j hj
      · by_cases hij : j = i
        · subst hij
          right
          cases hw : s.wanted j
          · exact weak (.inl hw)
          · cases hen' : s.tr.enabled
            · exact weak (.inr hen')
            · exfalso
              rw [stop_eq s j a u ho] at hj
              dsimp only at hj
              rw [hw] at hj
              simp only [if_true] at hj
              rcases hj with hj | hj
              · exact hj (handles_unregister s.tr j a hen')
              · rcases h.one j with h1 | h1
                · rw [cache_unregister _ _ _ hen' h1] at hj; exact hj rfl
                · exact hj (cache_unregister_none _ _ _ h1)
        · have e2 : (s.stop i a u).offered j = s.offered j := by rw [stop_eq s i a u ho]; simp [hij]
          have hj' : s.tr.handles j ≠ none ∨ s.tr.cache (.shm j) ≠ none := by
            rw [stop_eq s i a u ho] at hj
            dsimp only at hj
            split at hj
            · rw [(other_unregister _ _ _ _ hij).1, (other_unregister _ _ _ _ hij).2] at hj; exact hj
            · exact hj
          rcases h.left j hj' with h3 | h3
          · exact .inl (e2.trans h3)
          · exact .inr (weak h3)
    | trace t p x =>
      intro hj weak
      have k := kept_trace s.tr t p x
      replace hj : (s.tr.op (.trace t p x)).handles j ≠ none ∨ (s.tr.op (.trace t p x)).cache (.shm j) ≠ none := hj
      rw [k.handles, k.cache] at hj
      exact (h.left j hj).imp id weak
    | next t sl a g =>
      intro hj weak
      have k := kept_next h.objects t sl a g
      replace hj : (s.tr.op (.next t sl a g)).handles j ≠ none ∨ (s.tr.op (.next t sl a g)).cache (.shm j) ≠ none := hj
      rw [k.handles, k.cache] at hj
      exact (h.left j hj).imp id weak
  · intro j
    have e : s.op o = s.next' o := by unfold St.op; rw [h.dead]; rfl
    rw [e]
    cases o with
    | offer i w u =>
      show (s.offer i w u).1.tr.handles j = none ∨ (s.offer i w u).1.tr.cache (.shm j) = none
      rcases offer_tr s i w u with e' | ⟨m, _, hw, _, e'⟩
      · rw [e']; exact h.one j
      · rw [e']
        by_cases hij : j = i
        · subst hij
          cases hen' : s.tr.enabled
          · rw [register_off _ _ _ _ _ _ hen']; exact h.one j
          · have : ¬ (s.tr.handles j ≠ none ∨ s.tr.cache (.shm j) ≠ none) := fun hx => by
              have := h.left j hx
              rw [hc.1, hw, hen'] at this
              simp at this
            apply one_register
            · exact Classical.byContradiction fun hx => this (.inl hx)
            · exact Classical.byContradiction fun hx => this (.inr hx)
        · rw [(other_register _ _ _ _ _ _ _ hij).1, (other_register _ _ _ _ _ _ _ hij).2]; exact h.one j
    | stop i a u =>
      show (s.stop i a u).tr.handles j = none ∨ (s.stop i a u).tr.cache (.shm j) = none
      cases ho : s.offered i
      · rw [stop_not s i a u ho]; exact h.one j
      · rw [stop_eq s i a u ho]
        dsimp only
        split
        · by_cases hij : j = i
          · subst hij
            exact (h.one j).imp (handles_unregister_none _ _ _) (cache_unregister_none _ _ _)
          · rw [(other_unregister _ _ _ _ hij).1, (other_unregister _ _ _ _ hij).2]; exact h.one j
        · exact h.one j
    | trace t p x =>
      have k := kept_trace s.tr t p x
      show (s.tr.op (.trace t p x)).handles j = none ∨ (s.tr.op (.trace t p x)).cache (.shm j) = none
      rw [k.handles, k.cache]; exact h.one j
    | next t sl a g =>
      have k := kept_next h.objects t sl a g
      show (s.tr.op (.next t sl a g)).handles j = none ∨ (s.tr.op (.next t sl a g)).cache (.shm j) = none
      rw [k.handles, k.cache]; exact h.one j

theorem left_run (ops : List Op) : ∀ {s : St}, Left s → Always CleanAt s ops → Left (run s ops) := by
  induction ops with
  | nil => exact fun h _ => h
  | cons o ops ih => exact fun h hc => ih (left_op h o hc.1) hc.2

/-- What is registered is the memory in use. -/
theorem follows_op {s : St} (hl : Left s) (h : Follows s) (o : Op) (hc : CleanAt s o) (hs : StillOnAt s o) : Follows (s.op o) := by
  have hl' := left_op hl o hc
  intro j g x hg
  rw [registered_eq hl'.objects] at hg
  have old : ∀ g x, s.tr.handles j = some (g, x) → _ := fun g x hx => h j g x ((registered_eq hl.objects j).trans hx)
  have e : s.op o = s.next' o := by unfold St.op; rw [hl.dead]; rfl
  rw [e] at hg ⊢
  cases o with
  | offer i w u =>
    show (s.offer i w u).1.offered j = true ∧ ∃ m, (s.offer i w u).1.mem j = some m ∧ m.start = x ∧ m.typed = true
    replace hg : (s.offer i w u).1.tr.handles j = some (g, x) := hg
    by_cases hij : j = i
    · subst hij
      rcases hc.2 with hm | ⟨m, hm⟩
      · have : (s.offer j w u).1 = s := by unfold St.offer; rw [hm]
        rw [this] at hg ⊢
        exact old g x hg
      · have hd : (s.take j w m).tr.dead = false := by
          have h1 : (s.offer j w u).1.tr.dead = false := by
            have := hl'.dead; rw [e] at this; exact this
          have h2 : (s.offer j w u).1.tr = (s.take j w m).tr := by
            obtain ⟨a1, a2, a3⟩ := hm
            unfold St.offer; rw [a1]; dsimp only
            repeat' split
            all_goals rfl
          rw [← h2]; exact h1
        rw [offer_good s j w u m hm hd] at hg ⊢
        replace hg : (s.take j w m).tr.handles j = some (g, x) := hg
        refine ⟨by simp [St.setOffered], ?_⟩
        rw [take_eq] at hg hd ⊢
        dsimp only at hg hd
        have stale : s.tr.handles j = some (g, x) → False := fun hx => by
          have := (old g x hx).1
          rw [hc.1] at this; cases this
        split at hg
        · rename_i hw
          simp only [hw, if_true] at hd
          have hty := typed_taken s j w m
          rw [hw] at hty
          rcases handles_register _ _ _ _ _ _ hd g x hg with h1 | ⟨_, _, _, h1⟩
          · exact (stale h1).elim
          · refine ⟨s.taken j w m, by simp [St.setOffered], by rw [start_taken]; exact h1.symm, ?_⟩
            simp only [Bool.and_eq_true] at hty
            exact hty.2
        · exact (stale hg).elim
    · obtain ⟨h1, h2⟩ := offer_other s i j w u hij
      rw [h1, h2]
      apply old g
      rcases offer_tr s i w u with e' | ⟨m, _, hw, _, e'⟩
      · rw [e'] at hg; exact hg
      · rw [e', (other_register _ _ _ _ _ _ _ hij).1] at hg; exact hg
  | stop i a u =>
    show (s.stop i a u).offered j = true ∧ ∃ m, (s.stop i a u).mem j = some m ∧ m.start = x ∧ m.typed = true
    replace hg : (s.stop i a u).tr.handles j = some (g, x) := hg
    cases ho : s.offered i
    · rw [stop_not s i a u ho] at hg ⊢; exact old g x hg
    · rw [stop_eq s i a u ho] at hg ⊢
      dsimp only at hg ⊢
      by_cases hij : j = i
      · subst hij
        exfalso
        by_cases hr : s.tr.handles j = none
        · split at hg
          · rw [handles_unregister_none _ _ _ hr] at hg; cases hg
          · rw [hr] at hg; cases hg
        · obtain ⟨h1, h2⟩ := hs ho (by rw [registered_eq hl.objects]; exact hr)
          rw [if_pos ((wanted_iff s j).2 h2), handles_unregister _ _ _ h1] at hg
          cases hg
      · have hg' : s.tr.handles j = some (g, x) := by
          split at hg
          · rw [(other_unregister _ _ _ _ hij).1] at hg; exact hg
          · exact hg
        obtain ⟨h1, h2⟩ := old g x hg'
        refine ⟨by simpa [hij] using h1, ?_⟩
        split
        · exact h2
        · simpa [hij] using h2
  | trace t p x' =>
    exact old g x (by
      have : (s.tr.op (.trace t p x')).handles j = some (g, x) := hg
      rwa [(kept_trace s.tr t p x').handles] at this)
  | next t sl a g' =>
    exact old g x (by
      have : (s.tr.op (.next t sl a g')).handles j = some (g, x) := hg
      rwa [(kept_next hl.objects t sl a g').handles] at this)

theorem follows_run (ops : List Op) : ∀ {s : St}, Left s → Follows s → Always CleanAt s ops → Always StillOnAt s ops → Follows (run s ops) := by
  induction ops with
  | nil => exact fun _ h _ _ => h
  | cons o ops ih => exact fun hl h hc hs => ih (left_op hl o hc.1) (follows_op hl h o hc.1 hs.1) hc.2 hs.2

theorem follows_start (elems : Nat → List Nat) (on : Point → Bool) : Follows (start elems on) := by
  intro i h st hr; cases hr

theorem always_append {c : St → Op → Prop} (ops ops' : List Op) : ∀ {s : St}, Always c s (ops ++ ops') →
    Always c s ops ∧ Always c (run s ops) ops' := by
  induction ops with
  | nil => exact fun h => ⟨trivial, h⟩
  | cons o ops ih => exact fun h => ⟨⟨h.1, (ih h.2).1⟩, (ih h.2).2⟩

/-- A registration stays until the offer is stopped. -/
theorem stays_op {s : St} (hl : Left s) (o : Op) (hc : CleanAt s o) (j g x : Nat) (ho : s.offered j = true)
    (hg : s.tr.handles j = some (g, x)) (hn : ∀ a u, o ≠ .stop j a u) :
    (s.op o).offered j = true ∧ (s.op o).tr.handles j = some (g, x) := by
  have e : s.op o = s.next' o := by unfold St.op; rw [hl.dead]; rfl
  rw [e]
  cases o with
  | offer i w u =>
    have hij : j ≠ i := fun h => by have := hc.1; rw [← h, ho] at this; cases this
    show (s.offer i w u).1.offered j = true ∧ (s.offer i w u).1.tr.handles j = some (g, x)
    refine ⟨(offer_other s i j w u hij).1.trans ho, ?_⟩
    rcases offer_tr s i w u with e' | ⟨m, _, hw, _, e'⟩
    · rw [e']; exact hg
    · rw [e', (other_register _ _ _ _ _ _ _ hij).1]; exact hg
  | stop i a u =>
    have hij : j ≠ i := fun h => hn a u (by rw [h])
    show (s.stop i a u).offered j = true ∧ (s.stop i a u).tr.handles j = some (g, x)
    cases hoi : s.offered i
    · rw [stop_not s i a u hoi]; exact ⟨ho, hg⟩
    · rw [stop_eq s i a u hoi]
      refine ⟨by simpa [hij] using ho, ?_⟩
      dsimp only
      split
      · rw [(other_unregister _ _ _ _ hij).1]; exact hg
      · exact hg
  | trace t p x' => exact ⟨ho, by rw [← hg]; exact congrFun (kept_trace s.tr t p x').handles j⟩
  | next t sl a g' => exact ⟨ho, by rw [← hg]; exact congrFun (kept_next hl.objects t sl a g').handles j⟩

theorem stays_run (ops : List Op) (j g x : Nat) (hn : ∀ a u, Op.stop j a u ∉ ops) : ∀ {s : St}, Left s → Always CleanAt s ops →
    s.offered j = true → s.tr.handles j = some (g, x) →
    (run s ops).offered j = true ∧ (run s ops).tr.handles j = some (g, x) := by
  induction ops with
  | nil => exact fun _ _ h1 h2 => ⟨h1, h2⟩
  | cons o ops ih =>
    intro s hl hc h1 h2
    obtain ⟨h3, h4⟩ := stays_op hl o hc.1 j g x h1 h2 (fun a u e => hn a u (by simp [e]))
    exact ih (fun a u hm => hn a u (by simp [hm])) (left_op hl o hc.1) hc.2 h3 h4

/-- Without trace points there is never a registration. -/
theorem never_op {s : St} (ho : Objects s.tr) (i : Nat) (hw : s.wanted i = false) (o : Op) :
    (s.op o).wanted i = false ∧ ∀ h st, TraceCall.Ev.registered i h st ∈ (s.op o).tr.log → TraceCall.Ev.registered i h st ∈ s.tr.log := by
  constructor
  · obtain ⟨h1, h2, _⟩ := on_op ho o
    cases hw' : (s.op o).wanted i
    · rfl
    · rw [wanted_mono h1 h2 i hw'] at hw; cases hw
  · intro h st
    unfold St.op
    split
    · exact id
    · cases o with
      | offer j w u =>
        show _ ∈ (s.offer j w u).1.tr.log → _
        rcases offer_tr s j w u with e | ⟨m, _, hj, _, e⟩
        · rw [e]; exact id
        · rw [e]
          have hij : j ≠ i := fun h => by rw [h, hw] at hj; cases hj
          unfold TraceCall.St.register
          split
          · exact id
          · split
            · split
              · exact id
              · simp [TraceCall.St.add, TraceCall.St.setHandle]
                rintro (h | ⟨rfl, _⟩)
                · exact h
                · exact absurd rfl hij
            · simp [TraceCall.St.add]
            · exact id
            · split
              · exact id
              · simp [TraceCall.St.add, TraceCall.St.setCache]
      | stop j a u =>
        show _ ∈ (s.stop j a u).tr.log → _
        cases hoj : s.offered j
        · rw [stop_not s j a u hoj]; exact id
        · rw [stop_eq s j a u hoj]
          dsimp only
          split
          · unfold TraceCall.St.unregister
            split
            · exact id
            · split
              · exact id
              · dsimp only; split <;> simp [TraceCall.St.add, TraceCall.St.setHandle]
          · exact id
      | trace t p x => exact (kept_trace s.tr t p x).fresh i h st
      | next t sl a g => exact (kept_next ho t sl a g).fresh i h st

theorem never_run (ops : List Op) (i : Nat) : ∀ {s : St}, Objects s.tr → s.wanted i = false → (run s ops).wanted i = false ∧
    ∀ h st, TraceCall.Ev.registered i h st ∈ (run s ops).tr.log → TraceCall.Ev.registered i h st ∈ s.tr.log := by
  induction ops with
  | nil => exact fun _ h => ⟨h, fun _ _ => id⟩
  | cons o ops ih =>
    intro s ho hw
    obtain ⟨h1, h2⟩ := never_op ho i hw o
    obtain ⟨h3, h4⟩ := ih (objects_tr ho o) h1
    exact ⟨h3, fun h st hm => h2 h st (h4 h st hm)⟩

/-- When a call ends the process. -/
theorem dies_iff {s : St} (ho : Objects s.tr) (hd : s.tr.dead = false) (o : Op) : (s.op o).tr.dead = true ↔
    ∃ i w u m, o = .offer i w u ∧ w.mem = some m ∧ m.typed = true ∧ s.tr.enabled = true ∧ s.wanted i = true ∧
      ((w.answer = .ok ∧ s.tr.handles i ≠ none) ∨ (w.answer = .recoverable ∧ s.tr.cache (.shm i) ≠ none)) := by
  have e : s.op o = s.next' o := by unfold St.op; rw [hd]; rfl
  rw [e]
  constructor
  · intro h
    cases o with
    | offer i w u =>
      replace h : (s.offer i w u).1.tr.dead = true := h
      rcases offer_tr s i w u with e' | ⟨m, h1, h2, h3, e'⟩
      · rw [e', hd] at h; cases h
      · rw [e'] at h
        obtain ⟨h4, h5⟩ := (dead_register s.tr hd ..).1 h
        exact ⟨i, w, u, m, rfl, h1, h3, h4, h2, h5⟩
    | stop i a u =>
      replace h : (s.stop i a u).tr.dead = true := h
      cases hoi : s.offered i
      · rw [stop_not s i a u hoi, hd] at h; cases h
      · rw [stop_eq s i a u hoi] at h
        dsimp only at h
        split at h
        · rw [dead_unregister, hd] at h; cases h
        · rw [hd] at h; cases h
    | trace t p x =>
      have h' : (s.tr.op (.trace t p x)).dead = true := h
      rw [(kept_trace s.tr t p x).dead, hd] at h'; cases h'
    | next t sl a g =>
      have h' : (s.tr.op (.next t sl a g)).dead = true := h
      rw [(kept_next ho t sl a g).dead, hd] at h'; cases h'
  · rintro ⟨i, w, u, m, rfl, h1, h3, h4, h2, h5⟩
    show (s.offer i w u).1.tr.dead = true
    have h6 : (s.take i w m).tr.dead = true := by
      rw [take_eq]; dsimp only
      rw [if_pos (by simp [h2, h3])]
      exact (dead_register s.tr hd ..).2 ⟨h4, h5⟩
    unfold St.offer
    rw [h1]; dsimp only
    rw [if_pos h6]; exact h6

end Verif.TraceReg
