import Verif.Proofs.TraceMore

/-! C88: a sample that is traced is kept until the trace subsystem is done with it, and released afterwards. -/
namespace Verif.Props.C88
open Verif.TraceSlots Verif.TraceSlotsSpec

/-- If calls for one element do not overlap and no element is stopped while the subsystem
works on its samples, the process holds a reference to every sample on which the
subsystem works. -/
theorem kept_partial (size : Nat) (ops : List Op) (alone : Alone (start size) ops) (settled : Settled (start size) ops)
    (c x : Nat) (working : (c, x) ∈ (run (start size) ops).flight) : Holds (run (start size) ops) c x :=
  (kept_run ops (single_start size) (kept_start size) alone settled).kept c x working

/-- The subsystem never works on two samples under one number. -/
theorem numbers_differ_partial (size : Nat) (ops : List Op) (alone : Alone (start size) ops)
    (settled : Settled (start size) ops) (i j c x y : Nat) (different : i < j)
    (hi : (run (start size) ops).flight[i]? = some (c, x)) : (run (start size) ops).flight[j]? ≠ some (c, y) := by
  intro hj
  obtain ⟨i1, i2⟩ := List.getElem?_eq_some_iff.1 hi
  obtain ⟨j1, j2⟩ := List.getElem?_eq_some_iff.1 hj
  have := List.pairwise_iff_getElem.1 (kept_run ops (single_start size) (kept_start size) alone settled).nodup i j
    (by simpa using i1) (by simpa using j1) different
  simp [i2, j2] at this

/-- No reference is forgotten, whatever the threads do: when all calls have returned and
the subsystem has no work, the process holds no sample. -/
theorem all_released (size : Nat) (ops : List Op) (quiet : Quiet (run (start size) ops)) (c x : Nat) :
    ¬ Holds (run (start size) ops) c x := by
  intro h
  rcases cover_run ops (cover_start size) c x h with hf | ⟨t, ht⟩
  · rw [quiet.2] at hf; cases hf
  · rw [quiet.1 t] at ht; exact ht

/-- When the call that stops an element returns, the process holds no sample of it. -/
theorem stop_releases_partial (size : Nat) (ops : List Op) (alone : Alone (start size) ops) (t e c x : Nat)
    (returns : StopReturns (run (start size) ops) t e) (own : Own (run (start size) ops) e c) :
    ¬ Holds ((run (start size) ops).op (.next t true)) c x := by
  generalize hs : run (start size) ops = s at *
  have hsi : Single s := by rw [← hs]; exact single_run ops (single_start size) alone
  have hsw : Swept s := by rw [← hs]; exact swept_run ops (single_start size) (swept_start size) alone
  obtain ⟨⟨i, hp⟩, hid⟩ := returns
  obtain ⟨a, n, r, h1, h2⟩ := own
  have he : s.op (.next t true) = if s.dead then s else if i = a + n then s.setPc t .idle
      else if i ≥ s.size then { s with dead := true } else (s.setSlot i none).setPc t (.stop e (i + 1)) := by
    simp [St.op, St.next', St.step, hp, r]
  rw [he] at hid ⊢
  unfold Holds
  split at hid
  · rw [hp] at hid; cases hid
  · rename_i hd
    split at hid
    · rename_i hi
      rw [if_neg hd, if_pos hi]
      intro hx
      have := hsw t e i c hp ⟨a, n, r, h1, h2⟩ (by omega)
      rw [show (s.setPc t .idle).slots c = s.slots c from rfl, this] at hx
      cases hx
    · split at hid
      · dsimp only at hid; rw [hp] at hid; cases hid
      · simp at hid

/-- Every element has its own slots: no slot is given to two elements. -/
theorem slots_of_elements_differ (size : Nat) (ops : List Op) (e e' c : Nat)
    (h : Own (run (start size) ops) e c) (h' : Own (run (start size) ops) e' c) : e = e' :=
  own_unique (ranged_run ops (ranged_start size)) h h'

/-- The slots of an element exist: in every execution, also if the elements ask for more slots than there are. -/
theorem own_slot_exists (size : Nat) (ops : List Op) (e c : Nat) (h : Own (run (start size) ops) e c) : c < size := by
  have := own_size (ranged_run ops (ranged_start size)) h
  rwa [size_run] at this

/-- If the elements ask for as many slots as there are and their calls do not overlap,
no assertion of the tracing code ends the process. -/
theorem process_lives_partial (size : Nat) (ops : List Op) (alone : Alone (start size) ops) (enough : Enough size ops) :
    (run (start size) ops).dead = false :=
  alive_run ops (single_start size) rfl alone enough.1 (by simpa [start] using enough.2)

/-- A send is traced if the element has a free slot when it begins: the sender is not told
that there is no slot, whatever the other threads do meanwhile. -/
theorem traced_if_free_partial (size : Nat) (before after : List Op) (t e x c : Nat)
    (alone : Alone (start size) (before ++ .trace t e x :: after))
    (own : Own (run (start size) before) e c) (free : ∀ y, ¬ Holds (run (start size) before) c y)
    (ready : (run (start size) before).pc t = .idle) (only : ∀ e' x', Op.trace t e' x' ∉ after) :
    losses (run (start size) (before ++ .trace t e x :: after)) t = losses (run (start size) before) t := by
  obtain ⟨ha, hb⟩ := alone_append before _ alone
  have hs := single_run before (single_start size) ha
  rw [run_append]
  generalize run (start size) before = s at *
  obtain ⟨a, n, r, h1, h2⟩ := own
  have hf : Finds (s.op (.trace t e x)) t c := by
    intro e' x' i hp
    unfold St.op at hp ⊢
    split at hp
    · rw [ready] at hp; cases hp
    · rename_i hd
      rw [if_neg hd]
      simp only [St.next', ready, r, pc_setPc, if_true] at hp ⊢
      cases hp
      refine ⟨h1, ⟨a, n, r, h1, h2⟩, ?_⟩
      show s.slots c = none
      cases hc : s.slots c with
      | none => rfl
      | some y => exact absurd hc (free y)
  have hl : (s.op (.trace t e x)).lost = s.lost := by
    unfold St.op
    split
    · rfl
    · simp only [St.next', ready, r]; rfl
  have := finds_run after (single_op hs _ hb.1) hb.2 hf only
  show ((run (s.op (.trace t e x)) after).lost.filter _).length = _
  rw [this, hl]; rfl

/-- A send that is not interrupted and accepted by the subsystem is traced: if the element
has a free slot, then after it the subsystem works on the sample and the process
holds the sample in a slot of the element. -/
theorem send_is_traced (size : Nat) (ops : List Op) (t e x c : Nat) (alive : (run (start size) ops).dead = false)
    (own : Own (run (start size) ops) e c) (free : ∀ y, ¬ Holds (run (start size) ops) c y)
    (ready : (run (start size) ops).pc t = .idle) (steps : Nat) (long : size + 3 ≤ steps) :
    ∃ d, Own (run (start size) ops) e d ∧
      (run (start size) (ops ++ .trace t e x :: List.replicate steps (.next t true))).pc t = .idle ∧
      (run (start size) (ops ++ .trace t e x :: List.replicate steps (.next t true))).flight =
        (run (start size) ops).flight ++ [(d, x)] ∧
      Holds (run (start size) (ops ++ .trace t e x :: List.replicate steps (.next t true))) d x := by
  have hr := ranged_run ops (ranged_start size)
  have hsz : ∀ {e c}, Own (run (start size) ops) e c → c < size := fun h => by
    have := own_size hr h; rwa [size_run] at this
  rw [run_append]
  have hz := size_run size ops
  generalize run (start size) ops = s at *
  obtain ⟨a, n, r, h1, h2⟩ := own
  have hlast := hsz (e := e) (c := a + n - 1) ⟨a, n, r, by omega, by omega⟩
  have hu : s.slots c = none := by
    cases hc : s.slots c with
    | none => rfl
    | some y => exact absurd hc (free y)
  have e0 : s.op (.trace t e x) = s.setPc t (.pick e x a) := by simp [St.op, alive, St.next', ready, r]
  obtain ⟨d, i1, i2, i3, i4⟩ := pick_reaches t e x a n c (c - a) a (s.setPc t (.pick e x a)) alive (by simp [St.setPc]) r
    (by omega) h2 (by show a + n ≤ s.size; omega) hu
  have := i4 steps (by omega)
  refine ⟨d, ⟨a, n, r, i1, by omega⟩, ?_⟩
  show (run (s.op (.trace t e x)) _).pc t = _ ∧ (run (s.op (.trace t e x)) _).flight = _ ∧ Holds (run (s.op (.trace t e x)) _) d x
  rw [e0]
  exact ⟨this.1, this.2.1, by unfold Holds; rw [this.2.2]; simp⟩

/-- Without the second restriction the first theorem fails: an element is stopped while the
subsystem works on a sample, offered again and sends again; the late callback for the first
sample releases the second one, on which the subsystem still works. -/
theorem late_callback_releases_other_sample : ∃ (ops : List Op) (c x : Nat), Alone (start 1) ops ∧
    (c, x) ∈ (run (start 1) ops).flight ∧ ¬ Holds (run (start 1) ops) c x := by
  refine ⟨[.register 1, .trace 0 0 7, .next 0 true, .next 0 true, .next 0 true, .stop 0 0, .next 0 true, .next 0 true,
    .trace 0 0 8, .next 0 true, .next 0 true, .next 0 true, .finish 1 0, .next 1 true, .next 1 true], 0, 8, ?_, ?_, ?_⟩
  · have idle : ∀ (s : St), (∀ t, s.pc t = if t = 0 then .idle else .idle) → Free s 0 := by
      intro s h t; rw [h t]; split <;> simp [element]
    refine ⟨trivial, idle _ ?_, trivial, trivial, trivial, idle _ ?_, trivial, trivial, idle _ ?_, trivial, trivial, trivial,
      trivial, trivial, trivial, trivial⟩ <;> intro t <;> by_cases h : t = 0 <;> simp [h, St.op, St.next', St.step,
      St.register, St.setPc, St.setSlot, start]
  · decide +kernel
  · show ¬ (_ = some 8)
    decide +kernel

/-- Without the first restriction an assertion ends the process: two threads send samples
of one element at once. -/
theorem two_senders_end_process : ∃ ops : List Op, Enough 1 ops ∧ (run (start 1) ops).dead = true :=
  ⟨[.register 1, .trace 0 0 7, .trace 1 0 8, .next 0 true, .next 1 true, .next 0 true, .next 1 true],
    ⟨by simp [asked], by simp [asked]⟩, by decide +kernel⟩

/-! ## The hypotheses are met -/

/-- Two elements; both send, one sample is finished, the other is in the subsystem. -/
def demo : List Op := [.register 1, .register 2, .trace 0 1 5, .next 0 true, .next 0 true, .next 0 true,
  .trace 0 0 6, .next 0 true, .next 0 true, .next 0 true, .finish 2 0, .next 2 true, .next 2 true]

example : Enough 3 demo := ⟨by simp [demo, asked], by simp [demo, asked]⟩
example : (run (start 3) demo).flight = [(0, 6)] ∧ (run (start 3) demo).slots 0 = some 6 ∧
    (run (start 3) demo).slots 1 = none := by decide +kernel
example : (run (start 3) (demo ++ [.finish 2 0, .next 2 true, .next 2 true])).flight = [] := by decide +kernel
/-- A sender without a free slot is told so. -/
example : losses (run (start 3) (demo ++ [.trace 0 0 9, .next 0 true, .next 0 true])) 0 = 1 := by decide +kernel
/-- A stop that is about to return. -/
example : (run (start 3) [.register 1, .stop 0 0, .next 0 true]).pc 0 = .stop 0 1 := by decide +kernel

end Verif.Props.C88

namespace Verif.Demo.C88
open Verif.TraceSlots Verif.TraceSlotsSpec Verif.Props.C88

theorem demo_alone : Alone (start 3) demo ∧ Settled (start 3) demo := by
  have idle : ∀ (s : St) e, (∀ t, s.pc t = if t = 0 then .idle else .idle) → Free s e := by
    intro s e h t; rw [h t]; split <;> simp [element]
  constructor
  · refine ⟨trivial, trivial, idle _ _ ?_, trivial, trivial, trivial, idle _ _ ?_, trivial, trivial, trivial, trivial,
      trivial, trivial, trivial⟩ <;> intro t <;> by_cases h : t = 0 <;> simp [h, St.op, St.next', St.step,
      St.register, St.setPc, St.setSlot, start]
  · exact ⟨trivial, trivial, trivial, trivial, trivial, trivial, trivial, trivial, trivial, trivial, trivial, trivial,
      trivial, trivial⟩

end Verif.Demo.C88
