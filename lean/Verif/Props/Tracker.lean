import Verif.Proofs.Tracker
import Verif.Spec.Tracker
/-!
C24, C25 and C69: accounting of samples held by a consumer and of allocatee pointers held by a provider.
`T` threads and `G` SamplePtr (guard) objects, any numbers; executions are arbitrary lists of atomic steps.
-/
namespace Verif.Props.TrackerSpec
open Verif.Tracker

end Verif.Props.TrackerSpec

namespace Verif.Props.C24
open Verif.Tracker TrackerSpec

/-- In every execution: the samples held by SamplePtrs plus the reserved ones plus the available ones are exactly the
subscribed number. -/
theorem balanced (T G max : Nat) (l : List (Nat × Act)) :
    (run T G (init max) l).avail + pending T (run T G (init max) l) + alive G (run T G (init max) l) = max := by
  have h := run_inv (init_inv T G max) l
  have := h.1.sum
  rw [h.2] at this
  exact this

/-- So a consumer never holds more samples than it subscribed for, and the counter never exceeds its maximum. -/
theorem limit (T G max : Nat) (l : List (Nat × Act)) :
    alive G (run T G (init max) l) + pending T (run T G (init max) l) ≤ max ∧ (run T G (init max) l).avail ≤ max := by
  have := balanced T G max l
  omega

/-- The assertion in Deallocate never fails. -/
theorem never_terminates (T G max : Nat) (l : List (Nat × Act)) : (run T G (init max) l).dead = false :=
  (run_inv (init_inv T G max) l).1.alive

/-- When no SamplePtr holds a sample and no call is running, everything has been given back. -/
theorem all_given_back (T G max : Nat) (l : List (Nat × Act)) (h : alive G (run T G (init max) l) = 0)
    (hp : ∀ t, t < T → (run T G (init max) l).pc t = .idle) : (run T G (init max) l).avail = max := by
  have h1 := balanced T G max l
  have h2 : pending T (run T G (init max) l) = 0 := by
    have : pending T (run T G (init max) l) = sumTo (fun _ => 0) T :=
      sumTo_congr (fun j hj => by rw [hp j hj]; rfl)
    rw [this, sumTo_zero]
  omega

/-- Destroying a SamplePtr that holds a sample gives exactly one sample back; that object gives none back again. -/
theorem destroy_gives_one (T G : Nat) (s : St) (t g : Nat) (hs : s.dead = false) (ht : t < T) (hg : g < G)
    (hpc : s.pc t = .idle) (hold : s.guard g = true ∧ s.ref g = true)
    (hfree : ∀ u, u < T → s.pc u ≠ .unref g ∧ s.pc u ≠ .checkUnref g) :
    (step T G s t (.destroy g)).avail = s.avail + 1 ∧ (step T G s t (.destroy g)).guard g = false ∧
    ∀ x, x ≠ g → (step T G s t (.destroy g)).guard x = s.guard x := by
  have e : step T G s t (.destroy g) =
      { s with avail := s.avail + 1, guard := upd s.guard g false, pc := upd s.pc t (.checkUnref g) } := by
    unfold step
    rw [if_neg (by simp [hs]; exact ht)]
    simp only [hpc]
    rw [if_pos ⟨hg, hold.2, hfree⟩, if_pos hold.1]
  rw [e]
  exact ⟨rfl, by simp, fun x hx => upd_ne _ _ hx⟩

/-- A call that is not disturbed by other threads reserves as many samples as it asked for, or all that are left. -/
theorem reserves_what_is_left (T G : Nat) (s : St) (t n : Nat) (hs : s.dead = false) (ht : t < T)
    (hpc : s.pc t = .idle) :
    let e := run T G s [(t, .allocLoad n), (t, .cas true), (t, .cas true), (t, .allocDone)]
    e.pc t = .factory (min n s.avail) 0 ∧ e.avail = s.avail - min n s.avail := by
  have hd : ¬ (s.dead = true ∨ T ≤ t) := by simp [hs]; exact ht
  have hd' : ∀ x : St, x.dead = s.dead → ¬ (x.dead = true ∨ T ≤ t) := by intro x hx; rw [hx]; exact hd
  simp only [run, List.foldl]
  have e1 : step T G s t (.allocLoad n) = { s with pc := upd s.pc t (.casing n 0 s.avail) } := by
    unfold step; rw [if_neg hd]; simp only [hpc]
  rw [e1]
  by_cases h0 : 0 < n ∧ 0 < s.avail
  · have e2 : step T G { s with pc := upd s.pc t (.casing n 0 s.avail) } t (.cas true) =
        { s with avail := s.avail - min s.avail n,
                 pc := upd s.pc t (.casing (n - min s.avail n) (0 + min s.avail n) s.avail) } := by
      unfold step; rw [if_neg (hd' _ rfl)]
      simp only [upd_self]
      rw [if_pos h0]; simp [upd_upd]
    rw [e2]
    by_cases h1 : n ≤ s.avail
    · have hm : min s.avail n = n := by omega
      have hm' : min n s.avail = n := by omega
      rw [hm]
      have e3 : step T G { s with avail := s.avail - n, pc := upd s.pc t (.casing (n - n) (0 + n) s.avail) } t (.cas true) =
          { s with avail := s.avail - n, pc := upd s.pc t (.casing (n - n) (0 + n) s.avail) } := by
        unfold step; rw [if_neg (hd' _ rfl)]
        simp only [upd_self]
        rw [if_neg (by omega)]
      rw [e3]
      unfold step; rw [if_neg (hd' _ rfl)]
      simp only [upd_self]
      rw [if_neg (by omega)]
      simp [hm']
    · have hm : min s.avail n = s.avail := by omega
      have hm' : min n s.avail = s.avail := by omega
      rw [hm]
      have e3 : step T G { s with avail := s.avail - s.avail, pc := upd s.pc t (.casing (n - s.avail) (0 + s.avail) s.avail) } t (.cas true) =
          { s with avail := s.avail - s.avail, pc := upd s.pc t (.casing (n - s.avail) (0 + s.avail) 0) } := by
        unfold step; rw [if_neg (hd' _ rfl)]
        simp only [upd_self]
        rw [if_pos (by omega), if_neg (by omega)]
        simp [upd_upd]
      rw [e3]
      unfold step; rw [if_neg (hd' _ rfl)]
      simp only [upd_self]
      rw [if_neg (by omega)]
      simp [hm']
  · have e2 : step T G { s with pc := upd s.pc t (.casing n 0 s.avail) } t (.cas true) =
        { s with pc := upd s.pc t (.casing n 0 s.avail) } := by
      unfold step; rw [if_neg (hd' _ rfl)]
      simp only [upd_self]
      rw [if_neg h0]
    rw [e2, e2]
    unfold step; rw [if_neg (hd' _ rfl)]
    simp only [upd_self]
    rw [if_neg h0]
    have hm : min n s.avail = 0 := by omega
    simp [hm]

/-- Two threads: one holds two samples, the other is refused for lack of samples, then a sample is moved and destroyed
by the other thread. -/
def demo : List (Nat × Act) :=
  [(0, .allocLoad 2), (1, .allocLoad 1), (0, .cas true), (1, .cas true), (0, .allocDone), (1, .allocDone),
   (0, .collect), (0, .collect), (0, .deliver 0), (0, .deliver 1), (0, .factoryDtor), (1, .factoryDtor),
   (0, .move 0 2), (1, .destroy 2)]

example : (run 2 3 (init 2) (demo.take 12)).avail = 0 ∧ alive 3 (run 2 3 (init 2) (demo.take 12)) = 2 ∧
    (run 2 3 (init 2) demo).avail = 1 ∧ (run 2 3 (init 2) demo).guard 1 = true ∧
    (run 2 3 (init 2) (demo.take 12)).pc 1 = .idle := by decide +kernel
example : (run 2 3 (init 2) (demo ++ [(1, .finish), (1, .finish), (0, .destroy 1), (0, .finish), (0, .finish)])).avail = 2 ∧
    alive 3 (run 2 3 (init 2) (demo ++ [(1, .finish), (1, .finish), (0, .destroy 1), (0, .finish), (0, .finish)])) = 0 := by
  decide +kernel

end Verif.Props.C24

namespace Verif.Props.C69
open Verif.Tracker TrackerSpec

/-- The event slots referenced on behalf of a consumer are bounded by the subscribed number, plus one for every thread
that is inside a SamplePtr destructor. Missing for the full property: the bound without the second term, which the code
violates, see the next theorem. -/
theorem slots_referenced_partial (T G max : Nat) (l : List (Nat × Act)) :
    slotsReferenced T G (run T G (init max) l) ≤ max + inDestructor T (run T G (init max) l) := by
  have h := run_inv (init_inv T G max) l
  have h1 := h.1.sum
  have h2 := h.1.refs
  have h3 := totRefs_le h.1.fac
  rw [h.2] at h1
  unfold slotsReferenced inDestructor
  unfold totRes totUn totRefs at *
  have : (init max).max = max := rfl
  omega

/-- If no thread is inside a SamplePtr destructor, the bound is the subscribed number. -/
theorem slots_referenced_quiet (T G max : Nat) (l : List (Nat × Act))
    (h : ∀ t, t < T → unrefing ((run T G (init max) l).pc t) = false) :
    slotsReferenced T G (run T G (init max) l) ≤ max := by
  have h1 := slots_referenced_partial T G max l
  have h2 : inDestructor T (run T G (init max) l) = 0 := by
    unfold inDestructor; rw [count_eq_zero]; exact fun j hj => h j hj
  omega

/-- The bound is exceeded: thread 1 destroys the only SamplePtr of a subscription for one sample; it gives the sample back
before it dereferences the slot, and thread 0 references a second slot in between. -/
theorem slots_referenced_exceeded :
    ∃ l, slotsReferenced 2 2 (run 2 2 (init 1) l) = 2 :=
  ⟨[(0, .allocLoad 1), (0, .cas true), (0, .allocDone), (0, .collect), (0, .deliver 0), (0, .factoryDtor),
    (1, .destroy 0), (0, .allocLoad 1), (0, .cas true), (0, .allocDone), (0, .collect)], by decide +kernel⟩

example : slotsReferenced 2 3 (run 2 3 (init 2) (C24.demo.take 12)) = 2 ∧
    ∀ t, t < 2 → unrefing ((run 2 3 (init 2) (C24.demo.take 12)).pc t) = false := by decide +kernel

end Verif.Props.C69

namespace Verif.Props.C25
open Verif.Tracker.Alloc

/-- In every execution, the reported number of outstanding allocatee pointers is the number of pointer objects that hold an
allocation, and is the number of allocations minus the number of releases; the assertion in Deallocate never fails. -/
theorem reported (G : Nat) (l : List Act) (hl : ∀ a ∈ l, a ≠ .dtor) :
    (run G init l).count = count (run G init l).guard G ∧
    (run G init l).count = (run G init l).allocs - (run G init l).releases ∧
    (run G init l).releases ≤ (run G init l).allocs ∧ (run G init l).dead = false := by
  have h := run_inv (init_inv G) hl
  have := h.bal
  exact ⟨h.live, by omega, by omega, h.alive⟩

/-- Each allocation counts once and each destruction of an object holding an allocation counts once; other destructions
do not count. -/
theorem counted_once (G : Nat) (s : St) (g : Nat) (hs : s.dead = false) (hg : g < G) :
    (s.guard g = false → (step G s (.allocate g)).allocs = s.allocs + 1 ∧ (step G s (.allocate g)).releases = s.releases) ∧
    (s.guard g = true → (step G s (.destroy g)).releases = s.releases + 1 ∧ (step G s (.destroy g)).allocs = s.allocs) ∧
    (s.guard g = false → step G s (.destroy g) = s) := by
  refine ⟨fun h => ?_, fun h => ?_, fun h => ?_⟩
  · simp [step, hs, hg, h]
  · simp [step, hs, hg, h, dealloc]
  · simp [step, hs, h]

/-- Destroying the tracker terminates the process exactly if an allocatee pointer is outstanding. -/
theorem destroyed_while_in_use (G : Nat) (l : List Act) (hl : ∀ a ∈ l, a ≠ .dtor) :
    (step G (run G init l) .dtor).dead = true ↔ ∃ g, g < G ∧ (run G init l).guard g = true := by
  have h := run_inv (init_inv G) hl
  have e : (step G (run G init l) .dtor).dead = decide ((run G init l).count ≠ 0) := by
    simp [step, h.alive]
  rw [e, decide_eq_true_iff, h.live]
  constructor
  · intro hne
    apply Classical.byContradiction
    intro hn
    apply hne
    rw [count_eq_zero]
    intro j hj
    cases hc : (run G init l).guard j with
    | false => rfl
    | true => exact absurd ⟨j, hj, hc⟩ hn
  · rintro ⟨g, hg, e⟩
    have := count_pos hg e
    omega

example : (run 3 init [.allocate 0, .allocate 1, .move 0 2, .assign 2 1, .allocate 0]).count = 2 ∧
    (run 3 init [.allocate 0, .allocate 1, .move 0 2, .assign 2 1, .allocate 0]).allocs = 3 := by decide +kernel

end Verif.Props.C25
