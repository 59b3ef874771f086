import Verif.Proofs.CompositeAlloc
/-!
C09, C10, C68 - a provider with a QM and an ASIL-B control.
The theorems range over every schedule of provider steps and consumer actions and any number of slots.
-/
namespace Verif.Props.C09
open Verif Verif.Slot Verif.Comp
open Verif.Ctrl (tsN rcN readyWord tsMax numNewEvents between readable)

/-- C09: start from any content of both controls in which the QM words of the slots that are published or
being written differ from the ASIL-B words only in their reference counts; the QM words of the other slots may
hold anything. Allocate is called while ASIL-B consumers are quiet and QM processes change reference counts at
will, and words of slots that are not published, at any moment. If the ASIL-B control has a free slot, then
Allocate returns after at most `N` steps of the provider, its result is a slot that was free in the ASIL-B
control, and that slot is now marked as being written there. -/
theorem allocate_succeeds (s : St) (hidle : s.pc = .idle)
    (hqm : ∀ i, s.b i ≠ invalidEvent → getTimeStamp (s.qm i) = getTimeStamp (s.b i))
    (hfree : ∃ i, i < s.n ∧ Free (s.b i)) :
    ∃ N, ∀ ops : List Op, (∀ op ∈ ops, QmLoose s.b op) → N ≤ ops.countP isProv →
      ∀ s', s' = run s (.alloc :: ops) →
      s'.pc = .idle ∧ ∃ i, i < s.n ∧ s'.res = some (some i) ∧ Free (s.b i) ∧ s'.b = upd s.b i inWriting := by
  have hrun : Running (step s .alloc) ∧ (step s .alloc).b = s.b ∧ (step s .alloc).n = s.n ∧ Quiet (step s .alloc) := by
    simp only [step, hidle, if_true]
    split
    · exact ⟨⟨Nat.zero_le _, Nat.le_refl _, fun _ => ⟨rfl, by intro j hj; omega⟩, by simp⟩, rfl, rfl, trivial⟩
    · exact ⟨⟨by decide, Nat.zero_le _, Nat.le_refl _, by simp [BestFree]⟩, rfl, rfl,
        fun j hj => congrArg BitVec.toNat (hqm j hj), by simp⟩
  refine ⟨mu (step s .alloc), fun ops ho hN s' hs' => ?_⟩
  have h := running_run hrun.2.2.2 hrun.1 (by rw [hrun.2.1, hrun.2.2.1]; exact hfree) (by rw [hrun.2.1]; exact ho) hN
  have he : s' = run (step s .alloc) ops := hs'
  rw [← he, hrun.2.1, hrun.2.2.1] at h
  obtain ⟨⟨h1, i, h2, h3, h4, h5⟩, h6⟩ := h
  exact ⟨h1, i, by omega, h3, h4, h5⟩

/-- C09: the provider is never terminated by the consistency assertion of Allocate, whatever QM processes do
to reference counts. -/
theorem never_terminated {n : Nat} {ops : List Op} (ho : ∀ op ∈ ops, RefCountsOnly op) :
    (run (init n) ops).pc ≠ .aborted :=
  (run_inv (init_inv False n) (fun op h => (ho op h).allowed)).not_aborted

/-- C09 for the states the system can get into: the timestamps agree whenever no call is in progress and the
QM side is connected. -/
theorem timestamps_agree {n : Nat} {ops : List Op} (ho : ∀ op ∈ ops, RefCountsOnly op)
    (hidle : (run (init n) ops).pc = .idle) (hconn : (run (init n) ops).ignore = false) (i : Nat) :
    getTimeStamp ((run (init n) ops).qm i) = getTimeStamp ((run (init n) ops).b i) :=
  BitVec.eq_of_toNat_eq
    (((run_inv (init_inv False n) (fun op h => (ho op h).allowed)).same hconn hidle) i).ts

/-- Two samples were sent, then QM processes set both QM reference counts to 7. -/
def demo : List Op :=
  [.alloc, .prov, .prov, .prov, .prov, .prov, .prov, .prov, .send 0, .prov, .alloc,
   .prov, .prov, .prov, .prov, .prov, .prov, .prov, .send 1, .prov, .qmScribble 0 7, .qmScribble 1 7]

example : (run (init 2) demo).pc = .idle ∧ (run (init 2) demo).ignore = false ∧
    (∀ i, i < 2 → getTimeStamp ((run (init 2) demo).qm i) = getTimeStamp ((run (init 2) demo).b i)) ∧
    tsN ((run (init 2) demo).b 0) = 1 ∧ tsN ((run (init 2) demo).b 1) = 2 ∧
    rcN ((run (init 2) demo).qm 0) = 7 ∧ rcN ((run (init 2) demo).qm 1) = 7 ∧
    rcN ((run (init 2) demo).b 0) = 0 := by decide +kernel
example : ∀ op ∈ demo, RefCountsOnly op := by simp [demo, RefCountsOnly]
/-- Slot 0 is published; a QM process stored a foreign word in slot 1, which is not. Slot 1 is free, and Allocate
finds it after the QM side was given up. -/
example : (∀ i, i < 2 → (run (init 2) [.alloc, .prov, .prov, .prov, .prov, .prov, .prov, .prov, .send 0, .prov,
      .qmCorrupt 1 (readyWord 9)]).b i ≠ invalidEvent →
      getTimeStamp ((run (init 2) [.alloc, .prov, .prov, .prov, .prov, .prov, .prov, .prov, .send 0, .prov,
        .qmCorrupt 1 (readyWord 9)]).qm i) =
      getTimeStamp ((run (init 2) [.alloc, .prov, .prov, .prov, .prov, .prov, .prov, .prov, .send 0, .prov,
        .qmCorrupt 1 (readyWord 9)]).b i)) ∧
    (run (init 2) ([.alloc, .prov, .prov, .prov, .prov, .prov, .prov, .prov, .send 0, .prov,
      .qmCorrupt 1 (readyWord 9), .alloc] ++ List.replicate 420 .prov)).res = some (some 1) := by
  refine ⟨by decide +kernel, by decide +kernel⟩

/-- Limit of C09: if a QM process changes a timestamp, the next Allocate terminates the ASIL-B provider. -/
theorem timestamp_corruption_terminates :
    (run (init 1) [.alloc, .prov, .prov, .prov, .prov, .prov, .send 0, .prov, .qmCorrupt 0 (readyWord 5),
      .alloc, .prov, .prov]).pc = .aborted := by decide +kernel

end Verif.Props.C09

namespace Verif.Props.C10
open Verif Verif.Slot Verif.Comp
open Verif.Ctrl (tsN rcN readyWord tsMax numNewEvents between readable)

/-- C10: as long as the QM side was never disconnected and no provider call is in progress, each slot has
the same timestamp and the same status (invalid, being written, readable) in both controls. -/
theorem same_slots {n : Nat} {ops : List Op} (ho : ∀ op ∈ ops, Behaved op) {s : St} (hs : s = run (init n) ops)
    (hidle : s.pc = .idle) (hconn : s.ignore = false) (i : Nat) :
    getTimeStamp (s.qm i) = getTimeStamp (s.b i) ∧ isInWriting (s.qm i) = isInWriting (s.b i) ∧
    isInvalid (s.qm i) = isInvalid (s.b i) := by
  subst hs
  have h := ((run_inv (init_inv True n) (fun op h => (ho op h).allowed)).same hconn hidle) i
  obtain ⟨h1, h2, h3⟩ := h.wr trivial
  refine ⟨BitVec.eq_of_toNat_eq h.ts, h1, ?_⟩
  generalize (run (init n) ops).qm i = x at *
  generalize (run (init n) ops).b i = y at *
  have aux : ∀ x y : Word, tsN x = tsN y → isInWriting x = isInWriting y → WOk y → x = invalidEvent →
      y = invalidEvent := by
    intro x y ht hw ho hx
    subst hx
    rcases ho (ht.symm.trans (by decide)) with h | h
    · exact h
    · subst h; exact absurd hw (by decide)
  rw [Bool.eq_iff_iff, isInvalid_iff, isInvalid_iff]
  exact ⟨aux x y h.ts h1 h3, aux y x h.ts.symm h1.symm h2⟩

/-- C10: therefore a QM consumer and an ASIL-B consumer that look for samples with a timestamp between two
bounds find the same slots, and count the same number of new samples. -/
theorem same_samples {n : Nat} {ops : List Op} (ho : ∀ op ∈ ops, Behaved op) {s : St} (hs : s = run (init n) ops)
    (hidle : s.pc = .idle) (hconn : s.ignore = false) :
    (∀ i min max, isTimeStampBetween (s.qm i) min max = isTimeStampBetween (s.b i) min max) ∧
    (∀ last, numNewEvents s.qm last s.n = numNewEvents s.b last s.n) := by
  have h := same_slots ho hs hidle hconn
  refine ⟨fun i min max => ?_, fun last => ?_⟩
  · obtain ⟨h1, h2, h3⟩ := h i
    simp only [isTimeStampBetween, h1, h2, h3]
  · generalize s.n = k
    induction k with
    | zero => rfl
    | succ k ih =>
      obtain ⟨h1, h2, h3⟩ := h k
      have hb : between (s.qm k) last tsMax = between (s.b k) last tsMax := by
        simp only [between, readable, tsN, h1, h2, h3]
      simp only [numNewEvents, ih, hb]

/-- Two samples were sent, QM and ASIL-B consumers hold references, one more slot is allocated. -/
def demo : List Op :=
  [.alloc, .prov, .prov, .prov, .prov, .prov, .prov, .prov, .prov, .prov, .send 0, .prov, .qmRef 0, .alloc,
   .prov, .prov, .prov, .prov, .prov, .prov, .prov, .prov, .prov, .send 1, .prov, .bRef 1, .bRef 1, .alloc,
   .prov, .prov, .prov, .prov, .prov, .prov, .prov, .prov, .prov]

example : (∀ op ∈ demo, Behaved op) ∧ (run (init 3) demo).pc = .idle ∧ (run (init 3) demo).ignore = false ∧
    (run (init 3) demo).alloc 2 = true ∧ tsN ((run (init 3) demo).qm 0) = 1 ∧ rcN ((run (init 3) demo).qm 0) = 1 ∧
    rcN ((run (init 3) demo).b 1) = 2 := by
  refine ⟨by simp [demo, Behaved], ?_⟩
  decide +kernel

end Verif.Props.C10

namespace Verif.Props.C68
open Verif Verif.Slot Verif.Comp
open Verif.Ctrl (tsN rcN readyWord tsMax numNewEvents between readable)

/-- C68, proved part: if the provider only dies between two of its calls and while the QM side is connected,
no restarted provider is terminated by the consistency assertion of Allocate, and both controls still
agree. What is missing: crashes inside Send, Discard and Allocate, and crashes after a disconnect; for these
the claim is false, see below. -/
theorem restart_safe_partial {n : Nat} {ops : List Op} (ho : CleanCrashes (init n) ops) {s : St}
    (hs : s = run (init n) ops) :
    s.pc ≠ .aborted ∧
    (s.pc = .idle → s.ignore = false → ∀ i, getTimeStamp (s.qm i) = getTimeStamp (s.b i)) := by
  subst hs
  have h := clean_run (init_inv True n) ho
  exact ⟨h.not_aborted, fun hp hi i => BitVec.eq_of_toNat_eq (h.same hi hp i).ts⟩

example : CleanCrashes (init 1) [.alloc, .prov, .prov, .prov, .prov, .prov, .send 0, .prov, .qmRef 0, .restart,
    .qmDeref 0, .alloc, .prov, .prov, .prov, .prov, .prov] ∧
    (run (init 1) [.alloc, .prov, .prov, .prov, .prov, .prov, .send 0, .prov, .qmRef 0, .restart,
      .qmDeref 0, .alloc, .prov, .prov, .prov, .prov, .prov]).res = some (some 0) := by
  refine ⟨?_, by decide +kernel⟩
  simp only [CleanCrashes, Behaved, or_true, true_and, and_true, false_or]
  decide +kernel

/-- C68 fails: the provider dies in Send after it marked the sample ready for ASIL-B consumers and before it
did so for QM consumers. The restarted provider is terminated by its first Allocate. -/
theorem crash_in_send_terminates :
    (run (init 1) [.alloc, .prov, .prov, .prov, .prov, .prov, .send 0, .restart,
      .alloc, .prov, .prov]).pc = .aborted := by decide +kernel

/-- C68 fails: the provider dies in Allocate after it took a slot with an old sample in the QM control and
before it did so in the ASIL-B control. -/
theorem crash_in_allocate_terminates :
    (run (init 1) [.alloc, .prov, .prov, .prov, .prov, .prov, .send 0, .prov,
      .alloc, .prov, .prov, .prov, .prov, .restart, .alloc, .prov, .prov]).pc = .aborted := by decide +kernel

/-- C68 fails: a QM consumer holds the only sample, so the QM side is disconnected and the provider goes on
with the ASIL-B control alone. When the provider dies between two calls and the QM consumer releases the
sample, the restarted provider is terminated by its first Allocate. -/
theorem crash_after_disconnect_terminates :
    ∃ ops : List Op, (∀ op ∈ ops, Behaved op) ∧ (run (init 1) ops).ignore = true ∧
      (run (init 1) ops).pc = .idle ∧
      (run (init 1) (ops ++ [.restart, .qmDeref 0, .alloc, .prov, .prov])).pc = .aborted := by
  refine ⟨[.alloc, .prov, .prov, .prov, .prov, .prov, .send 0, .prov, .qmRef 0, .alloc] ++
    List.replicate 303 .prov ++ [.send 0], ?_, ?_⟩
  · intro op hop
    simp only [List.mem_append, List.mem_replicate, List.mem_cons, List.not_mem_nil, or_false] at hop
    rcases hop with ((h | h | h | h | h | h | h | h | h | h) | h) | h <;>
      first | (subst h; trivial) | (obtain ⟨_, h⟩ := h; subst h; trivial)
  · decide +kernel

end Verif.Props.C68
