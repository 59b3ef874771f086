import Verif.Props.EventCtrl
import Verif.Proofs.EventCtrlSeqProps
/-!
C05-C08: calls without concurrent activity, on the same step-by-step model as C02-C04. "Undisturbed"
means that from the call on only the caller's own steps are scheduled, and that no weak
compare-and-swap fails spuriously.
-/
namespace Verif.Props.Seq
open Verif Verif.Slot Verif.Ctrl Verif.Props.Ctrl
variable {V : Type}

end Verif.Props.Seq

namespace Verif.Props.C05
open Verif Verif.Slot Verif.Ctrl Verif.Props.Ctrl Verif.Props.Seq
variable {V : Type}

/-- C05: in every reachable state, GetNewSamples with maximum count `k`, undisturbed, ends after
finitely many steps; there is a list `new` of the slots it delivers (newest first) such that
* the samples are handed to the user in send order (`delivered` grows at its head, oldest first),
* every delivered sample was new to this consumer,
* either `k` samples are delivered or all new ones,
* everything new that was left out is older than everything delivered. -/
theorem newest_unseen {n m : Nat} {v0 : V} {ops : List (Op V)} (hm : m < 2 ^ 32 - 1) {c : Nat} (hc : c < m)
    (hidle : AtRest (run (init n m v0) ops) c) (hlen : (run (init n m v0) ops).sent.length < 2 ^ 32 - 1) (k : Nat) :
    ∃ (N : Nat) (new : List Nat), ∀ j, N ≤ j → ∀ s s', s = run (init n m v0) ops → s' = getNewSamples s c k j →
      (s'.cons c).pc = .idle ∧
      (s'.cons c).delivered = new.map (fun i => (tsN (s.slots i), s.data i)) ++ (s.cons c).delivered ∧
      (∀ i, (s'.cons c).held i = true ↔ ((s.cons c).held i = true ∨ i ∈ new)) ∧
      new.Pairwise (fun i j => tsN (s.slots j) < tsN (s.slots i)) ∧
      (∀ i ∈ new, NewFor s c i) ∧
      new.length ≤ k ∧ (new.length = k ∨ ∀ i, NewFor s c i → i ∈ new) ∧
      (∀ i ∈ new, ∀ j, NewFor s c j → j ∉ new → tsN (s.slots j) < tsN (s.slots i)) := by
  obtain ⟨N, coll, h⟩ := get_result hm hc hidle hlen k
  have hnew := unseen_iff hm hc hidle hlen
  refine ⟨N, coll, ?_⟩
  intro j hj s s' e e'
  obtain ⟨h1, h2, h3, h4, h5, h6, h7⟩ := h j hj s s' e e'
  refine ⟨h1, h2, h3, h4, h5, by omega, ?_, h7⟩
  by_cases hlt : k ≤ count (unseen s.slots (s.cons c).last) s.n
  · left; omega
  · right
    rw [← e] at hnew
    have hnd : coll.Nodup := by
      refine List.Pairwise.imp ?_ h4
      intro a b hab e; subst e; omega
    intro i hi
    cases hmem : decide (i ∈ coll) with
    | true => simpa using hmem
    | false =>
      exfalso
      have hni : i ∉ coll := by simpa using hmem
      have := (length_le_count (i :: coll) (unseen s.slots (s.cons c).last) s.n
        (List.nodup_cons.mpr ⟨hni, hnd⟩) (by
          intro x hx
          rcases List.mem_cons.mp hx with h | h
          · subst h; exact (hnew x).mp hi
          · exact (hnew x).mp (h5 x h))).1
      simp only [List.length_cons] at this
      omega

/-- Three samples are in the slots, one was seen; asking for one delivers the newest. -/
def demo5 : List (Op Nat) :=
  demo ++ List.replicate 3 (.consStep 0 false) ++ [.provAlloc, .provStep, .provStep, .provStep, .provWrite 1 43, .provSend 1,
    .provAlloc, .provStep, .provStep, .provStep, .provStep, .provWrite 2 44, .provSend 2]

example : ((run (init 3 1 0) demo5).cons 0).delivered = [(1, 42)] ∧
    ((getNewSamples (run (init 3 1 0) demo5) 0 1 12).cons 0).delivered = [(3, 44), (1, 42)] ∧
    ((getNewSamples (run (init 3 1 0) demo5) 0 5 40).cons 0).delivered = [(3, 44), (2, 43), (1, 42)] := by
  decide +kernel

example : AtRest (run (init 3 1 0) demo5) 0 ∧ NewFor (run (init 3 1 0) demo5) 0 2 ∧
    ¬ NewFor (run (init 3 1 0) demo5) 0 0 := by
  refine ⟨⟨by decide +kernel, ?_⟩, ?_, ?_⟩
  · intro i
    have : (run (init 3 1 0) demo5).cons 0 = (run (init 3 1 0) demo5).cons 0 := rfl
    by_cases h : i = 0
    · subst h; decide +kernel
    · rfl
  · unfold NewFor; decide +kernel
  · unfold NewFor; decide +kernel

end Verif.Props.C05

namespace Verif.Props.C06
open Verif Verif.Slot Verif.Ctrl Verif.Props.Ctrl Verif.Props.Seq
variable {V : Type}

/-- C06: GetNumNewSamplesAvailable is the number of samples an undisturbed GetNewSamples with a
sufficient maximum count then delivers. -/
theorem agrees {n m : Nat} {v0 : V} {ops : List (Op V)} (hm : m < 2 ^ 32 - 1) {c : Nat} (hc : c < m)
    (hidle : AtRest (run (init n m v0) ops) c) (hlen : (run (init n m v0) ops).sent.length < 2 ^ 32 - 1) (k : Nat) :
    ∃ N : Nat, ∀ j, N ≤ j → ∀ s s', s = run (init n m v0) ops → s' = getNewSamples s c k j →
      numNewEvents s.slots (s.cons c).last s.n ≤ k →
      (s'.cons c).pc = .idle ∧
      (s'.cons c).delivered.length = (s.cons c).delivered.length + numNewEvents s.slots (s.cons c).last s.n := by
  obtain ⟨N, coll, h⟩ := get_result hm hc hidle hlen k
  refine ⟨N, ?_⟩
  intro j hj s s' e e' hk
  obtain ⟨h1, h2, h3, h4, h5, h6, h7⟩ := h j hj s s' e e'
  rw [numNewEvents_eq] at hk ⊢
  refine ⟨h1, ?_⟩
  rw [h2]
  simp only [List.length_append, List.length_map]
  omega

example : numNewEvents (run (init 3 1 0) C05.demo5).slots ((run (init 3 1 0) C05.demo5).cons 0).last 3 = 2 := by
  decide +kernel

end Verif.Props.C06

namespace Verif.Props.C07
open Verif Verif.Slot Verif.Ctrl Verif.Props.Ctrl Verif.Props.Seq
variable {V : Type}

/-- C07: an undisturbed Allocate ends; if some slot is free it takes one free slot and changes nothing
else, otherwise it changes nothing. This holds for every content of the slots whose timestamps are
below the maximum. -/
theorem iff_free (s : St V) (hidle : s.ppc = .idle) (ht : ∀ i, i < s.n → tsN (s.slots i) < tsMax) :
    ∃ N, ∀ j, N ≤ j →
      ((∃ i, FreeSlot s i) → ∃ i, FreeSlot s i ∧ allocate s j =
        { s with slots := upd s.slots i inWriting, alloc := upd s.alloc i true }) ∧
      ((¬ ∃ i, FreeSlot s i) → allocate s j = s) := by
  obtain ⟨N, h⟩ := alloc_result s hidle ht
  refine ⟨N, ?_⟩
  intro j hj
  rcases h with ⟨i, h1, h2⟩ | ⟨h1, h2⟩
  · have hf : FreeSlot s i := ⟨h2.1, h2.2.1.2, h2.2.1.1⟩
    exact ⟨fun _ => ⟨i, hf, h1 j hj⟩, fun hn => absurd ⟨i, hf⟩ hn⟩
  · exact ⟨fun ⟨i, hi⟩ => absurd ⟨hi.2.2, hi.2.1⟩ (h2 i hi.1), fun _ => h1 j hj⟩

/-- C07: Allocate succeeds whenever there are more slots than SamplePtrs held plus samples allocated
and not yet sent, in every reachable state in which no call is in progress. -/
theorem enough_slots {n m : Nat} {v0 : V} {ops : List (Op V)} (hm : m < 2 ^ 32 - 1)
    (hidle : (run (init n m v0) ops).ppc = .idle)
    (hrest : ∀ c, c < m → AtRest (run (init n m v0) ops) c)
    (hlen : (run (init n m v0) ops).sent.length < 2 ^ 32 - 1)
    (henough : heldTotal (run (init n m v0) ops) m + count (run (init n m v0) ops).alloc n < n) :
    ∃ N, ∀ j, N ≤ j → ∃ i, FreeSlot (run (init n m v0) ops) i ∧
      (run (init n m v0) ops).alloc i = false ∧
      (allocate (run (init n m v0) ops) j).alloc = upd (run (init n m v0) ops).alloc i true := by
  obtain ⟨h, hn, hmm⟩ := Reachable.inv (n := n) (v0 := v0) ⟨ops, rfl⟩ hm
  have hv := visInv_run (init_inv (n := n) v0 hm) (visInv_init n m v0) ops
  have hex := C15.exact_at_rest (n := n) (v0 := v0) (s := run (init n m v0) ops) hm ⟨ops, rfl⟩ hrest
  generalize run (init n m v0) ops = s at *
  have hu := used_le s m
  -- pigeonhole
  have : ∃ i, i < n ∧ s.alloc i = false ∧ ∀ c, c < m → (s.cons c).held i = false := by
    refine Decidable.byContradiction fun hno => ?_
    have hall : ∀ i, i < n → (decide (∃ c, c < m ∧ (s.cons c).held i = true) || s.alloc i) = true := by
      intro i hi
      cases ha : s.alloc i with
      | true => simp
      | false =>
        simp only [Bool.or_false, decide_eq_true_eq]
        refine Decidable.byContradiction fun hn2 => hno ⟨i, hi, ha, ?_⟩
        intro c hc
        cases hh : (s.cons c).held i with
        | false => rfl
        | true => exact absurd ⟨c, hc, hh⟩ hn2
    have hcnt : ∀ k, k ≤ n → k ≤ count (fun i => decide (∃ c, c < m ∧ (s.cons c).held i = true)) k + count s.alloc k := by
      intro k
      induction k with
      | zero => omega
      | succ k ih =>
        intro hk
        have := ih (by omega)
        have h2 := hall k (by omega)
        simp only [count]
        rw [Bool.or_eq_true] at h2
        rcases h2 with h2 | h2
        · simp only [h2, if_true]; split <;> omega
        · simp only [h2, if_true]; split <;> omega
    have := hcnt n (by omega)
    rw [hn] at hu
    omega
  obtain ⟨i, hi, ha, hh⟩ := this
  have hnw : s.slots i ≠ inWriting := by
    intro e; have := (h.alloc i).mpr e; rw [ha] at this; cases this
  have hf : FreeSlot s i := by
    refine ⟨by omega, hnw, ?_⟩
    rw [hex i hnw, count_eq_zero]
    intro c hc; exact hh c hc
  obtain ⟨N, hN⟩ := iff_free s hidle (by
    intro j hj
    have hcur := hv.cur (by omega)
    by_cases hr : readable (s.slots j) = true
    · have := hv.vis (by omega) j hj hr
      unfold tsMax; omega
    · rw [readable_iff] at hr
      by_cases hw : s.slots j = inWriting
      · rw [hw]; decide
      · by_cases hi0 : s.slots j = invalidEvent
        · rw [hi0]; decide
        · exact absurd ⟨hw, hi0⟩ hr)
  refine ⟨N, ?_⟩
  intro j hj
  obtain ⟨k, hk, hk2⟩ := (hN j hj).1 ⟨i, hf⟩
  refine ⟨k, hk, ?_, by rw [hk2]⟩
  cases hx : s.alloc k with
  | false => rfl
  | true => exact absurd ((h.alloc k).mp hx) hk.2.1

example : (run (init 3 1 0) C05.demo5).ppc = .idle ∧ heldTotal (run (init 3 1 0) C05.demo5) 1 = 1 ∧
    count (run (init 3 1 0) C05.demo5).alloc 3 = 0 ∧ FreeSlot (run (init 3 1 0) C05.demo5) 1 ∧
    ¬ FreeSlot (run (init 3 1 0) C05.demo5) 0 := by
  unfold FreeSlot; decide +kernel

end Verif.Props.C07

namespace Verif.Props.C08
open Verif Verif.Slot Verif.Ctrl Verif.Props.Ctrl Verif.Props.Seq Verif.Props.C07
variable {V : Type}

/-- C08: if an undisturbed Allocate takes slot `i` and `i` held a sample, then every slot had been used
before, and no free slot held an older sample. For every content of the slots whose timestamps are
below the maximum. -/
theorem evicts_oldest (s : St V) (hidle : s.ppc = .idle) (ht : ∀ i, i < s.n → tsN (s.slots i) < tsMax) :
    ∃ N, ∀ j, N ≤ j → ∀ i, s.alloc i = false → (allocate s j).alloc i = true → s.slots i ≠ invalidEvent →
      (∀ k, k < s.n → s.slots k ≠ invalidEvent) ∧ (∀ k, FreeSlot s k → tsN (s.slots i) ≤ tsN (s.slots k)) := by
  obtain ⟨N, h⟩ := alloc_result s hidle ht
  refine ⟨N, ?_⟩
  intro j hj i ha ha' hi
  rcases h with ⟨k, h1, h2⟩ | ⟨h1, _⟩
  · rw [h1 j hj] at ha'
    have : i = k := by
      by_cases hik : i = k
      · exact hik
      · simp only [upd_ne _ _ hik] at ha'
        rw [ha] at ha'; cases ha'
    subst this
    have := h2.2.2 hi
    exact ⟨this.1, fun k hk => this.2 k hk.1 ⟨hk.2.2, hk.2.1⟩⟩
  · rw [h1 j hj, ha] at ha'; cases ha'

/-- All three slots have been used, slot 0 is held; Allocate takes slot 1, the older of the other two. -/
example : (allocate (run (init 3 1 0) C05.demo5) 6).alloc 1 = true ∧ (run (init 3 1 0) C05.demo5).alloc 1 = false ∧
    (run (init 3 1 0) C05.demo5).slots 1 ≠ invalidEvent ∧
    (∀ i, i < 3 → tsN ((run (init 3 1 0) C05.demo5).slots i) < tsMax) := by
  decide +kernel

end Verif.Props.C08
