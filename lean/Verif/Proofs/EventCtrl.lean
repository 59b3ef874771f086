import Verif.Spec.EventCtrl
import Verif.Proofs.EventSlotStatus
/-! Inductive invariant of the event control transition system. -/
namespace Verif.Ctrl
open Verif Verif.Slot

variable {V : Type}

theorem rcN_eq (w : Word) : rcN w = w.toNat % 2 ^ 32 := rc_toNat w
theorem tsN_eq (w : Word) : tsN w = w.toNat / 2 ^ 32 := ts_toNat w

theorem word_succ {w : Word} (h : rcN w + 1 < 2 ^ 32) : tsN (w + 1#64) = tsN w ∧ rcN (w + 1#64) = rcN w + 1 := by
  rw [rcN_eq] at *
  rw [tsN_eq, tsN_eq, rcN_eq]
  have := w.isLt
  have h1 : (w + 1#64).toNat = w.toNat + 1 := by
    rw [BitVec.toNat_add]; simp; omega
  rw [h1]; omega

theorem word_pred {w : Word} (h : 0 < rcN w) : tsN (w - 1#64) = tsN w ∧ rcN (w - 1#64) = rcN w - 1 := by
  rw [rcN_eq] at *
  rw [tsN_eq, tsN_eq, rcN_eq]
  have := w.isLt
  have h1 : (w - 1#64).toNat = w.toNat - 1 := by
    rw [BitVec.toNat_sub]; simp; omega
  rw [h1]; omega

theorem rcN_inWriting : rcN inWriting = 2 ^ 32 - 1 := by decide
theorem tsN_inWriting : tsN inWriting = 0 := by decide
theorem rcN_invalid : rcN invalidEvent = 0 := by decide

theorem rcN_ready (t : Nat) : rcN (readyWord t) = 0 := by
  rw [rcN_eq, readyWord, make_toNat]; simp
theorem tsN_ready (t : Nat) : tsN (readyWord t) = t % 2 ^ 32 := by
  rw [tsN_eq, readyWord, make_toNat]; simp

theorem readable_iff (w : Word) : readable w = true ↔ w ≠ inWriting ∧ w ≠ invalidEvent := by
  simp [readable, isInWriting, isInvalid]

theorem readable_of_rc {w : Word} (h : w ≠ inWriting) (h' : 0 < rcN w) : readable w = true := by
  rw [readable_iff]; refine ⟨h, ?_⟩
  intro h0; subst h0; rw [rcN_invalid] at h'; omega

theorem between_iff (w : Word) (lo hi : Nat) :
    between w lo hi = true ↔ (w ≠ inWriting ∧ w ≠ invalidEvent) ∧ lo < tsN w ∧ tsN w < hi := by
  simp [between, readable_iff, and_assoc]

/-- Life cycle of one log slot of a running consumer. -/
def SlotOk (c : Cons V) (i : Nat) : Prop :=
  (c.rel i = .begun ∧ c.b i = false ∧ c.e i = true ∧ c.cnt i = true ∧ c.held i = false ∧
    i ∉ pend c.pc ∧ (∀ k, mid c.pc ≠ some (i, k))) ∨
  (c.rel i = .subbed ∧ c.b i = false ∧ c.e i = true ∧ c.cnt i = false ∧ c.held i = false ∧
    i ∉ pend c.pc ∧ (∀ k, mid c.pc ≠ some (i, k))) ∨
  (c.rel i = .none ∧ ∃ k, mid c.pc = some (i, k) ∧ c.b i = true ∧ c.e i = false ∧ c.cnt i = k ∧
    c.held i = false ∧ i ∉ pend c.pc) ∨
  (c.rel i = .none ∧ (∀ k, mid c.pc ≠ some (i, k)) ∧ c.b i = false ∧ c.e i = false ∧ c.cnt i = false ∧
    c.held i = false ∧ i ∉ pend c.pc) ∨
  (c.rel i = .none ∧ (∀ k, mid c.pc ≠ some (i, k)) ∧ c.b i = true ∧ c.e i = true ∧ c.cnt i = true ∧
    c.held i = true ∧ i ∉ pend c.pc) ∨
  (c.rel i = .none ∧ (∀ k, mid c.pc ≠ some (i, k)) ∧ c.b i = true ∧ c.e i = true ∧ c.cnt i = true ∧
    c.held i = false ∧ i ∈ pend c.pc)

/-- Timestamps of the collected slots while collecting. -/
def CollOk (slots : Nat → Word) (c : Cons V) (cx : Ctx) : Prop :=
  cx.high ≤ tsMax ∧ cx.coll.Pairwise (fun i j => tsN (slots j) < tsN (slots i)) ∧
  ∀ i ∈ cx.coll, c.last < tsN (slots i) ∧ tsN (slots i) < tsMax ∧ cx.high ≤ tsN (slots i)

/-- A word that may be referenced. -/
def WOk (n : Nat) (c : Cons V) (cx : Ctx) (i : Nat) (w : Word) : Prop :=
  i < n ∧ (w ≠ inWriting ∧ w ≠ invalidEvent) ∧ c.last < tsN w ∧ tsN w < cx.high

/-- What holds at each program point. -/
def PcOk (n : Nat) (slots : Nat → Word) (c : Cons V) : Prop :=
  match c.pc with
  | .idle => True
  | .scan cx _ _ cand =>
    CollOk slots c cx ∧ (∀ i w, cand = some (i, w) → WOk n c cx i w ∧ c.b i = false)
  | .begin cx _ _ i w => CollOk slots c cx ∧ WOk n c cx i w ∧ c.b i = false
  | .cas cx _ i w => CollOk slots c cx ∧ WOk n c cx i w
  | .commit cx i => CollOk slots c cx ∧ i < n ∧ c.last < tsN (slots i) ∧ tsN (slots i) < cx.high
  | .abort cx _ i => CollOk slots c cx ∧ i < n
  | .loadTs cx i => CollOk slots c cx ∧ i < n ∧ c.last < tsN (slots i) ∧ tsN (slots i) < cx.high
  | .final coll todo newest =>
    coll.Pairwise (fun i j => tsN (slots j) < tsN (slots i)) ∧
    (∀ i ∈ coll, c.last < tsN (slots i) ∧ (i ∈ todo ∨ tsN (slots i) ≤ newest)) ∧
    c.last ≤ newest ∧ (∀ i ∈ todo, i ∈ coll)
  | .deliver todo =>
    todo.Pairwise (fun i j => tsN (slots i) < tsN (slots j)) ∧
    (∀ i ∈ todo, tsN (slots i) ≤ c.last ∧ ∀ d ∈ c.delivered, d.1 < tsN (slots i))
  | .assertFailed => False
  | .rbAt k => ∀ j, j < k → c.b j = false ∧ c.e j = false
  | .rbBegun k =>
    k < n ∧ c.b k = false ∧ c.e k = true ∧ c.cnt k = true ∧ ∀ j, j < k → c.b j = false ∧ c.e j = false
  | .rbSubbed k =>
    k < n ∧ c.b k = false ∧ c.e k = true ∧ c.cnt k = false ∧ ∀ j, j < k → c.b j = false ∧ c.e j = false
  | .crashed | .waitTimeout | .unsubAbort | .rbFailed => True

/-- Invariant of one consumer. -/
structure CInv (n : Nat) (slots : Nat → Word) (c : Cons V) : Prop where
  bound : ∀ i, n ≤ i → c.b i = false ∧ c.e i = false ∧ c.cnt i = false
  slot : c.pc.live = true → ∀ i, SlotOk c i
  heldTs : ∀ i, c.held i = true → tsN (slots i) ≤ c.last
  pcok : PcOk n slots c
  dead : c.pc.live = false →
    (∀ i, c.rel i = .none ∧ c.held i = false) ∧ ∀ i, c.b i = c.e i → c.cnt i = c.b i
  deliv : c.delivered.Pairwise (fun x y => y.1 < x.1)
  delivLe : ∀ d ∈ c.delivered, d.1 ≤ c.last

/-- Number of consumers whose reference is included in slot `i`. -/
def refs (s : St V) (i : Nat) : Nat := count (fun c => (s.cons c).cnt i) s.m

/-- A word the provider may take. -/
def PWOk (n i : Nat) (w : Word) : Prop := i < n ∧ rcN w = 0

def ProvOk (n : Nat) : PPc → Prop
  | .idle => True
  | .find _ _ _ best => ∀ i w, best = some (i, w) → PWOk n i w
  | .cas _ i w => PWOk n i w

/-- Invariant of the system. -/
structure Inv (s : St V) : Prop where
  small : s.m < 2 ^ 32 - 1
  rc : ∀ i, (s.slots i = inWriting ∧ refs s i = 0) ∨
    (s.slots i ≠ inWriting ∧ rcN (s.slots i) = refs s i)
  alloc : ∀ i, s.alloc i = true ↔ s.slots i = inWriting
  allocLt : ∀ i, s.alloc i = true → i < s.n
  prov : ProvOk s.n s.ppc
  sent : ∀ i, readable (s.slots i) = true → (tsN (s.slots i), s.data i) ∈ s.sent
  cons : ∀ c, c < s.m → CInv s.n s.slots (s.cons c)
  delivSent : ∀ c, c < s.m → ∀ d ∈ (s.cons c).delivered, d ∈ s.sent

/-- The consumer invariant only looks at timestamps of slots the consumer has a reference on. -/
theorem CInv.transport {n : Nat} {slots slots' : Nat → Word} {c : Cons V} (h : CInv n slots c)
    (hs : ∀ i, c.cnt i = true → tsN (slots' i) = tsN (slots i)) : CInv n slots' c := by
  have hheld : ∀ i, c.held i = true → c.cnt i = true := by
    intro i hi
    cases hl : c.pc.live with
    | false => have := (h.dead hl).1 i; simp_all
    | true => rcases h.slot hl i with h | h | ⟨_, _, h⟩ | h | h | h <;> simp_all
  have hp : c.pc.live = true → ∀ i, i ∈ pend c.pc → c.cnt i = true := by
    intro hl i hi
    rcases h.slot hl i with h | h | ⟨_, _, h⟩ | h | h | h <;> simp_all
  have hm : c.pc.live = true → ∀ i, mid c.pc = some (i, true) → c.cnt i = true := by
    intro hl i hi
    rcases h.slot hl i with h | h | ⟨_, _, h⟩ | h | h | h <;> simp_all
  have hcoll : ∀ cx : Ctx, (∀ i ∈ cx.coll, c.cnt i = true) → CollOk slots c cx → CollOk slots' c cx := by
    intro cx hc hco
    refine ⟨hco.1, ?_, ?_⟩
    · refine hco.2.1.imp_of_mem ?_
      intro a b ha hb hab
      rw [hs _ (hc a ha), hs _ (hc b hb)]; exact hab
    · intro i hi; rw [hs _ (hc i hi)]; exact hco.2.2 i hi
  refine ⟨h.bound, h.slot, ?_, ?_, h.dead, h.deliv, h.delivLe⟩
  · intro i hi; rw [hs i (hheld i hi)]; exact h.heldTs i hi
  · have hpc := h.pcok
    unfold PcOk at *
    cases hpcv : c.pc <;> simp only [hpcv, pend, mid, CPc.live] at * <;> try exact hpc
    · exact ⟨hcoll _ (hp trivial) hpc.1, hpc.2⟩
    · exact ⟨hcoll _ (hp trivial) hpc.1, hpc.2⟩
    · exact ⟨hcoll _ (hp trivial) hpc.1, hpc.2⟩
    · rename_i cx i
      rw [hs i (hm trivial i rfl)]
      exact ⟨hcoll _ (hp trivial) hpc.1, hpc.2⟩
    · exact ⟨hcoll _ (hp trivial) hpc.1, hpc.2⟩
    · rename_i cx i
      rw [hs i (hp trivial i (by simp))]
      exact ⟨hcoll _ (fun j hj => hp trivial j (by simp [hj])) hpc.1, hpc.2⟩
    · rename_i coll todo newest
      refine ⟨?_, ?_, hpc.2.2.1, hpc.2.2.2⟩
      · refine hpc.1.imp_of_mem ?_
        intro a b ha hb hab
        rw [hs _ (hp trivial a ha), hs _ (hp trivial b hb)]; exact hab
      · intro i hi; rw [hs _ (hp trivial i hi)]; exact hpc.2.1 i hi
    · refine ⟨?_, ?_⟩
      · refine hpc.1.imp_of_mem ?_
        intro a b ha hb hab
        rw [hs _ (hp trivial a ha), hs _ (hp trivial b hb)]; exact hab
      · intro i hi; rw [hs _ (hp trivial i hi)]; exact hpc.2 i hi

theorem refs_pos {s : St V} {c i : Nat} (hc : c < s.m) (h : (s.cons c).cnt i = true) : 0 < refs s i :=
  count_pos (p := fun c => (s.cons c).cnt i) hc h

/-- Death keeps the invariant. -/
theorem CInv.die {n : Nat} {slots : Nat → Word} {c : Cons V} (h : CInv n slots c) {pc : CPc}
    (hpc : pc = .crashed ∨ pc = .waitTimeout ∨ pc = .unsubAbort) : CInv n slots (c.die pc) := by
  refine ⟨h.bound, ?_, ?_, ?_, ?_, h.deliv, h.delivLe⟩
  · rcases hpc with h | h | h <;> subst h <;> simp [Cons.die, CPc.live]
  · simp [Cons.die]
  · rcases hpc with h | h | h <;> subst h <;> simp [Cons.die, PcOk]
  · intro _
    refine ⟨by simp [Cons.die], ?_⟩
    intro i
    simp only [Cons.die]
    cases hl : c.pc.live with
    | false => exact (h.dead hl).2 i
    | true => rcases h.slot hl i with h | h | ⟨_, _, h⟩ | h | h | h <;> simp_all

end Verif.Ctrl
