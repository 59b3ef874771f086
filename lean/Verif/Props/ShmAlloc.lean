import Verif.Proofs.ShmAlloc
/-! C54: allocations in a shared memory resource. -/

namespace Verif.Demo.C54
open Verif.ShmAlloc

/-- A shared memory object of 1024 bytes, of which 64 are for the control block; process 0 and the others have mapped it at
different pages. -/
def two : Cfg := ⟨1024, 64, fun i => if i = 0 then 4096 else 12288⟩

theorem two_ok : two.Ok := by
  refine ⟨by decide, fun i => ?_⟩
  show 0 < (if i = 0 then 4096 else 12288) ∧ (if i = 0 then 4096 else 12288) + 1024 < 2 ^ 64
  split <;> decide

/-- Both threads load the counter before one of them wins; the other one retries. -/
def ops : List Op :=
  [.start 0 10 8, .start 1 100 64, .step 0, .step 1, .step 0, .step 1, .step 0, .step 1, .step 1, .step 1]

theorem ops_ok : ∀ o ∈ ops, o.Ok := by
  intro o ho
  simp only [ops, List.mem_cons, List.not_mem_nil, or_false] at ho
  rcases ho with rfl | rfl | rfl | rfl | rfl | rfl | rfl | rfl | rfl | rfl <;>
    first | trivial | exact ⟨by decide, 3, by decide, rfl⟩ | exact ⟨by decide, 6, by decide, rfl⟩

def final : St := run two (init two) ops

theorem final_reachable : Reachable two final := ⟨ops, ops_ok, rfl⟩

/-- Both allocations succeed: at offset 64, and, aligned to 64, at offset 128. -/
example : final.blocks = [⟨1, 12288 + 128, 100, 64⟩, ⟨0, 4096 + 64, 10, 8⟩] := by decide +kernel

end Verif.Demo.C54

namespace Verif.Props.C54
open Verif.ShmAlloc

/-- Every returned block is aligned as requested. -/
theorem aligned (c : Cfg) (ok : c.Ok) (s : St) (h : Reachable c s) (b : Block) (hb : b ∈ s.blocks) : b.align ∣ b.addr := by
  obtain ⟨ops, ho, rfl⟩ := h
  exact ((inv_run ok ho (inv_init ok)).blocks b hb).1

/-- Every returned block lies inside of the usable part of the region, as mapped by the process that has allocated it. -/
theorem inside (c : Cfg) (ok : c.Ok) (s : St) (h : Reachable c s) (b : Block) (hb : b ∈ s.blocks) :
    c.base b.thread + c.mgmt ≤ b.addr ∧ b.addr + b.bytes ≤ c.base b.thread + c.size := by
  obtain ⟨ops, ho, rfl⟩ := h
  have hi := inv_run ok ho (inv_init ok)
  obtain ⟨_, h2, h3⟩ := hi.blocks b hb
  have := hi.high
  exact ⟨h2, by omega⟩

/-- The returned blocks are pairwise disjoint. -/
theorem disjoint (c : Cfg) (ok : c.Ok) (s : St) (h : Reachable c s) : s.blocks.Pairwise (Disjoint c) := by
  obtain ⟨ops, ho, rfl⟩ := h
  refine (inv_run ok ho (inv_init ok)).ordered.imp ?_
  intro n o hno x
  rintro ⟨⟨h1, _⟩, ⟨_, h4⟩⟩
  omega

example : Reachable Demo.C54.two Demo.C54.final ∧ Demo.C54.two.Ok ∧ Demo.C54.final.blocks.length = 2 :=
  ⟨Demo.C54.final_reachable, Demo.C54.two_ok, by decide +kernel⟩

/-- A block is also aligned in the mapping of another process if both mappings have the same remainder for the alignment (they
start at page boundaries: for every alignment up to the page size). -/
theorem aligned_elsewhere (c : Cfg) (ok : c.Ok) (s : St) (h : Reachable c s) (b : Block) (hb : b ∈ s.blocks) (j : Nat)
    (hj : b.align ∣ c.base j) (hi : b.align ∣ c.base b.thread) : b.align ∣ c.base j + (b.addr - c.base b.thread) :=
  Nat.dvd_add hj (Nat.dvd_sub (aligned c ok s h b hb) hi)

example : (64 ∣ Demo.C54.two.base 0) ∧ 64 ∣ Demo.C54.two.base 1 := ⟨⟨64, by decide⟩, ⟨192, by decide⟩⟩

/-- An allocation that terminates its process did so since no aligned block of that size fits into the rest of the region, or
since its last attempt (the 32nd) has failed as well. -/
theorem terminates_only_if (c : Cfg) (ok : c.Ok) (hsz : c.size < 2 ^ 63) (s : St) (h : Reachable c s) (o : Op) (i : Nat)
    (ho : o ≠ .crash i) (h1 : s.pc i ≠ .dead) (h2 : (step c s o).pc i = .dead) :
    (∃ bytes align cur r, s.pc i = .know bytes align cur r ∧ ¬ Fits c i s.counter bytes align) ∨
    ∃ bytes align cur q new, s.pc i = .cas bytes align cur 31 q new ∧ (o = .spurious i ∨ s.counter ≠ cur) := by
  obtain ⟨ops, hops, rfl⟩ := h
  have hi := inv_run ok hops (inv_init ok)
  generalize run c (init c) ops = s at *
  have hp := hi.pcs i
  have other : ∀ j p, j ≠ i → (upd s.pc j p) i = .dead → False := by
    intro j p hj hd
    rw [upd_ne _ _ (Ne.symm hj)] at hd
    exact h1 hd
  have again : ∀ bytes align cur r q new, s.pc i = .cas bytes align cur r q new →
      (retry s i bytes align r).pc i = .dead → r = 31 := by
    intro bytes align cur r q new hc hd
    rw [hc] at hp
    have := hp.1
    simp only [maxRetries] at this
    unfold retry at hd
    split at hd
    · simp only [upd_self] at hd; cases hd
    · rename_i hn; simp only [maxRetries] at hn; omega
  have retryOther : ∀ j bytes align r, j ≠ i → (retry s j bytes align r).pc i = .dead → False := by
    intro j bytes align r hj hd
    unfold retry at hd
    split at hd <;> exact other j _ hj hd
  cases o with
  | start j b a =>
    simp only [step] at h2
    split at h2
    · by_cases hj : j = i
      · subst hj; simp only [upd_self] at h2; cases h2
      · exact (other j _ hj h2).elim
    · exact (h1 h2).elim
  | crash j => exact (other j _ (fun e => ho (by rw [e])) h2).elim
  | spurious j =>
    simp only [step] at h2
    split at h2
    · rename_i bytes align cur r q new heq
      by_cases hj : j = i
      · subst hj
        obtain rfl := again _ _ _ _ _ _ heq h2
        exact Or.inr ⟨bytes, align, cur, q, new, heq, Or.inl rfl⟩
      · exact (retryOther j _ _ _ hj h2).elim
    · exact (h1 h2).elim
  | step j =>
    simp only [step] at h2
    split at h2
    · by_cases hj : j = i
      · subst hj; simp only [upd_self] at h2; cases h2
      · exact (other j _ hj h2).elim
    · rename_i bytes align cur r heq
      split at h2
      · by_cases hj : j = i
        · subst hj; simp only [upd_self] at h2; cases h2
        · exact (other j _ hj h2).elim
      · rename_i hcomp
        by_cases hj : j = i
        · subst hj
          rw [heq] at hp
          refine Or.inl ⟨bytes, align, cur, r, heq, ?_⟩
          have := compute_none ok (Nat.le_trans hp.2.1 hi.high) hp.1.2 hp.1.1 hsz hcomp
          rintro ⟨q, q1, q2, q3⟩
          exact this ⟨q, q1, by have := hp.2.1; omega, q3⟩
        · exact (other j _ hj h2).elim
    · rename_i bytes align cur r q new heq
      split at h2
      · by_cases hj : j = i
        · subst hj; simp only [upd_self] at h2; cases h2
        · exact (other j _ hj h2).elim
      · rename_i hne
        by_cases hj : j = i
        · subst hj
          obtain rfl := again _ _ _ _ _ _ heq h2
          exact Or.inr ⟨bytes, align, cur, q, new, heq, Or.inr hne⟩
        · exact (retryOther j _ _ _ hj h2).elim
    · exact (h1 h2).elim

/-- An allocation that is not disturbed returns a block if one fits. -/
theorem returns_if_it_fits (c : Cfg) (ok : c.Ok) (hsz : c.size < 2 ^ 63) (s : St) (h : Reachable c s) (i bytes k : Nat)
    (hk : k < 64) (hidle : s.pc i = .idle) (hf : Fits c i s.counter bytes (2 ^ k)) :
    ∃ q, (run c s [.start i bytes (2 ^ k), .step i, .step i, .step i]).blocks = ⟨i, q, bytes, 2 ^ k⟩ :: s.blocks := by
  obtain ⟨ops, hops, rfl⟩ := h
  have hi := inv_run ok hops (inv_init ok)
  generalize run c (init c) ops = s at *
  have ha : 2 ^ k < Arith.W := by
    show 2 ^ k < 2 ^ 64
    exact Nat.pow_lt_pow_right (by omega) hk
  cases hc : compute c i s.counter bytes (2 ^ k) with
  | none => exact (compute_none ok hi.high ha (Nat.two_pow_pos k) hsz hc hf).elim
  | some p =>
    obtain ⟨q, new⟩ := p
    exact ⟨q, by simp [run, step, hidle, hc]⟩

example : Fits Demo.C54.two 1 Demo.C54.final.counter 500 (2 ^ 4) ∧ Demo.C54.final.pc 1 = .idle :=
  ⟨⟨12288 + 240, ⟨783, by decide⟩, by decide +kernel, by decide⟩, by decide +kernel⟩

/-- The number of allocated bytes that the resource reports never shrinks, and covers the sizes of all the blocks. -/
theorem reported_bytes (c : Cfg) (ok : c.Ok) (s : St) (h : Reachable c s) (o : Op) (ho : o.Ok) :
    userBytes c s ≤ userBytes c (step c s o) ∧ (s.blocks.map (·.bytes)).sum ≤ userBytes c s := by
  obtain ⟨ops, hops, rfl⟩ := h
  have hi := inv_run ok hops (inv_init ok)
  constructor
  · generalize run c (init c) ops = s at *
    have hmono : s.counter ≤ (step c s o).counter := by
      cases o with
      | start i b a => simp only [step]; split <;> exact Nat.le_refl _
      | crash i => exact Nat.le_refl _
      | spurious i =>
        simp only [step]
        split
        · unfold retry; split <;> exact Nat.le_refl _
        · exact Nat.le_refl _
      | step i =>
        have hp := hi.pcs i
        simp only [step]
        split
        · exact Nat.le_refl _
        · split <;> exact Nat.le_refl _
        · rename_i heq
          rw [heq] at hp
          split
          · rename_i hc
            obtain ⟨_, _, _, p4, _, p6, _⟩ := hp
            dsimp only
            omega
          · unfold retry; split <;> exact Nat.le_refl _
        · exact Nat.le_refl _
    unfold userBytes
    omega
  · unfold userBytes
    have low := hi.low
    have hb := hi.blocks
    have hord := hi.ordered
    generalize hn : (run c (init c) ops).counter = n at *
    generalize (run c (init c) ops).blocks = l at *
    clear hn hi hops
    have key : ∀ m, (∀ b ∈ l, c.base b.thread + c.mgmt ≤ b.addr ∧ b.addr + b.bytes ≤ c.base b.thread + m) → c.mgmt ≤ m →
        (l.map (·.bytes)).sum + c.mgmt ≤ m := by
      clear hb low
      induction l with
      | nil => intro m _ hm; simpa using hm
      | cons b l ih =>
        intro m hm hm2
        obtain ⟨o1, o2⟩ := List.pairwise_cons.mp hord
        have hb := hm b List.mem_cons_self
        have := ih o2 (b.addr - c.base b.thread) (by
          intro b' hb'
          have h1 := o1 b' hb'
          have h2 := hm b' (List.mem_cons_of_mem _ hb')
          exact ⟨h2.1, by omega⟩) (by omega)
        simp only [List.map_cons, List.sum_cons]
        omega
    have := key n (fun b hx => (hb b hx).2) low
    omega

/-- Finding: a process that can write the counter (it is in the shared memory itself) makes another process return a block
that is outside of the region: the negative remaining space is cast to std::size_t. -/
theorem corrupted_counter_escapes :
    ∃ b, (run Demo.C54.two { init Demo.C54.two with counter := 2000 } [.start 0 16 8, .step 0, .step 0, .step 0]).blocks = [b] ∧
      Demo.C54.two.base 0 + Demo.C54.two.size < b.addr := by
  exact ⟨⟨0, 6096, 16, 8⟩, by decide +kernel, by decide⟩

/-- Finding: an allocation fails although there is space if 32 attempts are disturbed. -/
theorem disturbed_allocation_terminates :
    (run Demo.C54.two (init Demo.C54.two)
      ([.start 0 16 8, .step 0] ++ (List.replicate 32 [Op.step 0, .spurious 0]).flatten)).pc 0 = .dead := by decide +kernel

/-- Finding: a block with an alignment above the page size is not aligned in another process. -/
theorem not_aligned_elsewhere : ∃ c : Cfg, c.Ok ∧ (∀ i, 4096 ∣ c.base i) ∧ ∃ s, Reachable c s ∧ ∃ b ∈ s.blocks,
    b.thread = 0 ∧ ¬ b.align ∣ c.base 1 + (b.addr - c.base 0) := by
  refine ⟨⟨65536, 64, fun i => if i = 0 then 4096 else 8192⟩, ⟨by decide, ?_⟩, ?_,
    run _ (init _) [.start 0 16 8192, .step 0, .step 0, .step 0], ⟨_, ?_, rfl⟩, ⟨0, 8192, 16, 8192⟩, by decide +kernel, rfl, by decide⟩
  · intro i; dsimp only; split <;> decide
  · intro i; dsimp only; split
    · exact ⟨1, rfl⟩
    · exact ⟨2, rfl⟩
  · intro o ho
    simp only [List.mem_cons, List.not_mem_nil, or_false] at ho
    rcases ho with rfl | rfl | rfl | rfl <;> first | trivial | exact ⟨by decide, 13, by decide, rfl⟩

end Verif.Props.C54
