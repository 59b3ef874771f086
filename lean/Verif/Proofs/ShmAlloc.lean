import Verif.Spec.ShmAlloc
namespace Verif.ShmAlloc

theorem subPointers_ge {a b : Nat} (h : b ≤ a) (hsz : a - b ≤ Arith.H - 1) : Arith.subPointers a b = some ((a : Int) - b) := by
  unfold Arith.subPointers Arith.subOffset
  by_cases h1 : b < a
  · rw [if_pos h1, if_pos h]
    dsimp only
    rw [if_neg (by omega)]
    congr 1; omega
  · have : a = b := by omega
    subst this
    rw [if_neg h1, if_pos (Nat.le_refl _)]
    simp [Arith.H]

theorem subPointers_none {a b : Nat} (h : b ≤ a) (hsz : Arith.H - 1 < a - b) : Arith.subPointers a b = none := by
  unfold Arith.subPointers Arith.subOffset
  rw [if_pos (by omega), if_pos h]
  dsimp only
  rw [if_pos hsz]

theorem alignUp_eq {p align : Nat} (ha : 0 < align) :
    ∃ k, (p + align - 1) / align * align = align * k ∧ p ≤ align * k ∧ align * k < p + align := by
  refine ⟨(p + align - 1) / align, Nat.mul_comm _ _, ?_, ?_⟩
  · have h1 := Nat.div_add_mod (p + align - 1) align
    have h2 := Nat.mod_lt (p + align - 1) ha
    omega
  · have h1 := Nat.div_add_mod (p + align - 1) align
    omega

theorem least {p align k j : Nat} (h : align * k < p + align) (hj : p ≤ align * j) : align * k ≤ align * j := by
  apply Nat.mul_le_mul_left
  apply Nat.le_of_not_lt
  intro hlt
  have := Nat.mul_le_mul_left align (show j + 1 ≤ k from hlt)
  rw [Nat.mul_add] at this
  omega

/-- std::align inside of an address range. -/
theorem stdAlign_some {align bytes p space q : Nat} (hp : 0 < p) (ha : align < Arith.W) (hs : p + space < Arith.W)
    (h : stdAlign align bytes p space = some q) :
    align ∣ q ∧ p ≤ q ∧ q + bytes ≤ p + space := by
  unfold stdAlign at h
  by_cases h1 : space < bytes
  · rw [if_pos h1] at h; cases h
  · rw [if_neg h1] at h
    dsimp only at h
    by_cases h2 : space - bytes < (alignUp p align + Arith.W - p) % Arith.W
    · rw [if_pos h2] at h; cases h
    · rw [if_neg h2] at h
      by_cases h3 : alignUp p align = 0
      · rw [if_pos h3] at h; cases h
      · rw [if_neg h3] at h
        cases h
        by_cases hz : align = 0
        · subst hz; exact absurd (by unfold alignUp; simp) h3
        · obtain ⟨k, hk, hk1, hk2⟩ := alignUp_eq (p := p) (align := align) (by omega)
          unfold alignUp at h2 h3 ⊢
          rw [hk] at h2 h3 ⊢
          generalize align * k = m at *
          by_cases hm : m < Arith.W
          · rw [Nat.mod_eq_of_lt hm] at h2 ⊢
            refine ⟨?_, hk1, ?_⟩
            · rw [← hk]; exact Nat.dvd_mul_left _ _
            · simp only [Arith.W] at *; omega
          · exfalso
            simp only [Arith.W] at *
            omega

theorem stdAlign_none {align bytes p space : Nat} (hp : 0 < p) (hal : 0 < align) (hs : p + space < Arith.W)
    (h : stdAlign align bytes p space = none) : ¬ ∃ q, align ∣ q ∧ p ≤ q ∧ q + bytes ≤ p + space := by
  rintro ⟨q, ⟨j, rfl⟩, hq1, hq2⟩
  obtain ⟨k, hk, hk1, hk2⟩ := alignUp_eq (p := p) (align := align) hal
  have hle := least hk2 hq1
  unfold stdAlign alignUp at h
  rw [hk, if_neg (by omega)] at h
  dsimp only at h
  generalize align * k = m at *
  generalize align * j = n at *
  rw [Nat.mod_eq_of_lt (show m < Arith.W by omega)] at h
  rw [if_neg (by simp only [Arith.W] at *; omega), if_neg (by omega)] at h
  cases h

theorem toUnsigned_sub {a b : Nat} (h : b ≤ a) (ha : a < Arith.W) : Arith.toUnsigned ((a : Int) - b) = a - b := by
  unfold Arith.toUnsigned
  simp only [Arith.W] at *
  omega

/-- The result of one iteration's computation. -/
theorem compute_some {c : Cfg} (ok : c.Ok) {i cur bytes align q new : Nat} (hc : cur ≤ c.size) (ha : align < Arith.W)
    (h : compute c i cur bytes align = some (q, new)) :
    align ∣ q ∧ c.base i + cur ≤ q ∧ q + bytes ≤ c.base i + c.size ∧ c.base i + new = q + bytes := by
  obtain ⟨hb0, hb⟩ := ok.mapped i
  have hW : Arith.W = 2 ^ 64 := by decide
  have e1 : Arith.addOffset (c.base i) c.size = some (c.base i + c.size) := by
    unfold Arith.addOffset
    rw [if_pos (by simp only [Arith.W] at *; omega), Nat.mod_eq_of_lt (by simp only [Arith.W] at *; omega)]
  have e2 : Arith.addOffset (c.base i) cur = some (c.base i + cur) := by
    unfold Arith.addOffset
    rw [if_pos (by simp only [Arith.W] at *; omega), Nat.mod_eq_of_lt (by simp only [Arith.W] at *; omega)]
  unfold compute at h
  rw [e1, e2] at h
  simp only [Option.bind_eq_bind, Option.bind_some, algorithm] at h
  by_cases hsz : Arith.H - 1 < c.base i + c.size - (c.base i + cur)
  · rw [subPointers_none (by omega) hsz] at h; simp at h
  · rw [subPointers_ge (by omega) (by omega), Option.map_some, Option.bind_some, toUnsigned_sub (by omega) (by rw [hW]; omega)] at h
    cases hst : stdAlign align bytes (c.base i + cur) (c.base i + c.size - (c.base i + cur)) with
    | none => rw [hst] at h; simp at h
    | some q' =>
      obtain ⟨a1, a2, a3⟩ := stdAlign_some (by omega) ha (by rw [hW]; omega) hst
      rw [hst, Option.bind_some, subPointers_ge a2 (by omega), Option.bind_some, if_neg (by omega)] at h
      unfold safeAdd at h
      rw [if_pos (by rw [hW]; omega), Option.bind_some, if_pos (by rw [hW]; omega), Option.bind_some] at h
      cases h
      exact ⟨a1, a2, by omega, by omega⟩

/-- It fails only if no aligned block fits (or the object is larger than 2^63 - 1 bytes). -/
theorem compute_none {c : Cfg} (ok : c.Ok) {i cur bytes align : Nat} (hc : cur ≤ c.size) (ha : align < Arith.W)
    (ha0 : 0 < align) (hsz : c.size < 2 ^ 63)
    (h : compute c i cur bytes align = none) : ¬ Fits c i cur bytes align := by
  obtain ⟨hb0, hb⟩ := ok.mapped i
  have hW : Arith.W = 2 ^ 64 := by decide
  have hH : Arith.H = 2 ^ 63 := by decide
  have e1 : Arith.addOffset (c.base i) c.size = some (c.base i + c.size) := by
    unfold Arith.addOffset
    rw [if_pos (by simp only [Arith.W] at *; omega), Nat.mod_eq_of_lt (by simp only [Arith.W] at *; omega)]
  have e2 : Arith.addOffset (c.base i) cur = some (c.base i + cur) := by
    unfold Arith.addOffset
    rw [if_pos (by simp only [Arith.W] at *; omega), Nat.mod_eq_of_lt (by simp only [Arith.W] at *; omega)]
  unfold compute at h
  rw [e1, e2] at h
  simp only [Option.bind_eq_bind, Option.bind_some, algorithm] at h
  rw [subPointers_ge (by omega) (by omega), Option.map_some, Option.bind_some, toUnsigned_sub (by omega) (by rw [hW]; omega)] at h
  cases hst : stdAlign align bytes (c.base i + cur) (c.base i + c.size - (c.base i + cur)) with
  | none =>
    rintro ⟨q, h1, h2, h3⟩
    exact stdAlign_none (by omega) ha0 (by rw [hW]; omega) hst ⟨q, h1, h2, by omega⟩
  | some q' =>
    exfalso
    obtain ⟨a1, a2, a3⟩ := stdAlign_some (by omega) ha (by rw [hW]; omega) hst
    rw [hst, Option.bind_some, subPointers_ge a2 (by omega), Option.bind_some, if_neg (by omega)] at h
    unfold safeAdd at h
    rw [if_pos (by rw [hW]; omega), Option.bind_some, if_pos (by rw [hW]; omega), Option.bind_some] at h
    cases h

/-- What a thread knows. -/
def PcOk (c : Cfg) (counter i : Nat) : Pc → Prop
  | .idle => True
  | .dead => True
  | .load _ align => 0 < align ∧ align < Arith.W
  | .know _ align cur r => (0 < align ∧ align < Arith.W) ∧ cur ≤ counter ∧ r < maxRetries
  | .cas bytes align cur r q new => r < maxRetries ∧ cur ≤ counter ∧ align ∣ q ∧ c.base i + cur ≤ q ∧ q + bytes ≤ c.base i + c.size ∧
      c.base i + new = q + bytes ∧ (0 < align ∧ align < Arith.W)

structure Inv (c : Cfg) (s : St) : Prop where
  low : c.mgmt ≤ s.counter
  high : s.counter ≤ c.size
  pcs : ∀ i, PcOk c s.counter i (s.pc i)
  blocks : ∀ b ∈ s.blocks, b.align ∣ b.addr ∧ c.base b.thread + c.mgmt ≤ b.addr ∧ b.addr + b.bytes ≤ c.base b.thread + s.counter
  ordered : s.blocks.Pairwise (fun n o => o.addr + o.bytes + c.base n.thread ≤ n.addr + c.base o.thread)

theorem PcOk.mono {c : Cfg} {n m i : Nat} {p : Pc} (h : n ≤ m) (hp : PcOk c n i p) : PcOk c m i p := by
  cases p <;> simp only [PcOk] at * <;> omega

theorem inv_init {c : Cfg} (ok : c.Ok) : Inv c (init c) :=
  ⟨Nat.le_refl _, ok.room, fun _ => trivial, by simp [init], by simp [init]⟩

/-- Changing one thread's state only. -/
theorem Inv.setPc {c : Cfg} {s : St} (h : Inv c s) {i : Nat} {p : Pc} (hp : PcOk c s.counter i p) :
    Inv c { s with pc := upd s.pc i p } := by
  refine ⟨h.low, h.high, ?_, h.blocks, h.ordered⟩
  intro j
  by_cases hj : j = i
  · subst hj; simp only [upd_self]; exact hp
  · simp only [upd_ne _ _ hj]; exact h.pcs j

theorem Inv.retry {c : Cfg} {s : St} (h : Inv c s) {i bytes align r : Nat} (ha : 0 < align ∧ align < Arith.W) :
    Inv c (retry s i bytes align r) := by
  unfold ShmAlloc.retry
  split
  · rename_i hr; exact h.setPc ⟨ha, Nat.le_refl _, hr⟩
  · exact h.setPc trivial

theorem inv_step {c : Cfg} (ok : c.Ok) {s : St} (h : Inv c s) (o : Op) (ho : o.Ok) : Inv c (step c s o) := by
  cases o with
  | start i b a =>
    simp only [step]
    split
    · obtain ⟨_, k, hk, rfl⟩ := ho
      refine h.setPc ⟨Nat.two_pow_pos k, ?_⟩
      show 2 ^ k < 2 ^ 64
      exact Nat.pow_lt_pow_right (by omega) hk
    · exact h
  | crash i => exact h.setPc trivial
  | spurious i =>
    have hi := h.pcs i
    simp only [step]
    split
    · rename_i heq; rw [heq] at hi; exact h.retry hi.2.2.2.2.2.2
    · exact h
  | step i =>
    have hi := h.pcs i
    simp only [step]
    split
    · rename_i heq; rw [heq] at hi; exact h.setPc ⟨hi, Nat.le_refl _, by decide⟩
    · rename_i bytes align cur retries heq
      rw [heq] at hi
      split
      · rename_i q new hcomp
        obtain ⟨a1, a2, a3, a4⟩ := compute_some ok (Nat.le_trans hi.2.1 h.high) hi.1.2 hcomp
        exact h.setPc ⟨hi.2.2, hi.2.1, a1, a2, a3, a4, hi.1⟩
      · exact h.setPc trivial
    · rename_i bytes align cur retries q new heq
      rw [heq] at hi
      obtain ⟨_, h1, h2, h3, h4, h5, h6⟩ := hi
      split
      · rename_i hcur
        subst hcur
        have hle : s.counter ≤ new := by omega
        refine ⟨Nat.le_trans h.low hle, (by dsimp only; omega), ?_, ?_, ?_⟩
        · intro j
          by_cases hj : j = i
          · subst hj; simp only [upd_self]; trivial
          · simp only [upd_ne _ _ hj]; exact (h.pcs j).mono hle
        · intro b hb
          rcases List.mem_cons.mp hb with rfl | hb
          · have := h.low
            exact ⟨h2, by dsimp only; omega, by dsimp only; omega⟩
          · obtain ⟨b1, b2, b3⟩ := h.blocks b hb
            exact ⟨b1, b2, by dsimp only; omega⟩
        · refine List.pairwise_cons.mpr ⟨?_, h.ordered⟩
          intro b hb
          obtain ⟨b1, b2, b3⟩ := h.blocks b hb
          dsimp only
          omega
      · exact h.retry h6
    · exact h

theorem inv_run {c : Cfg} (ok : c.Ok) {ops : List Op} (ho : ∀ o ∈ ops, o.Ok) {s : St} (h : Inv c s) : Inv c (run c s ops) := by
  induction ops generalizing s with
  | nil => exact h
  | cons o os ih =>
    exact ih (fun x hx => ho x (List.mem_cons_of_mem _ hx)) (inv_step ok h o (ho o List.mem_cons_self))

end Verif.ShmAlloc
