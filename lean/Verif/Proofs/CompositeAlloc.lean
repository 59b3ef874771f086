import Verif.Proofs.Composite
import Verif.Spec.Composite
/-! Termination and success of Allocate while only QM consumers interfere. -/
namespace Verif.Comp
open Verif Verif.Slot Verif.Ctrl

def BestFree (s : St) (best : Option (Nat × Word)) : Prop := ∀ i w, best = some (i, w) → i < s.n ∧ Free w

/-- Allocate is running and has not given up. -/
def Running (s : St) : Prop :=
  match s.pc with
  | .findQm r k oldest best => r < maxMultiRetries ∧ k ≤ s.n ∧ oldest ≤ tsMax ∧ BestFree s best
  | .findB r k oldest best _ => r < maxMultiRetries ∧ k < s.n ∧ oldest ≤ tsMax ∧ BestFree s best
  | .casQm r i w => r < maxMultiRetries ∧ i < s.n ∧ Free w
  | .casB r i w => r < maxMultiRetries ∧ i < s.n ∧ Free w
  | .restore r i w => r < maxMultiRetries ∧ i < s.n ∧ Free w
  | .bAlloc (.find _ k oldest best) => k ≤ s.n ∧ oldest ≤ tsMax ∧
      (best = none → oldest = tsMax ∧ ∀ j, j < k → ¬ Free (s.b j)) ∧
      (∀ i w, best = some (i, w) → i < s.n ∧ s.b i = w ∧ Free w)
  | .bAlloc (.cas _ i w) => i < s.n ∧ s.b i = w ∧ Free w
  | _ => False

def Done (b0 : Nat → Word) (s : St) : Prop :=
  s.pc = .idle ∧ ∃ i, i < s.n ∧ s.res = some (some i) ∧ Free (b0 i) ∧ s.b = upd b0 i inWriting

def mu (s : St) : Nat :=
  match s.pc with
  | .findQm r k _ _ => (s.n + 5) + (maxMultiRetries - r) * (2 * s.n + 10) + 2 * (s.n - k) + 4
  | .findB r k _ _ _ => (s.n + 5) + (maxMultiRetries - r) * (2 * s.n + 10) + 2 * (s.n - k) + 3
  | .casQm r _ _ => (s.n + 5) + (maxMultiRetries - r) * (2 * s.n + 10) + 3
  | .casB r _ _ => (s.n + 5) + (maxMultiRetries - r) * (2 * s.n + 10) + 2
  | .restore r _ _ => (s.n + 5) + (maxMultiRetries - r) * (2 * s.n + 10) + 1
  | .bAlloc (.find _ k _ _) => s.n - k + 2
  | .bAlloc _ => 1
  | _ => 0

theorem nextTry_running (s : St) {r : Nat} (hr : r < maxMultiRetries) :
    Running (nextTry s r) ∧ (nextTry s r).b = s.b ∧ (nextTry s r).n = s.n ∧
    mu (nextTry s r) < (s.n + 5) + (maxMultiRetries - r) * (2 * s.n + 10) := by
  unfold nextTry
  split
  · rename_i h
    refine ⟨⟨h, Nat.zero_le _, Nat.le_refl _, by simp [BestFree]⟩, rfl, rfl, ?_⟩
    simp only [mu]
    have : maxMultiRetries - r = (maxMultiRetries - (r + 1)) + 1 := by omega
    rw [this, Nat.add_mul]; omega
  · refine ⟨⟨Nat.zero_le _, Nat.le_refl _, fun _ => ⟨rfl, by intro j hj; omega⟩, by simp⟩, rfl, rfl, ?_⟩
    simp only [mu]; omega

theorem free_of_unused {w : Word} (h : isUsed w = false) (ht : tsN w < tsMax) : Free w := by
  rw [not_used_iff] at h
  exact ⟨h.1, fun e => by rw [e] at h; simp [isInWriting] at h, ht⟩

theorem free_invalid : Free invalidEvent := ⟨by decide, by decide, by decide⟩

/-- Where the ASIL-B word is not invalid, the QM word has the same timestamp. -/
def Ts (b : Nat → Word) (qm : Nat → Word) (j : Nat) : Prop := b j ≠ invalidEvent → tsN (qm j) = tsN (b j)

/-- What holds during Allocate while ASIL-B consumers are quiet. -/
def Quiet (s : St) : Prop :=
  match s.pc with
  | .findQm _ _ _ best => (∀ j, Ts s.b s.qm j) ∧ ∀ i w, best = some (i, w) → w = s.b i
  | .findB _ k _ best qw => (∀ j, Ts s.b s.qm j) ∧ (∀ i w, best = some (i, w) → w = s.b i) ∧
      (s.b k ≠ invalidEvent → tsN qw = tsN (s.b k))
  | .casQm _ i w => (∀ j, Ts s.b s.qm j) ∧ w = s.b i
  | .casB _ i w => (∀ j, j ≠ i → Ts s.b s.qm j) ∧ w = s.b i
  | .bAlloc _ => True
  | .idle => True
  | _ => False

theorem Quiet.not_aborted {s : St} (h : Quiet s) : s.pc ≠ .aborted := by
  intro e; unfold Quiet at h; rw [e] at h; exact h

theorem nextTry_quiet {s : St} (h : ∀ j, Ts s.b s.qm j) (r : Nat) : Quiet (nextTry s r) := by
  unfold nextTry; split
  · exact ⟨h, by simp⟩
  · trivial

theorem unused_eq {x y : Word} (ht : tsN x = tsN y) (hx : isUsed x = false) (hy : isUsed y = false) : x = y :=
  same_unused_eq (lg := False) ⟨ht, fun g => g.elim⟩ hx hy

theorem quiet_prov {s : St} (h : Quiet s) : Quiet (provStep s) := by
  have h0 := h
  unfold Quiet at h
  unfold provStep
  split <;> (rename_i hpc; simp only [hpc] at h)
  · exact h0
  · rename_i r k o best
    split
    · exact ⟨h.1, h.2, h.1 k⟩
    · split
      · rename_i i w; exact ⟨h.1, h.2 i w rfl⟩
      · exact nextTry_quiet h.1 r
  · rename_i r k o best qw
    unfold decideSlot
    split
    · exact nextTry_quiet h.1 r
    · rename_i hmis
      split
      · rename_i hu
        have e : qw = s.b k := by
          by_cases hb : s.b k = invalidEvent
          · rw [hb]
            rw [hb] at hmis
            cases hq : isInvalid qw
            · exact absurd ⟨by decide, hq⟩ hmis
            · exact (isInvalid_iff _).mp hq
          · exact unused_eq (h.2.2 hb) hu.1 hu.2.1
        rw [if_pos e]
        refine ⟨h.1, ?_⟩
        intro i w e'; cases e'; exact e
      · exact ⟨h.1, h.2.1⟩
  · rename_i r i w
    split
    · refine ⟨fun j hj => ?_, h.2⟩
      show Ts s.b (upd s.qm i inWriting) j
      unfold Ts; rw [upd_ne _ _ hj]; exact h.1 j
    · exact nextTry_quiet h.1 r
  · rename_i r i w
    rw [if_pos h.2.symm]; trivial
  · trivial
  · trivial
  · split
    · trivial
    · split <;> trivial

/-- The QM word of one slot changes: any word if the ASIL-B word is invalid, else with the same timestamp. -/
theorem quiet_qm {s : St} (h : Quiet s) (i : Nat) (w : Word) (hw : s.b i ≠ invalidEvent → tsN w = tsN (s.qm i)) :
    Quiet { s with qm := upd s.qm i w } := by
  have key : ∀ j, Ts s.b s.qm j → Ts s.b (upd s.qm i w) j := by
    intro j hj hb
    by_cases e : j = i
    · subst e; rw [upd_self, hw hb]; exact hj hb
    · rw [upd_ne _ _ e]; exact hj hb
  unfold Quiet at h ⊢
  dsimp only
  cases hp : s.pc <;> simp only [hp] at h ⊢
  · exact ⟨fun j => key j (h.1 j), h.2⟩
  · exact ⟨fun j => key j (h.1 j), h.2⟩
  · exact ⟨fun j => key j (h.1 j), h.2⟩
  · exact ⟨fun j hj => key j (h.1 j hj), h.2⟩

theorem quiet_step {s : St} {b0 : Nat → Word} (h : Quiet s) {op : Op} (ho : QmLoose b0 op)
    (hb : ∀ i w, op = .qmCorrupt i w → s.b i = b0 i) : Quiet (step s op) := by
  cases op <;> simp only [QmLoose] at ho
  · exact quiet_prov h
  · exact quiet_qm h _ _ (fun _ => (like_addRef (lg := False) _).ts)
  · exact quiet_qm h _ _ (fun _ => (like_dropRef (lg := False) _).ts)
  · exact quiet_qm h _ _ (fun _ => ts_setRc _ _)
  · rename_i i w
    exact quiet_qm h _ _ (fun hn => absurd ((hb i w rfl).trans ho) hn)

theorem provStep_running {s : St} (hna : (provStep s).pc ≠ .aborted) (h : Running s) (hf : ∃ i, i < s.n ∧ Free (s.b i)) :
    (Done s.b (provStep s) ∧ (provStep s).n = s.n) ∨
      (Running (provStep s) ∧ (provStep s).b = s.b ∧ (provStep s).n = s.n ∧ mu (provStep s) < mu s) := by
  have hcopy : ∀ r, r < maxMultiRetries → (s.n + 5) + (maxMultiRetries - r) * (2 * s.n + 10) ≤ mu s →
      Running (nextTry s r) ∧ (nextTry s r).b = s.b ∧ (nextTry s r).n = s.n ∧ mu (nextTry s r) < mu s := by
    intro r hr hm
    obtain ⟨a, b, c, d⟩ := nextTry_running s hr
    exact ⟨a, b, c, Nat.lt_of_lt_of_le d hm⟩
  unfold provStep at hna ⊢
  unfold Running at h
  split at h
  · rename_i r k oldest best hpc
    simp only [hpc] at hna ⊢
    have hmu : mu s = (s.n + 5) + (maxMultiRetries - r) * (2 * s.n + 10) + 2 * (s.n - k) + 4 := by simp [mu, hpc]
    split
    · rename_i hk
      refine .inr ⟨⟨h.1, hk, h.2.2⟩, rfl, rfl, ?_⟩
      rw [hmu]; simp only [mu]; omega
    · split
      · rename_i i w
        refine .inr ⟨⟨h.1, h.2.2.2 i w rfl⟩, rfl, rfl, ?_⟩
        rw [hmu]; simp only [mu]; omega
      · exact .inr (hcopy r h.1 (by rw [hmu]; omega))
  · rename_i r k oldest best qw hpc
    simp only [hpc] at hna ⊢
    have hmu : mu s = (s.n + 5) + (maxMultiRetries - r) * (2 * s.n + 10) + 2 * (s.n - k) + 3 := by simp [mu, hpc]
    unfold decideSlot at hna ⊢
    split
    · exact .inr (hcopy r h.1 (by rw [hmu]; omega))
    · rename_i h1
      rw [if_neg h1] at hna
      split
      · rename_i h2
        rw [if_pos h2] at hna
        split
        · rename_i h3
          refine .inr ⟨⟨h.1, h.2.1, by show tsN (s.b k) ≤ tsMax; have := h.2.2.1; omega, ?_⟩, rfl, rfl, ?_⟩
          · intro i w e
            cases e
            exact ⟨h.2.1, free_of_unused h2.1 (by rw [h3]; have := h.2.2.1; omega)⟩
          · rw [hmu]; simp only [mu]; have := h.2.1; omega
        · rename_i h3
          rw [if_neg h3] at hna; exact absurd rfl hna
      · refine .inr ⟨⟨h.1, h.2.1, h.2.2⟩, rfl, rfl, ?_⟩
        rw [hmu]; simp only [mu]; have := h.2.1; omega
  · rename_i r i w hpc
    simp only [hpc]
    have hmu : mu s = (s.n + 5) + (maxMultiRetries - r) * (2 * s.n + 10) + 3 := by simp [mu, hpc]
    split
    · refine .inr ⟨h, rfl, rfl, ?_⟩
      rw [hmu]; simp only [mu]; omega
    · exact .inr (hcopy r h.1 (by rw [hmu]; omega))
  · rename_i r i w hpc
    simp only [hpc]
    have hmu : mu s = (s.n + 5) + (maxMultiRetries - r) * (2 * s.n + 10) + 2 := by simp [mu, hpc]
    split
    · rename_i e
      exact .inl ⟨⟨rfl, i, h.2.1, rfl, e ▸ h.2.2, rfl⟩, rfl⟩
    · refine .inr ⟨h, rfl, rfl, ?_⟩
      rw [hmu]; simp only [mu]; omega
  · rename_i r i w hpc
    simp only [hpc]
    have hmu : mu s = (s.n + 5) + (maxMultiRetries - r) * (2 * s.n + 10) + 1 := by simp [mu, hpc]
    obtain ⟨a, b, c, d⟩ := nextTry_running { s with qm := upd s.qm i w } h.1
    refine .inr ⟨a, b, c, ?_⟩
    rw [hmu]; exact Nat.lt_of_lt_of_le d (Nat.le_succ _)
  · rename_i r k oldest best hpc
    simp only [hpc]
    have hmu : mu s = s.n - k + 2 := by simp [mu, hpc]
    unfold provFind
    split
    · rename_i hk
      dsimp only
      split
      · rename_i hinv
        rw [isInvalid_iff] at hinv
        refine .inr ⟨⟨hk, rfl, by rw [hinv]; exact free_invalid⟩, trivial, trivial, ?_⟩
        rw [hmu]; simp only [mu]; omega
      · rename_i hinv
        split
        · rename_i hc
          have hfree : Free (s.b k) := ⟨hc.1, fun e => by rw [e] at hc; simp [isInWriting] at hc, by
            have := h.2.1; omega⟩
          refine .inr ⟨⟨hk, ?_, ?_, ?_⟩, trivial, trivial, ?_⟩
          · have := hfree.2.2; exact Nat.le_of_lt this
          · intro e; cases e
          · intro i w e; cases e; exact ⟨hk, rfl, hfree⟩
          · rw [hmu]; simp only [mu]; omega
        · rename_i hc
          refine .inr ⟨⟨hk, h.2.1, ?_, h.2.2.2⟩, trivial, trivial, ?_⟩
          · intro e
            refine ⟨(h.2.2.1 e).1, fun j hj hfr => ?_⟩
            by_cases hjk : j = k
            · subst hjk
              apply hc
              refine ⟨hfr.1, ?_, by rw [(h.2.2.1 e).1]; exact hfr.2.2⟩
              cases hw : isInWriting (s.b j)
              · rfl
              · exact absurd ((isInWriting_iff _).mp hw) hfr.2.1
            · exact (h.2.2.1 e).2 j (by omega) hfr
          · rw [hmu]; simp only [mu]; omega
    · rename_i hk
      split
      · rename_i i w
        refine .inr ⟨h.2.2.2 i w rfl, trivial, trivial, ?_⟩
        rw [hmu]; simp only [mu]; omega
      · obtain ⟨j, hj, hfr⟩ := hf
        exact absurd hfr ((h.2.2.1 rfl).2 j (by omega))
  · rename_i r i w hpc
    simp only [hpc]
    rw [if_pos h.2.1]
    exact .inl ⟨⟨rfl, i, h.1, rfl, h.2.1 ▸ h.2.2, rfl⟩, rfl⟩
  · exact h.elim

theorem done_run {b0 b1 : Nat → Word} {s : St} (h : Done b0 s) {ops : List Op} (ho : ∀ op ∈ ops, QmLoose b1 op) :
    Done b0 (run s ops) ∧ (run s ops).n = s.n := by
  induction ops generalizing s with
  | nil => exact ⟨h, rfl⟩
  | cons op ops ih =>
    have h1 : Done b0 (step s op) ∧ (step s op).n = s.n := by
      have := ho op (by simp)
      cases op <;> simp only [QmLoose] at this
      · simp only [step, provStep, h.1]; exact ⟨h, trivial⟩
      all_goals exact ⟨h, rfl⟩
    have h2 := ih h1.1 (fun o hm => ho o (by simp [hm]))
    exact ⟨h2.1, h2.2.trans h1.2⟩

theorem running_run {s : St} (hi : Quiet s) (h : Running s) (hf : ∃ i, i < s.n ∧ Free (s.b i))
    {ops : List Op} (ho : ∀ op ∈ ops, QmLoose s.b op) (hN : mu s ≤ ops.countP isProv) :
    Done s.b (run s ops) ∧ (run s ops).n = s.n := by
  induction ops generalizing s with
  | nil =>
    exfalso
    have : 0 < mu s := by
      unfold Running at h
      unfold mu
      split at h <;> rename_i hpc <;> simp_all
    simp only [List.countP_nil] at hN
    omega
  | cons op ops ih =>
    have hop := ho op (by simp)
    have hrest : ∀ o ∈ ops, QmLoose s.b o := fun o hm => ho o (by simp [hm])
    have hi' := quiet_step hi hop (fun _ _ _ => rfl)
    cases op <;> simp only [QmLoose] at hop
    · rcases provStep_running hi'.not_aborted h hf with ⟨hd, hn⟩ | ⟨a, b, c, d⟩
      · have := done_run hd hrest
        exact ⟨this.1, this.2.trans hn⟩
      · simp only [List.countP_cons, isProv, if_true] at hN
        have := ih (s := step s .prov) hi' a (by simp only [step]; rw [b, c]; exact hf)
          (by simp only [step]; rw [b]; exact hrest) (by simp only [step]; omega)
        simp only [step, b, c] at this
        exact this
    all_goals
      simp only [List.countP_cons, isProv, Bool.false_eq_true, if_false, Nat.add_zero] at hN
      exact ih hi' h hf hrest hN

theorem Behaved.allowed {op : Op} (h : Behaved op) : Allowed True op := by
  cases op <;> simp_all [Behaved, Allowed]

theorem RefCountsOnly.allowed {op : Op} (h : RefCountsOnly op) : Allowed False op := by
  cases op <;> simp_all [RefCountsOnly, Allowed]

theorem cleared_same {s : St} (h : AllSame True s) (j : Nat) : Same True (cleared s.qm j) (cleared s.b j) := by
  have h1 := h j
  unfold cleared
  rw [(h1.wr trivial).1]
  split
  · exact Same.refl (fun _ => WOk.invalid)
  · exact h1

theorem clean_run {s : St} (h : Inv True s) {ops : List Op} (ho : CleanCrashes s ops) : Inv True (run s ops) := by
  induction ops generalizing s with
  | nil => exact h
  | cons op ops ih =>
    refine ih ?_ ho.2
    rcases ho.1 with ⟨rfl, hp, hig⟩ | hb
    · have := h.same hig hp
      exact ⟨by simp [step], fun _ j => cleared_same this j, by simp [step]⟩
    · exact step_inv h hb.allowed

end Verif.Comp
