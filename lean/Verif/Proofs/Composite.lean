import Verif.Model.Composite
import Verif.Proofs.EventCtrl
/-! Invariant of the composite control: both controls carry the same timestamps. -/
namespace Verif.Comp
open Verif Verif.Slot Verif.Ctrl

/-- A word with timestamp 0 is invalid or in writing. -/
def WOk (w : Word) : Prop := tsN w = 0 → w = invalidEvent ∨ w = inWriting

/-- Same timestamp; if QM consumers behave (`lg`), also the same status. -/
structure Same (lg : Prop) (x y : Word) : Prop where
  ts : tsN x = tsN y
  wr : lg → isInWriting x = isInWriting y ∧ WOk x ∧ WOk y

/-- `x'` is `x` after something a consumer did. -/
structure Like (lg : Prop) (x x' : Word) : Prop where
  ts : tsN x' = tsN x
  wr : lg → WOk x → isInWriting x' = isInWriting x ∧ WOk x'

theorem Same.right {lg : Prop} {x y y' : Word} (h : Same lg x y) (l : Like lg y y') : Same lg x y' :=
  ⟨h.ts.trans l.ts.symm, fun g => ⟨(h.wr g).1.trans (l.wr g (h.wr g).2.2).1.symm, (h.wr g).2.1,
    (l.wr g (h.wr g).2.2).2⟩⟩

theorem Same.left {lg : Prop} {x x' y : Word} (h : Same lg x y) (l : Like lg x x') : Same lg x' y :=
  ⟨l.ts.trans h.ts, fun g => ⟨(l.wr g (h.wr g).2.1).1.trans (h.wr g).1, (l.wr g (h.wr g).2.1).2,
    (h.wr g).2.2⟩⟩

theorem Same.refl {lg : Prop} {x : Word} (h : lg → WOk x) : Same lg x x := ⟨rfl, fun g => ⟨rfl, h g, h g⟩⟩

theorem WOk.invalid : WOk invalidEvent := fun _ => .inl rfl
theorem WOk.writing : WOk inWriting := fun _ => .inr rfl

theorem ready_zero {t : Nat} (h : tsN (readyWord t) = 0) : readyWord t = invalidEvent := by
  apply word_ext
  · have := tsN_eq (readyWord t); rw [h] at this; rw [← this]; rfl
  · have := rcN_eq (readyWord t); rw [rcN_ready] at this; rw [← this]; rfl

theorem WOk.ready (t : Nat) : WOk (readyWord t) := fun h => .inl (ready_zero h)

theorem Like.refl {lg : Prop} (x : Word) : Like lg x x := ⟨rfl, fun _ h => ⟨rfl, h⟩⟩

theorem not_writing_of_ts {w : Word} (h : tsN w ≠ 0) : isInWriting w = false := by
  cases hw : isInWriting w
  · rfl
  · rw [isInWriting_iff] at hw; subst hw; exact absurd tsN_inWriting h

theorem like_of_ts {lg : Prop} {x x' : Word} (ht : tsN x' = tsN x) (hr : readable x = true) : Like lg x x' := by
  refine ⟨ht, fun _ hok => ?_⟩
  have hr' := (readable_iff x).mp hr
  have h0 : tsN x ≠ 0 := fun h => by rcases hok h with h | h <;> simp_all
  exact ⟨by rw [not_writing_of_ts h0, not_writing_of_ts (ht ▸ h0)], fun h => absurd (ht ▸ h) h0⟩

theorem like_addRef {lg : Prop} (x : Word) : Like lg x (addRef x) := by
  unfold addRef; split
  · rename_i h; exact like_of_ts (word_succ h.2).1 h.1
  · exact Like.refl x

theorem like_dropRef {lg : Prop} (x : Word) : Like lg x (dropRef x) := by
  unfold dropRef; split
  · rename_i h; exact like_of_ts (word_pred h.2).1 h.1
  · exact Like.refl x

theorem ts_setRc (w : Word) (rc : BitVec 32) : tsN (setReferenceCount w rc) = tsN w := by
  rw [set_rc_eq_make, tsN_eq, make_toNat]
  show _ = (getTimeStamp w).toNat
  have := rc.isLt
  omega

theorem like_scribble {lg : Prop} (hn : ¬ lg) (x : Word) (rc : BitVec 32) : Like lg x (setReferenceCount x rc) :=
  ⟨ts_setRc x rc, fun g => absurd g hn⟩

theorem addRef_inWriting : addRef inWriting = inWriting := by decide +kernel
theorem dropRef_inWriting : dropRef inWriting = inWriting := by decide +kernel

/-- QM word of a slot that is allocated or being allocated. -/
def Taken (lg : Prop) (w : Word) : Prop := tsN w = 0 ∧ (lg → w = inWriting)

theorem Taken.same {lg : Prop} {w : Word} (h : Taken lg w) : Same lg w inWriting :=
  ⟨h.1.trans tsN_inWriting.symm, fun g => by rw [h.2 g]; exact ⟨rfl, WOk.writing, WOk.writing⟩⟩

theorem Same.taken {lg : Prop} {w : Word} (h : Same lg w inWriting) : Taken lg w :=
  ⟨h.ts.trans tsN_inWriting, fun g => by have := (h.wr g).1; rw [show isInWriting inWriting = true from rfl] at this
                                         exact (isInWriting_iff w).mp this⟩

theorem Taken.like {lg : Prop} {w w' : Word} (h : Taken lg w) (l : Like lg w w') : Taken lg w' :=
  (h.same.left l).taken

/-- All slots except possibly `i` agree. -/
def SameBut (lg : Prop) (s : St) (i : Nat) : Prop := ∀ j, j ≠ i → Same lg (s.qm j) (s.b j)

def AllSame (lg : Prop) (s : St) : Prop := ∀ j, Same lg (s.qm j) (s.b j)

def BestOk (lg : Prop) (s : St) (best : Option (Nat × Word)) : Prop :=
  ∀ i w, best = some (i, w) → i < s.n ∧ Same lg w (s.b i)

/-- The part of the invariant that depends on the program counter, QM not disconnected. -/
def PcOk (lg : Prop) (s : St) : Prop :=
  match s.pc with
  | .idle => AllSame lg s
  | .findQm _ _ _ best => AllSame lg s ∧ BestOk lg s best
  | .findB _ k _ best qw => AllSame lg s ∧ BestOk lg s best ∧ k < s.n ∧ Same lg qw (s.b k)
  | .casQm _ i w => AllSame lg s ∧ i < s.n ∧ Same lg w (s.b i)
  | .casB _ i w => SameBut lg s i ∧ i < s.n ∧ Same lg w (s.b i) ∧ Taken lg (s.qm i)
  | .restore _ i w => SameBut lg s i ∧ i < s.n ∧ Same lg w (s.b i) ∧ Taken lg (s.qm i)
  | .bAlloc _ => False
  | .sendQm i ts => SameBut lg s i ∧ tsN (readyWord ts) = tsN (s.b i) ∧
      (lg → isInWriting (s.b i) = false ∧ WOk (s.b i))
  | .discardQm i => SameBut lg s i ∧ s.b i = invalidEvent ∧ Taken lg (s.qm i)
  | .aborted => False

structure Inv (lg : Prop) (s : St) : Prop where
  al : ∀ i, s.alloc i = true → s.b i = inWriting
  pc : s.ignore = false → PcOk lg s
  ig : s.ignore = true → s.pc = .idle ∨ ∃ p, s.pc = .bAlloc p

theorem init_inv (lg : Prop) (n : Nat) : Inv lg (init n) where
  al := by simp [init]
  pc := fun _ j => Same.refl (fun _ => WOk.invalid)
  ig := by simp [init]

theorem ready_not_writing (t : Nat) : isInWriting (readyWord t) = false := by
  cases h : isInWriting (readyWord t)
  · rfl
  · rw [isInWriting_iff] at h
    have h1 := rcN_ready t
    rw [h, rcN_inWriting] at h1
    simp at h1

/-- Consumers of the QM control. -/
theorem PcOk.qm {lg : Prop} {s : St} (h : PcOk lg s) (i : Nat) (w : Word) (l : Like lg (s.qm i) w) :
    PcOk lg { s with qm := upd s.qm i w } := by
  have key : ∀ j, Like lg (s.qm j) (upd s.qm i w j) := by
    intro j; unfold upd; split
    · rename_i e; subst e; exact l
    · exact Like.refl _
  unfold PcOk at h ⊢
  generalize hp : s.pc = p at h
  simp only [hp]
  cases p <;> simp only [AllSame, SameBut, BestOk] at h ⊢
  · exact fun j => (h j).left (key j)
  · exact ⟨fun j => (h.1 j).left (key j), h.2⟩
  · exact ⟨fun j => (h.1 j).left (key j), h.2⟩
  · exact ⟨fun j => (h.1 j).left (key j), h.2⟩
  · exact ⟨fun j hj => (h.1 j hj).left (key j), h.2.1, h.2.2.1, h.2.2.2.like (key _)⟩
  · exact ⟨fun j hj => (h.1 j hj).left (key j), h.2.1, h.2.2.1, h.2.2.2.like (key _)⟩
  · exact ⟨fun j hj => (h.1 j hj).left (key j), h.2⟩
  · exact ⟨fun j hj => (h.1 j hj).left (key j), h.2.1, h.2.2.like (key _)⟩

/-- Consumers of the ASIL-B control. -/
theorem PcOk.bb {lg : Prop} {s : St} (h : PcOk lg s) (i : Nat) (w : Word) (l : Like lg (s.b i) w)
    (hinv : s.b i = invalidEvent → w = invalidEvent) :
    PcOk lg { s with b := upd s.b i w } := by
  have key : ∀ j, Like lg (s.b j) (upd s.b i w j) := by
    intro j; unfold upd; split
    · rename_i e; subst e; exact l
    · exact Like.refl _
  have inv : ∀ j, s.b j = invalidEvent → upd s.b i w j = invalidEvent := by
    intro j hj; unfold upd; split
    · rename_i e; subst e; exact hinv hj
    · exact hj
  unfold PcOk at h ⊢
  generalize hp : s.pc = p at h
  simp only [hp]
  cases p <;> simp only [AllSame, SameBut, BestOk] at h ⊢
  · exact fun j => (h j).right (key j)
  · exact ⟨fun j => (h.1 j).right (key j), fun i w e => ⟨(h.2 i w e).1, (h.2 i w e).2.right (key i)⟩⟩
  · exact ⟨fun j => (h.1 j).right (key j), fun i w e => ⟨(h.2.1 i w e).1, (h.2.1 i w e).2.right (key i)⟩, h.2.2.1,
      h.2.2.2.right (key _)⟩
  · exact ⟨fun j => (h.1 j).right (key j), h.2.1, h.2.2.right (key _)⟩
  · exact ⟨fun j hj => (h.1 j hj).right (key j), h.2.1, h.2.2.1.right (key _), h.2.2.2⟩
  · exact ⟨fun j hj => (h.1 j hj).right (key j), h.2.1, h.2.2.1.right (key _), h.2.2.2⟩
  · refine ⟨fun j hj => (h.1 j hj).right (key j), h.2.1.trans (key _).ts.symm, fun g => ?_⟩
    have := (key _).wr g (h.2.2 g).2
    exact ⟨this.1.trans (h.2.2 g).1, this.2⟩
  · exact ⟨fun j hj => (h.1 j hj).right (key j), inv _ h.2.1, h.2.2⟩

theorem addRef_invalid : addRef invalidEvent = invalidEvent := by decide +kernel
theorem dropRef_invalid : dropRef invalidEvent = invalidEvent := by decide +kernel

theorem not_used_iff (w : Word) : isUsed w = false ↔ rcN w = 0 ∧ isInWriting w = false := by
  simp only [isUsed, Bool.or_eq_false_iff, bne_eq_false_iff_eq]
  constructor
  · rintro ⟨h, h'⟩; exact ⟨by simp [rcN, h], h'⟩
  · rintro ⟨h, h'⟩
    refine ⟨?_, h'⟩
    apply BitVec.eq_of_toNat_eq
    exact h

theorem same_unused_eq {lg : Prop} {x y : Word} (h : Same lg x y) (hx : isUsed x = false) (hy : isUsed y = false) :
    x = y := by
  rw [not_used_iff] at hx hy
  apply word_ext
  · rw [← tsN_eq, ← tsN_eq]; exact h.ts
  · rw [← rcN_eq, ← rcN_eq, hx.1, hy.1]

theorem nextTry_inv {lg : Prop} {s : St} (al : ∀ i, s.alloc i = true → s.b i = inWriting) (h : AllSame lg s)
    (hig : s.ignore = false) (retry : Nat) : Inv lg (nextTry s retry) := by
  unfold nextTry; split
  · exact ⟨al, fun _ => ⟨h, by simp [BestOk]⟩, by simp [hig]⟩
  · exact ⟨al, by simp, fun _ => .inr ⟨_, rfl⟩⟩

theorem provStep_inv {lg : Prop} {s : St} (h : Inv lg s) : Inv lg (provStep s) := by
  cases hig : s.ignore
  · have hp := h.pc hig
    unfold PcOk at hp
    unfold provStep
    split <;> (rename_i hpc; simp only [hpc] at hp)
    · exact h
    · rename_i retry k oldest best
      split
      · rename_i hk
        exact ⟨h.al, fun _ => ⟨hp.1, hp.2, hk, hp.1 k⟩, by simp [hig]⟩
      · split
        · rename_i i w
          exact ⟨h.al, fun _ => ⟨hp.1, hp.2 i w rfl⟩, by simp [hig]⟩
        · exact nextTry_inv h.al hp.1 hig _
    · rename_i retry k oldest best qw
      unfold decideSlot
      split
      · exact nextTry_inv h.al hp.1 hig _
      · split
        · rename_i hu
          split
          · refine ⟨h.al, fun _ => ⟨hp.1, ?_⟩, by simp [hig]⟩
            intro i w e
            cases e
            exact ⟨hp.2.2.1, hp.2.2.2⟩
          · rename_i hne
            exact absurd (same_unused_eq hp.2.2.2 hu.1 hu.2.1) hne
        · exact ⟨h.al, fun _ => ⟨hp.1, hp.2.1⟩, by simp [hig]⟩
    · rename_i retry i w
      split
      · refine ⟨h.al, fun _ => ⟨?_, hp.2.1, hp.2.2, ?_⟩, by simp [hig]⟩
        · intro j hj
          show Same lg (upd s.qm i inWriting j) (s.b j)
          rw [upd_ne _ _ hj]; exact hp.1 j
        · show Taken lg (upd s.qm i inWriting i)
          rw [upd_self]; exact ⟨tsN_inWriting, fun _ => rfl⟩
      · exact nextTry_inv h.al hp.1 hig _
    · rename_i retry i w
      split
      · refine ⟨?_, fun _ => ?_, by simp [hig]⟩
        · intro j hj
          simp only [upd] at hj ⊢
          split
          · rfl
          · rename_i hne; simp only [if_neg hne] at hj; exact h.al j hj
        · intro j
          show Same lg (s.qm j) (upd s.b i inWriting j)
          unfold upd; split
          · rename_i e; subst e; exact hp.2.2.2.same
          · rename_i hne; exact hp.1 j hne
      · exact ⟨h.al, fun _ => hp, by simp [hig]⟩
    · rename_i retry i w
      refine nextTry_inv (s := { s with qm := upd s.qm i w }) h.al ?_ hig _
      intro j
      show Same lg (upd s.qm i w j) (s.b j)
      unfold upd; split
      · rename_i e; subst e; exact hp.2.2.1
      · rename_i hne; exact hp.1 j hne
    · rename_i i ts
      refine ⟨h.al, fun _ => ?_, by simp [hig]⟩
      intro j
      show Same lg (upd s.qm i (readyWord ts) j) (s.b j)
      unfold upd; split
      · rename_i e; subst e
        exact ⟨hp.2.1, fun g => ⟨by rw [ready_not_writing, (hp.2.2 g).1], WOk.ready ts, (hp.2.2 g).2⟩⟩
      · rename_i hne; exact hp.1 j hne
    · rename_i i
      refine ⟨h.al, fun _ => ?_, by simp [hig]⟩
      intro j
      show Same lg ((if isInWriting (s.qm i) then upd s.qm i invalidEvent else s.qm) j) (s.b j)
      by_cases hji : j = i
      · subst hji
        rw [hp.2.1]
        split
        · rw [upd_self]; exact Same.refl (fun _ => WOk.invalid)
        · rename_i hw
          refine ⟨hp.2.2.1.trans (by decide), fun g => absurd ?_ hw⟩
          rw [hp.2.2.2 g]; rfl
      · split
        · rw [upd_ne _ _ hji]; exact hp.1 j hji
        · exact hp.1 j hji
  · have hp := h.ig hig
    unfold provStep
    rcases hp with hp | ⟨p, hp⟩
    · simp only [hp]; exact h
    · cases p with
      | idle => simp only [hp]; exact ⟨h.al, by simp [hig], fun _ => .inl rfl⟩
      | find retry k oldest best => simp only [hp]; exact ⟨h.al, by simp [hig], fun _ => .inr ⟨_, rfl⟩⟩
      | cas retry i w =>
        simp only [hp]
        split
        · refine ⟨?_, by simp [hig], fun _ => .inl rfl⟩
          intro j hj
          simp only [upd] at hj ⊢
          split
          · rfl
          · rename_i hne; simp only [if_neg hne] at hj; exact h.al j hj
        · split
          · exact ⟨h.al, by simp [hig], fun _ => .inr ⟨_, rfl⟩⟩
          · exact ⟨h.al, by simp [hig], fun _ => .inr ⟨_, rfl⟩⟩

/-- Operations covered by the invariant: everything but a restart and stores of foreign timestamps;
wrong reference counts only if `lg` does not hold. -/
def Allowed (lg : Prop) : Op → Prop
  | .restart => False
  | .qmCorrupt _ _ => False
  | .qmScribble _ _ => ¬ lg
  | _ => True

theorem step_inv {lg : Prop} {s : St} (h : Inv lg s) {op : Op} (ho : Allowed lg op) : Inv lg (step s op) := by
  have alq : ∀ (f : Word → Word) (i : Nat), f inWriting = inWriting →
      ∀ j, s.alloc j = true → upd s.b i (f (s.b i)) j = inWriting := by
    intro f i hf j hj
    unfold upd; split
    · rename_i e; subst e; rw [h.al j hj, hf]
    · exact h.al j hj
  cases op with
  | alloc =>
    simp only [step]; split
    · rename_i hpc
      split
      · rename_i hig; exact ⟨h.al, by simp [hig], fun _ => .inr ⟨_, rfl⟩⟩
      · rename_i hig
        have hp := h.pc (by simpa using hig)
        unfold PcOk at hp; rw [hpc] at hp
        exact ⟨h.al, fun _ => ⟨hp, by simp [BestOk]⟩, by simp [hig]⟩
    · exact h
  | prov => exact provStep_inv h
  | send i =>
    simp only [step]; split
    · rename_i hc
      refine ⟨?_, ?_, ?_⟩
      · intro j hj
        simp only [upd] at hj ⊢
        split
        · rename_i e; simp [e] at hj
        · rename_i hne; simp only [if_neg hne] at hj; exact h.al j hj
      · intro hig
        have hig : s.ignore = false := hig
        have hp := h.pc hig
        unfold PcOk at hp; rw [hc.1] at hp
        simp only [PcOk, hig, Bool.false_eq_true, if_false]
        refine ⟨?_, ?_, fun g => ?_⟩
        · intro j hj
          show Same lg (s.qm j) (upd s.b i _ j)
          rw [upd_ne _ _ hj]; exact hp j
        · rw [upd_self]
        · rw [upd_self]; exact ⟨ready_not_writing _, WOk.ready _⟩
      · intro hig
        have hig : s.ignore = true := hig
        exact .inl (by simp [hig])
    · exact h
  | discard i =>
    simp only [step]; split
    · rename_i hc
      have hb := h.al i hc.2
      have hw : isInWriting (s.b i) = true := by rw [hb]; rfl
      simp only [hw, if_true]
      refine ⟨?_, ?_, ?_⟩
      · intro j hj
        simp only [upd] at hj ⊢
        split
        · rename_i e; simp [e] at hj
        · rename_i hne; simp only [if_neg hne] at hj; exact h.al j hj
      · intro hig
        have hig : s.ignore = false := hig
        have hp := h.pc hig
        unfold PcOk at hp; rw [hc.1] at hp
        simp only [PcOk, hig, Bool.false_eq_true, if_false]
        refine ⟨?_, ?_, ?_⟩
        · intro j hj
          show Same lg (s.qm j) (upd s.b i _ j)
          rw [upd_ne _ _ hj]; exact hp j
        · rw [upd_self]
        · have := hp i; rw [hb] at this; exact this.taken
      · intro hig
        have hig : s.ignore = true := hig
        exact .inl (by simp [hig])
    · exact h
  | restart => exact ho.elim
  | qmCorrupt i w => exact ho.elim
  | qmRef i => exact ⟨h.al, fun hig => (h.pc hig).qm i _ (like_addRef _), h.ig⟩
  | qmDeref i => exact ⟨h.al, fun hig => (h.pc hig).qm i _ (like_dropRef _), h.ig⟩
  | qmScribble i rc => exact ⟨h.al, fun hig => (h.pc hig).qm i _ (like_scribble ho _ _), h.ig⟩
  | bRef i =>
    exact ⟨alq addRef i addRef_inWriting,
      fun hig => (h.pc hig).bb i _ (like_addRef _) (fun e => by rw [e, addRef_invalid]), h.ig⟩
  | bDeref i =>
    exact ⟨alq dropRef i dropRef_inWriting,
      fun hig => (h.pc hig).bb i _ (like_dropRef _) (fun e => by rw [e, dropRef_invalid]), h.ig⟩

theorem run_inv {lg : Prop} {s : St} (h : Inv lg s) {ops : List Op} (ho : ∀ op ∈ ops, Allowed lg op) :
    Inv lg (run s ops) := by
  induction ops generalizing s with
  | nil => exact h
  | cons op ops ih =>
    exact ih (step_inv h (ho op (by simp))) (fun o hm => ho o (by simp [hm]))

theorem Inv.not_aborted {lg : Prop} {s : St} (h : Inv lg s) : s.pc ≠ .aborted := by
  intro he
  cases hig : s.ignore
  · have := h.pc hig; unfold PcOk at this; rw [he] at this; exact this
  · rcases h.ig hig with h | ⟨p, h⟩ <;> simp [he] at h

theorem Inv.same {lg : Prop} {s : St} (h : Inv lg s) (hi : s.ignore = false) (hp : s.pc = .idle) : AllSame lg s := by
  have := h.pc hi; unfold PcOk at this; rw [hp] at this; exact this

end Verif.Comp
