import Verif.Proofs.TraceAlone

/-! Stopping releases all slots; a free slot is found. -/
namespace Verif.TraceSlots
open Verif.TraceSlotsSpec

/-- Slots behind a stopping thread are free. -/
def Swept (s : St) : Prop := ∀ t e i c, s.pc t = .stop e i → Own s e c → c < i → s.slots c = none

theorem swept_start (n : Nat) : Swept (start n) := fun t e i c h => by cases h

theorem swept_setPc {s : St} (h : Swept s) (t : Nat) (p : Pc)
    (hp : ∀ e i c, p = .stop e i → Own s e c → c < i → s.slots c = none) : Swept (s.setPc t p) := by
  intro u e i c hu ho hc
  by_cases eu : u = t
  · simp only [pc_setPc, eu, if_true] at hu; exact hp e i c hu ho hc
  · simp only [pc_setPc, eu, if_false] at hu; exact h u e i c hu ho hc

theorem swept_clear {s : St} (h : Swept s) (d : Nat) : Swept (s.setSlot d none) := by
  intro u e i c hu ho hc
  show (if c = d then none else s.slots c) = none
  split
  · rfl
  · exact h u e i c hu ho hc

theorem swept_op {s : St} (hs : Single s) (h : Swept s) (o : Op) : Swept (s.op o) := by
  have hb := fun e c r hr => @own_back s o e c r hr
  have hd := does_op s o
  generalize s.op o = s' at hd hb
  cases hd with
  | same => exact h
  | register n =>
    obtain ⟨f1, f2, f3, f4, f5⟩ := register_frame s n
    intro t e i c hp ho hc
    rw [f2] at hp; rw [f1]
    have := hs.pcs t
    rw [hp] at this
    obtain ⟨a, m, r, _⟩ := this
    exact h t e i c hp (hb e c _ r ho) hc
  | trace t e x a n hp hr => exact swept_setPc h t _ (fun _ _ _ hc => by cases hc)
  | stop t e a n hp hr =>
    refine swept_setPc h t _ ?_
    intro e' i c he ho hc
    cases he
    obtain ⟨b, m, r, h1, _⟩ := ho
    rw [r] at hr; cases hr; omega
  | finish t k c x hp hk => exact swept_setPc h t _ (fun _ _ _ hc => by cases hc)
  | badPick t ok e x i hp hr => exact h
  | noSlot t ok e x i a n hp hr hi => exact swept_setPc h t _ (fun _ _ _ hc => by cases hc)
  | usedSlot t ok e x i a n hp hr hi hs' hu => exact swept_setPc h t _ (fun _ _ _ hc => by cases hc)
  | freeSlot t ok e x i a n hp hr hi hs' hu => exact swept_setPc h t _ (fun _ _ _ hc => by cases hc)
  | badPut t ok e x c hp hu => exact h
  | put t ok e x c hp hu =>
    have ho : Own s e c := by have := hs.pcs t; rw [hp] at this; exact this.1
    intro u e' i d hq hod hdi
    have hq' : s.pc u = .stop e' i ∧ u ≠ t := by
      by_cases eu : u = t
      · simp only [pc_setPc, eu, if_true] at hq; cases hq
      · simp only [pc_setPc, eu, if_false, pc_setSlot] at hq; exact ⟨hq, eu⟩
    show (if d = c then some x else s.slots d) = none
    have : d ≠ c := by
      rintro rfl
      have e1 := own_unique hs.ranged hod ho
      subst e1
      exact hq'.2 (hs.one u t e' (by rw [hq'.1]; rfl) (by rw [hp]; rfl))
    rw [if_neg this]
    exact h u e' i d hq'.1 hod hdi
  | accepted t e x c hp => exact swept_setPc h t _ (fun _ _ _ hc => by cases hc)
  | refused t e x c hp => exact swept_setPc h t _ (fun _ _ _ hc => by cases hc)
  | undo t ok e c hp => exact swept_setPc (swept_clear h c) t _ (fun _ _ _ hc => by cases hc)
  | badStop t ok e i hp hr => exact h
  | stopped t ok e i hp => exact swept_setPc h t _ (fun _ _ _ hc => by cases hc)
  | stopSlot t ok e i a n hp hr hi hs' =>
    refine swept_setPc (swept_clear h i) t _ ?_
    intro e' i' c he ho hc
    cases he
    show (if c = i then none else s.slots c) = none
    by_cases ec : c = i
    · rw [if_pos ec]
    · rw [if_neg ec]; exact h t e i c hp ho (by omega)
  | badCheck t ok c hp hc => exact h
  | checkUsed t ok c hp hc hu => exact swept_setPc h t _ (fun _ _ _ hc => by cases hc)
  | checkFree t ok c hp hc hu => exact swept_setPc h t _ (fun _ _ _ hc => by cases hc)
  | clear t ok c hp => exact swept_setPc (swept_clear h c) t _ (fun _ _ _ hc => by cases hc)

theorem swept_run (ops : List Op) : ∀ {s : St}, Single s → Swept s → Alone s ops → Swept (run s ops) := by
  induction ops with
  | nil => exact fun _ h _ => h
  | cons o ops ih => exact fun hs h ha => ih (single_op hs o ha.1) (swept_op hs h o) ha.2

/-! ## A free slot is found -/

/-- Thread `t` has not yet passed the free slot `j`, or it does not look for a slot. -/
def Finds (s : St) (t j : Nat) : Prop :=
  ∀ e x i, s.pc t = .pick e x i → i ≤ j ∧ Own s e j ∧ s.slots j = none

theorem finds_op {s : St} (hs : Single s) {t j : Nat} (h : Finds s t j) (o : Op) (ho : ∀ e x, o ≠ .trace t e x) :
    Finds (s.op o) t j ∧ (s.op o).lost.filter (fun p => p.1 == t) = s.lost.filter (fun p => p.1 == t) := by
  have hkeep := fun e c => @own_keep s o e c
  have hd := does_op s o
  generalize s.op o = s' at hd hkeep
  -- a step of another thread or one after which `t` does not look for a slot
  have other : ∀ (u : Nat) (p : Pc), (∀ e x i, p ≠ .pick e x i) ∨ u ≠ t → Finds (s.setPc u p) t j := by
    intro u p hp e x i hq
    by_cases eu : t = u
    · simp only [pc_setPc, eu, if_true] at hq
      rcases hp with hp | hp
      · exact absurd hq (hp e x i)
      · exact absurd eu.symm hp
    · simp only [pc_setPc, eu, if_false] at hq; exact h e x i hq
  have otherClear : ∀ (u c : Nat) (p : Pc), (∀ e x i, p ≠ .pick e x i) → Finds ((s.setSlot c none).setPc u p) t j := by
    intro u c p hp e x i hq
    by_cases eu : t = u
    · simp only [pc_setPc, eu, if_true] at hq; exact absurd hq (hp e x i)
    · simp only [pc_setPc, eu, if_false, pc_setSlot] at hq
      obtain ⟨h1, h2, h3⟩ := h e x i hq
      refine ⟨h1, h2, ?_⟩
      show (if j = c then none else s.slots j) = none
      split
      · rfl
      · exact h3
  cases hd with
  | same => exact ⟨h, rfl⟩
  | register n =>
    obtain ⟨f1, f2, f3, f4, f5⟩ := register_frame s n
    refine ⟨?_, by rw [f5]⟩
    intro e x i hq
    rw [f2] at hq
    obtain ⟨h1, h2, h3⟩ := h e x i hq
    exact ⟨h1, hkeep _ _ h2, by rw [f1]; exact h3⟩
  | trace u e x a n hp hr =>
    refine ⟨other u _ (Or.inr ?_), rfl⟩
    rintro rfl; exact ho e x rfl
  | stop u e a n hp hr => exact ⟨other u _ (Or.inl (by simp)), rfl⟩
  | finish u k c x hp hk => exact ⟨other u (.check c) (Or.inl (by simp)), rfl⟩
  | badPick u ok e x i hp hr => exact ⟨h, rfl⟩
  | noSlot u ok e x i a n hp hr hi =>
    by_cases eu : u = t
    · subst eu
      obtain ⟨h1, ⟨b, m, r, h2, h3⟩, _⟩ := h e x i hp
      rw [r] at hr; cases hr; omega
    · exact ⟨other u .idle (Or.inl (by simp)), by simp [List.filter_append, eu]⟩
  | usedSlot u ok e x i a n hp hr hi hs' hu =>
    refine ⟨?_, rfl⟩
    by_cases eu : u = t
    · subst eu
      intro e' x' i' hq
      simp only [pc_setPc, if_true] at hq
      cases hq
      obtain ⟨h1, h2, h3⟩ := h e x i hp
      refine ⟨?_, h2, h3⟩
      have : i ≠ j := by rintro rfl; rw [h3] at hu; cases hu
      omega
    · exact other u _ (Or.inr eu)
  | freeSlot u ok e x i a n hp hr hi hs' hu => exact ⟨other u _ (Or.inl (by simp)), rfl⟩
  | badPut u ok e x c hp hu => exact ⟨h, rfl⟩
  | put u ok e x c hp hu =>
    refine ⟨?_, rfl⟩
    have hoc : Own s e c := by have := hs.pcs u; rw [hp] at this; exact this.1
    intro e' x' i' hq
    by_cases eu : t = u
    · simp only [pc_setPc, eu, if_true] at hq; cases hq
    · simp only [pc_setPc, eu, if_false, pc_setSlot] at hq
      obtain ⟨h1, h2, h3⟩ := h e' x' i' hq
      refine ⟨h1, h2, ?_⟩
      show (if j = c then some x else s.slots j) = none
      have : j ≠ c := by
        rintro rfl
        have e1 := own_unique hs.ranged h2 hoc
        subst e1
        exact eu (hs.one t u e' (by rw [hq]; rfl) (by rw [hp]; rfl))
      rw [if_neg this]; exact h3
  | accepted u e x c hp => exact ⟨other u .idle (Or.inl (by simp)), rfl⟩
  | refused u e x c hp => exact ⟨other u _ (Or.inl (by simp)), rfl⟩
  | undo u ok e c hp => exact ⟨otherClear u c _ (by simp), rfl⟩
  | badStop u ok e i hp hr => exact ⟨h, rfl⟩
  | stopped u ok e i hp => exact ⟨other u _ (Or.inl (by simp)), rfl⟩
  | stopSlot u ok e i a n hp hr hi hs' => exact ⟨otherClear u i _ (by simp), rfl⟩
  | badCheck u ok c hp hc => exact ⟨h, rfl⟩
  | checkUsed u ok c hp hc hu => exact ⟨other u _ (Or.inl (by simp)), rfl⟩
  | checkFree u ok c hp hc hu => exact ⟨other u _ (Or.inl (by simp)), rfl⟩
  | clear u ok c hp => exact ⟨otherClear u c _ (by simp), rfl⟩

theorem finds_run {t j : Nat} (ops : List Op) : ∀ {s : St}, Single s → Alone s ops → Finds s t j →
    (∀ e x, Op.trace t e x ∉ ops) →
    (run s ops).lost.filter (fun p => p.1 == t) = s.lost.filter (fun p => p.1 == t) := by
  induction ops with
  | nil => exact fun _ _ _ _ => rfl
  | cons o ops ih =>
    intro s hs ha h ho
    have h1 := finds_op hs h o (fun e x he => ho e x (by simp [he]))
    exact (ih (single_op hs o ha.1) ha.2 h1.1 (fun e x hm => ho e x (by simp [hm]))).trans h1.2

theorem alone_append (ops ops' : List Op) : ∀ {s : St}, Alone s (ops ++ ops') → Alone s ops ∧ Alone (run s ops) ops' := by
  induction ops with
  | nil => exact fun h => ⟨trivial, h⟩
  | cons o ops ih =>
    intro s h
    have := ih h.2
    exact ⟨⟨h.1, this.1⟩, this.2⟩

theorem run_append (s : St) (ops ops' : List Op) : run s (ops ++ ops') = run (run s ops) ops' := by
  simp [run, List.foldl_append]

/-! ## The subsystem is called -/

theorem idle_next {s : St} {t : Nat} (h : s.pc t = .idle) (ok : Bool) (k : Nat) :
    run s (List.replicate k (.next t ok)) = s := by
  induction k with
  | zero => rfl
  | succ k ih =>
    have : s.op (.next t ok) = s := by unfold St.op; split; rfl; simp [St.next', St.step, h]
    show run (s.op (.next t ok)) _ = s
    rw [this]; exact ih

theorem run_replicate_succ (s : St) (o : Op) (k : Nat) :
    run s (List.replicate (k + 1) o) = run (s.op o) (List.replicate k o) := rfl

theorem pick_reaches (t e x a n c : Nat) : ∀ (m i : Nat) (s : St), s.dead = false → s.pc t = .pick e x i →
    s.ranges[e]? = some (a, n) → i + m = c → c < a + n → a + n ≤ s.size → s.slots c = none →
    ∃ d, i ≤ d ∧ d ≤ c ∧ s.slots d = none ∧ ∀ k, m + 3 ≤ k →
      (run s (List.replicate k (.next t true))).pc t = .idle ∧
      (run s (List.replicate k (.next t true))).flight = s.flight ++ [(d, x)] ∧
      (run s (List.replicate k (.next t true))).slots = fun j => if j = d then some x else s.slots j := by
  intro m
  induction m with
  | zero => 
    intro i s hd hp hr hm hc hsz hu
    obtain rfl : i = c := by omega
    refine ⟨i, by omega, by omega, hu, ?_⟩
    intro k hk
    obtain ⟨k', rfl⟩ : ∃ k', k = k' + 1 + 1 + 1 := ⟨k - 3, by omega⟩
    rw [run_replicate_succ, run_replicate_succ, run_replicate_succ]
    have e1 : s.op (.next t true) = s.setPc t (.put e x i) := by
      simp [St.op, hd, St.next', St.step, hp, hr, hu, show i ≠ a + n by omega, show ¬ s.size ≤ i by omega]
    have e2 : (s.setPc t (.put e x i)).op (.next t true) =
        ((s.setPc t (.put e x i)).setSlot i (some x)).setPc t (.call e x i) := by
      simp [St.op, St.setPc, hd, St.next', St.step, hu]
    rw [e1, e2]
    have e3 : (((s.setPc t (.put e x i)).setSlot i (some x)).setPc t (.call e x i)).op (.next t true) =
        { ((((s.setPc t (.put e x i)).setSlot i (some x)).setPc t (.call e x i)).setPc t .idle) with
            flight := s.flight ++ [(i, x)] } := by
      simp [St.op, St.setPc, St.setSlot, hd, St.next', St.step]
    rw [e3, idle_next (by simp [St.setPc])]
    exact ⟨by simp [St.setPc], rfl, rfl⟩
  | succ m ih =>
    intro i s hd hp hr hm hc hsz hu
    by_cases hi : (s.slots i).isSome
    · have e1 : s.op (.next t true) = s.setPc t (.pick e x (i + 1)) := by
        simp [St.op, hd, St.next', St.step, hp, hr, hi, show i ≠ a + n by omega, show ¬ s.size ≤ i by omega]
      obtain ⟨d, h1, h2, h3, h4⟩ := ih (i + 1) (s.setPc t (.pick e x (i + 1))) hd (by simp [St.setPc]) hr (by omega) hc hsz hu
      refine ⟨d, by omega, h2, h3, ?_⟩
      intro k hk
      obtain ⟨k', rfl⟩ : ∃ k', k = k' + 1 := ⟨k - 1, by omega⟩
      rw [run_replicate_succ, e1]
      exact h4 k' (by omega)
    · have hu' : s.slots i = none := by simpa using hi
      refine ⟨i, by omega, by omega, hu', ?_⟩
      intro k hk
      obtain ⟨k', rfl⟩ : ∃ k', k = k' + 1 + 1 + 1 := ⟨k - 3, by omega⟩
      rw [run_replicate_succ, run_replicate_succ, run_replicate_succ]
      have e1 : s.op (.next t true) = s.setPc t (.put e x i) := by
        simp [St.op, hd, St.next', St.step, hp, hr, hu', show i ≠ a + n by omega, show ¬ s.size ≤ i by omega]
      have e2 : (s.setPc t (.put e x i)).op (.next t true) =
          ((s.setPc t (.put e x i)).setSlot i (some x)).setPc t (.call e x i) := by
        simp [St.op, St.setPc, hd, St.next', St.step, hu']
      rw [e1, e2]
      have e3 : (((s.setPc t (.put e x i)).setSlot i (some x)).setPc t (.call e x i)).op (.next t true) =
          { ((((s.setPc t (.put e x i)).setSlot i (some x)).setPc t (.call e x i)).setPc t .idle) with
              flight := s.flight ++ [(i, x)] } := by
        simp [St.op, St.setPc, St.setSlot, hd, St.next', St.step]
      rw [e3, idle_next (by simp [St.setPc])]
      exact ⟨by simp [St.setPc], rfl, rfl⟩

theorem size_op (s : St) (o : Op) : (s.op o).size = s.size := by
  have hd := does_op s o
  generalize s.op o = s' at hd
  cases hd with
  | register n => unfold St.register; split; rfl; split <;> rfl
  | _ => rfl

theorem size_run (size : Nat) (ops : List Op) : (run (start size) ops).size = size := by
  have : ∀ (ops : List Op) (s : St), (run s ops).size = s.size := by
    intro ops
    induction ops with
    | nil => exact fun _ => rfl
    | cons o ops ih => exact fun s => (ih (s.op o)).trans (size_op s o)
  exact this ops _

theorem ranged_run (ops : List Op) : ∀ {s : St}, Ranged s → Ranged (run s ops) := by
  induction ops with
  | nil => exact fun h => h
  | cons o ops ih => exact fun h => ih (ranged_op h o)

end Verif.TraceSlots
