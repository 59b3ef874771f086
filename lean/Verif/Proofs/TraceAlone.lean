import Verif.Proofs.TraceSlots

/-! Invariants of the slots for traced samples when calls for one element do not overlap. -/
namespace Verif.TraceSlots
open Verif.TraceSlotsSpec

/-- What is known of the position of a thread. -/
def PcOk (s : St) : Pc → Prop
  | .idle => True
  | .pick e _ i => ∃ a n, s.ranges[e]? = some (a, n) ∧ a ≤ i ∧ i ≤ a + n
  | .put e _ c => Own s e c ∧ s.slots c = none
  | .call e _ c => Own s e c
  | .undo e c => Own s e c
  | .stop e i => ∃ a n, s.ranges[e]? = some (a, n) ∧ a ≤ i ∧ i ≤ a + n
  | .check c => c < s.size
  | .clear c => c < s.size

structure Single (s : St) : Prop where
  ranged : Ranged s
  pcs : ∀ t, PcOk s (s.pc t)
  one : ∀ t t' e, element (s.pc t) = some e → element (s.pc t') = some e → t = t'
  flying : ∀ c x, (c, x) ∈ s.flight → c < s.size

theorem single_start (n : Nat) : Single (start n) :=
  ⟨ranged_start n, fun _ => trivial, fun t t' e h => (by cases h), fun c x h => (by cases h)⟩

/-- Only the position of `t` changes; it works on no other element than before. -/
theorem single_setPc {s : St} (h : Single s) (t : Nat) (p : Pc) (hp : PcOk s p)
    (he : ∀ e, element p = some e → element (s.pc t) = some e ∨ Free s e) : Single (s.setPc t p) := by
  refine ⟨⟨h.ranged.ord, h.ranged.bound, h.ranged.fits⟩, ?_, ?_, h.flying⟩
  · intro u
    show PcOk s _
    by_cases e : u = t
    · simp only [pc_setPc, e, if_true]; exact hp
    · simp only [pc_setPc, e, if_false]; exact h.pcs u
  · intro u u' e hu hu'
    simp only [pc_setPc] at hu hu'
    by_cases e1 : u = t <;> by_cases e2 : u' = t
    · rw [e1, e2]
    · rw [if_pos e1] at hu; rw [if_neg e2] at hu'
      rcases he e hu with h1 | h1
      · rw [e1]; exact h.one t u' e h1 hu'
      · exact absurd hu' (h1 u')
    · rw [if_neg e1] at hu; rw [if_pos e2] at hu'
      rcases he e hu' with h1 | h1
      · rw [e2]; exact h.one u t e hu h1
      · exact absurd hu (h1 u)
    · rw [if_neg e1] at hu; rw [if_neg e2] at hu'
      exact h.one u u' e hu hu'

/-- Freeing a slot disturbs nobody. -/
theorem single_clear {s : St} (h : Single s) (c : Nat) : Single (s.setSlot c none) := by
  refine ⟨⟨h.ranged.ord, h.ranged.bound, h.ranged.fits⟩, ?_, h.one, h.flying⟩
  intro u
  have := h.pcs u
  show PcOk (s.setSlot c none) (s.pc u)
  cases hp : s.pc u with
  | put e x d =>
    rw [hp] at this
    refine ⟨this.1, ?_⟩
    show (if d = c then none else s.slots d) = none
    split
    · rfl
    · exact this.2
  | _ => rw [hp] at this; exact this

/-- Filling a slot disturbs nobody who works on another element. -/
theorem single_fill {s : St} (h : Single s) (t e x c : Nat) (hp : s.pc t = .put e x c) :
    Single ((s.setSlot c (some x)).setPc t (.call e x c)) := by
  have ho : Own s e c := by have := h.pcs t; rw [hp] at this; exact this.1
  refine ⟨⟨h.ranged.ord, h.ranged.bound, h.ranged.fits⟩, ?_, ?_, h.flying⟩
  · intro u
    by_cases eu : u = t
    · simp only [pc_setPc, eu, if_true]; exact ho
    · simp only [pc_setPc, eu, if_false, pc_setSlot]
      have := h.pcs u
      cases hq : s.pc u with
      | put e' x' d =>
        rw [hq] at this
        refine ⟨this.1, ?_⟩
        show (if d = c then some x else s.slots d) = none
        have : d ≠ c := by
          rintro rfl
          have e1 := own_unique h.ranged this.1 ho
          subst e1
          exact eu (h.one u t e' (by rw [hq]; rfl) (by rw [hp]; rfl))
        rw [if_neg this]
        have := h.pcs u; rw [hq] at this; exact this.2
      | _ => rw [hq] at this; exact this
  · exact (single_setPc h t (.call e x c) ho (fun e' h' => Or.inl (by rw [hp]; exact h'))).one

theorem single_op {s : St} (h : Single s) (o : Op)
    (ha : AloneAt s o) : Single (s.op o) := by
  have hr := ranged_op h.ranged o
  have hk := fun e r => @range_keep s o e r
  have hd := does_op s o
  generalize s.op o = s' at hd hr hk
  have none_el : ∀ (t : Nat) (p : Pc), element p = none → ∀ e, element p = some e → element (s.pc t) = some e ∨ Free s e := by
    intro t p h1 e h2; rw [h1] at h2; cases h2
  cases hd with
  | same => exact h
  | register n =>
    obtain ⟨f1, f2, f3, f4, f5⟩ := register_frame s n
    refine ⟨hr, ?_, ?_, ?_⟩
    · intro t
      have := h.pcs t
      rw [f2]
      have ow : ∀ e c, Own s e c → Own (s.register n) e c := by
        rintro e c ⟨a, m, r, hc⟩; exact ⟨a, m, hk _ _ r, hc⟩
      cases hp : s.pc t with
      | idle => trivial
      | pick e x i => rw [hp] at this; obtain ⟨a, m, r, hc⟩ := this; exact ⟨a, m, hk _ _ r, hc⟩
      | put e x c => rw [hp] at this; exact ⟨ow _ _ this.1, by rw [f1]; exact this.2⟩
      | call e x c => rw [hp] at this; exact ow _ _ this
      | undo e c => rw [hp] at this; exact ow _ _ this
      | stop e i => rw [hp] at this; obtain ⟨a, m, r, hc⟩ := this; exact ⟨a, m, hk _ _ r, hc⟩
      | check c => rw [hp] at this; show c < (s.register n).size; rw [f4]; exact this
      | clear c => rw [hp] at this; show c < (s.register n).size; rw [f4]; exact this
    · rw [f2]; exact h.one
    · rw [f3, f4]; exact h.flying
  | trace t e x a n hp hr' =>
    refine single_setPc h t _ ⟨a, n, hr', Nat.le_refl _, by omega⟩ ?_
    intro e' he'; cases he'; exact Or.inr ha
  | stop t e a n hp hr' =>
    refine single_setPc h t _ ⟨a, n, hr', Nat.le_refl _, by omega⟩ ?_
    intro e' he'; cases he'; exact Or.inr ha
  | finish t k c x hp hk' =>
    have hc := h.flying c x (List.mem_iff_getElem?.2 ⟨k, hk'⟩)
    have := single_setPc h t (.check c) hc (none_el t _ rfl)
    exact ⟨hr, this.pcs, this.one, fun d y hm => h.flying d y (List.mem_of_mem_eraseIdx hm)⟩
  | badPick t ok e x i hp hr' => exact ⟨hr, h.pcs, h.one, h.flying⟩
  | noSlot t ok e x i a n hp hr' hi =>
    have := single_setPc h t .idle trivial (none_el t _ rfl)
    exact ⟨hr, this.pcs, this.one, this.flying⟩
  | usedSlot t ok e x i a n hp hr' hi hs hu =>
    have hpt := h.pcs t
    rw [hp] at hpt
    obtain ⟨b, m, r, h1, h2⟩ := hpt
    rw [r] at hr'; cases hr'
    exact single_setPc h t _ ⟨a, n, r, by omega, by omega⟩ (fun e' he' => Or.inl (by rw [hp]; exact he'))
  | freeSlot t ok e x i a n hp hr' hi hs hu =>
    have hpt := h.pcs t
    rw [hp] at hpt
    obtain ⟨b, m, r, h1, h2⟩ := hpt
    rw [r] at hr'; cases hr'
    exact single_setPc h t _ ⟨⟨a, n, r, by omega, by omega⟩, hu⟩ (fun e' he' => Or.inl (by rw [hp]; exact he'))
  | badPut t ok e x c hp hu => exact ⟨hr, h.pcs, h.one, h.flying⟩
  | put t ok e x c hp hu => exact single_fill h t e x c hp
  | accepted t e x c hp =>
    have hpt := h.pcs t
    rw [hp] at hpt
    have := single_setPc h t .idle trivial (none_el t _ rfl)
    refine ⟨hr, this.pcs, this.one, ?_⟩
    intro d y hm
    rcases List.mem_append.1 hm with hm | hm
    · exact h.flying d y hm
    · simp at hm; rw [hm.1]; exact own_size h.ranged hpt
  | refused t e x c hp =>
    have hpt := h.pcs t
    rw [hp] at hpt
    exact single_setPc h t _ hpt (fun e' he' => Or.inl (by rw [hp]; exact he'))
  | undo t ok e c hp => exact single_setPc (single_clear h c) t .idle trivial (fun e h => by cases h)
  | badStop t ok e i hp hr' => exact ⟨hr, h.pcs, h.one, h.flying⟩
  | stopped t ok e i hp => exact single_setPc h t .idle trivial (none_el t _ rfl)
  | stopSlot t ok e i a n hp hr' hi hs =>
    have hpt := h.pcs t
    rw [hp] at hpt
    obtain ⟨b, m, r, h1, h2⟩ := hpt
    rw [r] at hr'; cases hr'
    exact single_setPc (single_clear h i) t _ ⟨a, n, r, by omega, by omega⟩
      (fun e' he' => Or.inl (by rw [pc_setSlot, hp]; exact he'))
  | badCheck t ok c hp hc => exact ⟨hr, h.pcs, h.one, h.flying⟩
  | checkUsed t ok c hp hc hu => exact single_setPc h t _ hc (none_el t _ rfl)
  | checkFree t ok c hp hc hu => exact single_setPc h t .idle trivial (none_el t _ rfl)
  | clear t ok c hp => exact single_setPc (single_clear h c) t .idle trivial (fun e h => by cases h)

theorem single_run (ops : List Op) : ∀ {s : St}, Single s → Alone s ops → Single (run s ops) := by
  induction ops with
  | nil => exact fun h _ => h
  | cons o ops ih => exact fun h ha => ih (single_op h o ha.1) ha.2

/-- The process is not ended. -/
theorem alive_op {s : St} (h : Single s) (o : Op) (hd : s.dead = false)
    (he : ∀ n, o = .register n → 0 < n ∧ s.next + n ≤ s.size) : (s.op o).dead = false := by
  have hdo := does_op s o
  generalize s.op o = s' at hdo
  have inside : ∀ (t e i : Nat), (∃ a n, s.ranges[e]? = some (a, n) ∧ a ≤ i ∧ i ≤ a + n) →
      (s.ranges[e]? = none ∨ ∃ a n, s.ranges[e]? = some (a, n) ∧ i ≠ a + n ∧ s.size ≤ i) → False := by
    rintro t e i ⟨a, n, r, h1, h2⟩ h3
    rcases h3 with h3 | ⟨b, m, r', h4, h5⟩
    · rw [r] at h3; cases h3
    · rw [r] at r'; cases r'
      have := h.ranged.bound _ _ _ r
      have := h.ranged.fits
      omega
  cases hdo with
  | register n =>
    rcases register_ranges s n with ⟨e, h1⟩ | ⟨e, _⟩
    · have := he n rfl; omega
    · rw [e]; exact hd
  | badPick t ok e x i hp hr =>
    have := h.pcs t; rw [hp] at this
    exact (inside t e i this hr).elim
  | badStop t ok e i hp hr =>
    have := h.pcs t; rw [hp] at this
    exact (inside t e i this hr).elim
  | badPut t ok e x c hp hu =>
    have := h.pcs t; rw [hp] at this
    rw [this.2] at hu; cases hu
  | badCheck t ok c hp hc =>
    have hpt : PcOk s (s.pc t) := h.pcs t
    rw [hp] at hpt
    have : c < s.size := hpt
    omega
  | _ => exact hd

theorem next_op {s : St} (o : Op) (hd : s.dead = false) (he : ∀ n, o = .register n → 0 < n ∧ s.next + n ≤ s.size) :
    (s.op o).size = s.size ∧ (s.op o).next + (asked []).sum = s.next + (asked [o]).sum := by
  have hdo := does_op s o
  cases o with
  | register n =>
    have e : s.op (.register n) = s.register n := by unfold St.op; rw [hd]; rfl
    rw [e]
    have := he n rfl
    rcases register_ranges s n with ⟨_, h1⟩ | ⟨e, _⟩
    · omega
    · rw [e]; simp [asked]
  | _ =>
    generalize hs' : s.op _ = s' at hdo
    cases hdo <;> simp [asked]

theorem asked_cons (o : Op) (ops : List Op) : asked (o :: ops) = asked [o] ++ asked ops := by
  cases o <;> simp [asked]

theorem alive_run (ops : List Op) : ∀ {s : St}, Single s → s.dead = false → Alone s ops → (∀ n ∈ asked ops, 0 < n) →
    s.next + (asked ops).sum ≤ s.size → (run s ops).dead = false := by
  induction ops with
  | nil => exact fun _ h _ _ _ => h
  | cons o ops ih =>
    intro s h hd ha hn hs
    rw [asked_cons] at hn hs
    have he : ∀ n, o = .register n → 0 < n ∧ s.next + n ≤ s.size := by
      rintro n rfl
      simp only [asked, List.singleton_append, List.sum_cons] at hs
      exact ⟨hn n (by simp [asked]), by omega⟩
    obtain ⟨h1, h2⟩ := next_op o hd he
    simp only [asked, List.sum_nil, Nat.add_zero, List.sum_append] at h2 hs
    exact ih (single_op h o ha.1) (alive_op h o hd he) ha.2 (fun n hm => hn n (by simp [hm])) (by omega)

/-! ## Samples are kept -/

/-- The slot that a thread or its trace uses. -/
def hold : Pc → Option Nat
  | .call _ _ c => some c
  | .undo _ c => some c
  | .check c => some c
  | .clear c => some c
  | _ => none

structure Kept (s : St) : Prop where
  kept : ∀ c x, (c, x) ∈ s.flight → s.slots c = some x
  nodup : (s.flight.map (·.1)).Nodup
  call : ∀ t e x c, s.pc t = .call e x c → s.slots c = some x
  used : ∀ t c, hold (s.pc t) = some c → s.slots c ≠ none ∧ ∀ x, (c, x) ∉ s.flight
  apart : ∀ t t' c, hold (s.pc t) = some c → hold (s.pc t') = some c → t = t'
  quiet : ∀ t e i c, s.pc t = .stop e i → Own s e c → (∀ x, (c, x) ∉ s.flight) ∧ ∀ u, hold (s.pc u) ≠ some c

theorem kept_start (n : Nat) : Kept (start n) :=
  ⟨fun c x h => (by cases h), List.nodup_nil, fun t e x c h => (by cases h), fun t c h => (by cases h),
    fun t t' c h => (by cases h), fun t e i c h => (by cases h)⟩

/-- Only the position of `t` changes, and it holds nothing new. -/
theorem kept_setPc {s : St} (h : Kept s) (t : Nat) (p : Pc) (hh : ∀ c, hold p = some c → hold (s.pc t) = some c)
    (hcall : ∀ e x c, p = .call e x c → s.slots c = some x)
    (hq : ∀ e i c, p = .stop e i → Own s e c → (∀ x, (c, x) ∉ s.flight) ∧ ∀ u, hold (s.pc u) ≠ some c) :
    Kept (s.setPc t p) := by
  have pull : ∀ u c, hold ((s.setPc t p).pc u) = some c → hold (s.pc u) = some c := by
    intro u c hu
    by_cases e : u = t
    · simp only [pc_setPc, e, if_true] at hu; rw [e]; exact hh c hu
    · simpa only [pc_setPc, e, if_false] using hu
  refine ⟨h.kept, h.nodup, ?_, ?_, ?_, ?_⟩
  · intro u e x c hu
    by_cases eu : u = t
    · simp only [pc_setPc, eu, if_true] at hu; exact hcall e x c hu
    · simp only [pc_setPc, eu, if_false] at hu; exact h.call u e x c hu
  · intro u c hu; exact h.used u c (pull u c hu)
  · intro u u' c hu hu'; exact h.apart u u' c (pull u c hu) (pull u' c hu')
  · intro u e i c hu ho
    have : (∀ x, (c, x) ∉ s.flight) ∧ ∀ u, hold (s.pc u) ≠ some c := by
      by_cases eu : u = t
      · simp only [pc_setPc, eu, if_true] at hu; exact hq e i c hu ho
      · simp only [pc_setPc, eu, if_false] at hu; exact h.quiet u e i c hu ho
    exact ⟨this.1, fun v hv => this.2 v (pull v c hv)⟩

theorem hold_own {s : St} (hs : Single s) {t c : Nat} (h : hold (s.pc t) = some c) (e e' : Nat) (he : element (s.pc t) = some e)
    (ho : Own s e' c) : e = e' := by
  have hp := hs.pcs t
  cases hq : s.pc t with
  | idle => rw [hq] at h; cases h
  | pick _ _ _ => rw [hq] at h; cases h
  | put _ _ _ => rw [hq] at h; cases h
  | call e1 x c1 =>
    rw [hq] at h hp he; cases h; cases he; exact own_unique hs.ranged hp ho
  | undo e1 c1 =>
    rw [hq] at h hp he; cases h; cases he; exact own_unique hs.ranged hp ho
  | stop _ _ => rw [hq] at h; cases h
  | check _ => rw [hq] at he; cases he
  | clear _ => rw [hq] at he; cases he

/-- The holder `t` of slot `c` releases it. -/
theorem kept_release {s : St} (h : Kept s) (t c : Nat) (hc : hold (s.pc t) = some c) :
    Kept ((s.setSlot c none).setPc t .idle) := by
  have hu := h.used t c hc
  have pull : ∀ u d, hold (((s.setSlot c none).setPc t .idle).pc u) = some d → hold (s.pc u) = some d ∧ u ≠ t := by
    intro u d hu
    by_cases e : u = t
    · simp only [pc_setPc, e, if_true] at hu; cases hu
    · simp only [pc_setPc, e, if_false, pc_setSlot] at hu; exact ⟨hu, e⟩
  have ne : ∀ u d, u ≠ t → hold (s.pc u) = some d → d ≠ c := by
    intro u d e hd e'; subst e'; exact e (h.apart u t d hd hc)
  refine ⟨?_, h.nodup, ?_, ?_, ?_, ?_⟩
  · intro d x hm
    show (if d = c then none else s.slots d) = some x
    have : d ≠ c := by rintro rfl; exact hu.2 x hm
    rw [if_neg this]; exact h.kept d x hm
  · intro u e x d hp
    have hp' : s.pc u = .call e x d ∧ u ≠ t := by
      by_cases eu : u = t
      · simp only [pc_setPc, eu, if_true] at hp; cases hp
      · simp only [pc_setPc, eu, if_false, pc_setSlot] at hp; exact ⟨hp, eu⟩
    show (if d = c then none else s.slots d) = some x
    rw [if_neg (ne u d hp'.2 (by rw [hp'.1]; rfl))]
    exact h.call u e x d hp'.1
  · intro u d hd
    obtain ⟨h1, h2⟩ := pull u d hd
    refine ⟨?_, (h.used u d h1).2⟩
    show (if d = c then none else s.slots d) ≠ none
    rw [if_neg (ne u d h2 h1)]
    exact (h.used u d h1).1
  · intro u u' d h1 h2; exact h.apart u u' d (pull u d h1).1 (pull u' d h2).1
  · intro u e i d hp ho
    have hp' : s.pc u = .stop e i := by
      by_cases eu : u = t
      · simp only [pc_setPc, eu, if_true] at hp; cases hp
      · simpa only [pc_setPc, eu, if_false, pc_setSlot] using hp
    have := h.quiet u e i d hp' ho
    exact ⟨this.1, fun v hv => this.2 v (pull v d hv).1⟩

theorem kept_op {s : St} (hs : Single s) (h : Kept s) (o : Op)
    (ha : AloneAt s o) (hset : SettledAt s o) : Kept (s.op o) := by
  have hb := fun e c r hr => @own_back s o e c r hr
  have hd := does_op s o
  generalize s.op o = s' at hd hb
  cases hd with
  | same => exact h
  | register n =>
    obtain ⟨f1, f2, f3, f4, f5⟩ := register_frame s n
    refine ⟨?_, ?_, ?_, ?_, ?_, ?_⟩
    · rw [f1, f3]; exact h.kept
    · rw [f3]; exact h.nodup
    · rw [f1, f2]; exact h.call
    · rw [f1, f2, f3]; exact h.used
    · rw [f2]; exact h.apart
    · rw [f2, f3]
      intro t e i c hp ho
      have := hs.pcs t
      rw [hp] at this
      obtain ⟨a, m, r, _⟩ := this
      exact h.quiet t e i c hp (hb e c _ r ho)
  | trace t e x a n hp hr =>
    exact kept_setPc h t _ (fun c hc => by cases hc) (fun _ _ _ hc => by cases hc) (fun _ _ _ hc => by cases hc)
  | stop t e a n hp hr =>
    refine kept_setPc h t _ (fun c hc => by cases hc) (fun _ _ _ hc => by cases hc) ?_
    intro e' i c hc ho
    cases hc
    refine ⟨fun x hm => hset.1 c x hm ho, ?_⟩
    intro u hu
    cases hq : s.pc u with
    | call e1 x c1 =>
      have : element (s.pc u) = some e1 := by rw [hq]; rfl
      have := hold_own hs hu e1 e this ho
      subst this
      exact ha u (by rw [hq]; rfl)
    | undo e1 c1 =>
      have : element (s.pc u) = some e1 := by rw [hq]; rfl
      have := hold_own hs hu e1 e this ho
      subst this
      exact ha u (by rw [hq]; rfl)
    | check c1 =>
      rw [hq] at hu; cases hu
      exact hset.2 u c (Or.inl hq) ho
    | clear c1 =>
      rw [hq] at hu; cases hu
      exact hset.2 u c (Or.inr hq) ho
    | _ => rw [hq] at hu; cases hu
  | finish t k c x hp hk =>
    have hm : (c, x) ∈ s.flight := List.mem_iff_getElem?.2 ⟨k, hk⟩
    have gone : ∀ y, (c, y) ∉ s.flight.eraseIdx k := by
      intro y hy
      obtain ⟨j, hj, hje⟩ := List.mem_eraseIdx_iff_getElem?.1 hy
      have key : ∀ i l : Nat, i < l → ∀ y z, s.flight[i]? = some (c, y) → s.flight[l]? = some (c, z) → False := by
        intro i l hil y z hi hl
        obtain ⟨i1, i2⟩ := List.getElem?_eq_some_iff.1 hi
        obtain ⟨l1, l2⟩ := List.getElem?_eq_some_iff.1 hl
        have := List.pairwise_iff_getElem.1 h.nodup i l (by simpa using i1) (by simpa using l1) hil
        simp [i2, l2] at this
      rcases Nat.lt_or_gt_of_ne hj with hlt | hgt
      · exact key j k hlt y x hje hk
      · exact key k j hgt x y hk hje
    have pull : ∀ u d, hold ((s.setPc t (.check c)).pc u) = some d → (u = t ∧ d = c) ∨ (u ≠ t ∧ hold (s.pc u) = some d) := by
      intro u d hu
      by_cases e : u = t
      · simp only [pc_setPc, e, if_true, hold] at hu; left; exact ⟨e, (Option.some.inj hu).symm⟩
      · right; exact ⟨e, by simpa only [pc_setPc, e, if_false] using hu⟩
    refine ⟨?_, ?_, ?_, ?_, ?_, ?_⟩
    · intro d y hd; exact h.kept d y (List.mem_of_mem_eraseIdx hd)
    · show ((s.flight.eraseIdx k).map (·.1)).Nodup
      exact List.Nodup.sublist ((List.eraseIdx_sublist _ _).map _) h.nodup
    · intro u e y d hu
      by_cases eu : u = t
      · simp only [pc_setPc, eu, if_true] at hu; cases hu
      · simp only [pc_setPc, eu, if_false] at hu; exact h.call u e y d hu
    · intro u d hu
      rcases pull u d hu with ⟨_, rfl⟩ | ⟨_, h2⟩
      · exact ⟨by rw [show ({ s.setPc t (.check d) with flight := s.flight.eraseIdx k } : St).slots = s.slots from rfl,
            h.kept d x hm]; simp, gone⟩
      · exact ⟨(h.used u d h2).1, fun y hy => (h.used u d h2).2 y (List.mem_of_mem_eraseIdx hy)⟩
    · intro u u' d h1 h2
      rcases pull u d h1 with ⟨e1, e2⟩ | ⟨e1, e2⟩ <;> rcases pull u' d h2 with ⟨e3, e4⟩ | ⟨e3, e4⟩
      · rw [e1, e3]
      · exact absurd hm (by rw [← e2]; exact (h.used u' d e4).2 x)
      · exact absurd hm (by rw [← e4]; exact (h.used u d e2).2 x)
      · exact h.apart u u' d e2 e4
    · intro u e i d hu ho
      have hu' : s.pc u = .stop e i := by
        by_cases eu : u = t
        · simp only [pc_setPc, eu, if_true] at hu; cases hu
        · simpa only [pc_setPc, eu, if_false] using hu
      have := h.quiet u e i d hu' ho
      refine ⟨fun y hy => this.1 y (List.mem_of_mem_eraseIdx hy), ?_⟩
      intro v hv
      rcases pull v d hv with ⟨_, rfl⟩ | ⟨_, h2⟩
      · exact this.1 x hm
      · exact this.2 v h2
  | badPick t ok e x i hp hr => exact ⟨h.kept, h.nodup, h.call, h.used, h.apart, h.quiet⟩
  | noSlot t ok e x i a n hp hr hi =>
    have := kept_setPc h t .idle (fun c hc => by cases hc) (fun _ _ _ hc => by cases hc) (fun _ _ _ hc => by cases hc)
    exact ⟨this.kept, this.nodup, this.call, this.used, this.apart, this.quiet⟩
  | usedSlot t ok e x i a n hp hr hi hs' hu =>
    exact kept_setPc h t _ (fun c hc => by cases hc) (fun _ _ _ hc => by cases hc) (fun _ _ _ hc => by cases hc)
  | freeSlot t ok e x i a n hp hr hi hs' hu =>
    exact kept_setPc h t _ (fun c hc => by cases hc) (fun _ _ _ hc => by cases hc) (fun _ _ _ hc => by cases hc)
  | badPut t ok e x c hp hu => exact ⟨h.kept, h.nodup, h.call, h.used, h.apart, h.quiet⟩
  | put t ok e x c hp hu =>
    have ho : Own s e c := by have := hs.pcs t; rw [hp] at this; exact this.1
    have pull : ∀ u d, hold (((s.setSlot c (some x)).setPc t (.call e x c)).pc u) = some d →
        (u = t ∧ d = c) ∨ (u ≠ t ∧ hold (s.pc u) = some d) := by
      intro u d hu
      by_cases e' : u = t
      · simp only [pc_setPc, e', if_true, hold] at hu; left; exact ⟨e', (Option.some.inj hu).symm⟩
      · right; exact ⟨e', by simpa only [pc_setPc, e', if_false, pc_setSlot] using hu⟩
    have slot : ∀ d y, s.slots d = some y → ((s.setSlot c (some x)).setPc t (.call e x c)).slots d = some y := by
      intro d y hy
      show (if d = c then some x else s.slots d) = some y
      have : d ≠ c := by rintro rfl; rw [hu] at hy; cases hy
      rw [if_neg this]; exact hy
    have nofly : ∀ y, (c, y) ∉ s.flight := fun y hy => by
      have := h.kept c y hy; rw [hu] at this; cases this
    refine ⟨fun d y hd => slot d y (h.kept d y hd), h.nodup, ?_, ?_, ?_, ?_⟩
    · intro u e' y d hq
      by_cases eu : u = t
      · simp only [pc_setPc, eu, if_true] at hq
        cases hq
        show (if c = c then some x else s.slots c) = some x
        rw [if_pos rfl]
      · simp only [pc_setPc, eu, if_false, pc_setSlot] at hq
        exact slot d y (h.call u e' y d hq)
    · intro u d hd
      rcases pull u d hd with ⟨_, rfl⟩ | ⟨_, h2⟩
      · refine ⟨?_, nofly⟩
        show (if d = d then some x else s.slots d) ≠ none
        rw [if_pos rfl]; simp
      · obtain ⟨h3, h4⟩ := h.used u d h2
        refine ⟨?_, h4⟩
        cases hy : s.slots d with
        | none => exact absurd hy h3
        | some y => rw [slot d y hy]; simp
    · intro u u' d h1 h2
      rcases pull u d h1 with ⟨e1, e2⟩ | ⟨e1, e2⟩ <;> rcases pull u' d h2 with ⟨e3, e4⟩ | ⟨e3, e4⟩
      · rw [e1, e3]
      · exact absurd hu (by rw [← e2]; exact (h.used u' d e4).1)
      · exact absurd hu (by rw [← e4]; exact (h.used u d e2).1)
      · exact h.apart u u' d e2 e4
    · intro u e' i d hq hod
      have hq' : s.pc u = .stop e' i ∧ u ≠ t := by
        by_cases eu : u = t
        · simp only [pc_setPc, eu, if_true] at hq; cases hq
        · simp only [pc_setPc, eu, if_false, pc_setSlot] at hq; exact ⟨hq, eu⟩
      have := h.quiet u e' i d hq'.1 hod
      refine ⟨this.1, ?_⟩
      intro v hv
      rcases pull v d hv with ⟨_, rfl⟩ | ⟨_, h2⟩
      · have := own_unique hs.ranged hod ho
        subst this
        exact hq'.2 (hs.one u t e' (by rw [hq'.1]; rfl) (by rw [hp]; rfl))
      · exact this.2 v h2
  | accepted t e x c hp =>
    have hc : hold (s.pc t) = some c := by rw [hp]; rfl
    have hx := h.call t e x c hp
    have hu := h.used t c hc
    have ho : Own s e c := by have := hs.pcs t; rw [hp] at this; exact this
    have pull : ∀ u d, hold ((s.setPc t .idle).pc u) = some d → hold (s.pc u) = some d ∧ u ≠ t := by
      intro u d hu
      by_cases e : u = t
      · simp only [pc_setPc, e, if_true] at hu; cases hu
      · simp only [pc_setPc, e, if_false] at hu; exact ⟨hu, e⟩
    refine ⟨?_, ?_, ?_, ?_, ?_, ?_⟩
    · intro d y hd
      rcases List.mem_append.1 hd with hd | hd
      · exact h.kept d y hd
      · simp at hd; rw [hd.1, hd.2]; exact hx
    · show ((s.flight ++ [(c, x)]).map (·.1)).Nodup
      rw [List.map_append, List.nodup_append]
      refine ⟨h.nodup, by simp, ?_⟩
      intro a ha b hb
      simp at hb
      subst hb
      rintro rfl
      obtain ⟨p, hp1, hp2⟩ := List.mem_map.1 ha
      obtain ⟨p1, p2⟩ := p
      cases hp2
      exact hu.2 p2 hp1
    · intro u e' y d hq
      by_cases eu : u = t
      · simp only [pc_setPc, eu, if_true] at hq; cases hq
      · simp only [pc_setPc, eu, if_false] at hq; exact h.call u e' y d hq
    · intro u d hd
      obtain ⟨h1, h2⟩ := pull u d hd
      refine ⟨(h.used u d h1).1, ?_⟩
      intro y hy
      rcases List.mem_append.1 hy with hy | hy
      · exact (h.used u d h1).2 y hy
      · simp at hy
        rw [hy.1] at h1
        exact h2 (h.apart u t c h1 hc)
    · intro u u' d h1 h2; exact h.apart u u' d (pull u d h1).1 (pull u' d h2).1
    · intro u e' i d hq hod
      have hq' : s.pc u = .stop e' i ∧ u ≠ t := by
        by_cases eu : u = t
        · simp only [pc_setPc, eu, if_true] at hq; cases hq
        · simp only [pc_setPc, eu, if_false] at hq; exact ⟨hq, eu⟩
      have := h.quiet u e' i d hq'.1 hod
      refine ⟨?_, fun v hv => this.2 v (pull v d hv).1⟩
      intro y hy
      rcases List.mem_append.1 hy with hy | hy
      · exact this.1 y hy
      · simp at hy
        exact this.2 t (by rw [hc, hy.1])
  | refused t e x c hp =>
    exact kept_setPc h t _ (fun d hd => by rw [hp]; exact hd) (fun _ _ _ hc => by cases hc) (fun _ _ _ hc => by cases hc)
  | undo t ok e c hp => exact kept_release h t c (by rw [hp]; rfl)
  | badStop t ok e i hp hr => exact ⟨h.kept, h.nodup, h.call, h.used, h.apart, h.quiet⟩
  | stopped t ok e i hp =>
    exact kept_setPc h t _ (fun c hc => by cases hc) (fun _ _ _ hc => by cases hc) (fun _ _ _ hc => by cases hc)
  | stopSlot t ok e i a n hp hr hi hs' =>
    have hpt := hs.pcs t
    rw [hp] at hpt
    obtain ⟨b, m, r, h1, h2⟩ := hpt
    rw [r] at hr; cases hr
    have ho : Own s e i := ⟨a, n, r, h1, by omega⟩
    have hq := h.quiet t e i i hp ho
    have mid : Kept (s.setSlot i none) := by
      refine ⟨?_, h.nodup, ?_, ?_, h.apart, h.quiet⟩
      · intro d y hd
        show (if d = i then none else s.slots d) = some y
        have : d ≠ i := by rintro rfl; exact hq.1 y hd
        rw [if_neg this]; exact h.kept d y hd
      · intro u e' y d hu
        have hu' : s.pc u = .call e' y d := hu
        show (if d = i then none else s.slots d) = some y
        have : d ≠ i := by rintro rfl; exact hq.2 u (by rw [hu']; rfl)
        rw [if_neg this]; exact h.call u e' y d hu'
      · intro u d hu
        have hu' : hold (s.pc u) = some d := hu
        refine ⟨?_, (h.used u d hu').2⟩
        show (if d = i then none else s.slots d) ≠ none
        have : d ≠ i := by rintro rfl; exact hq.2 u hu'
        rw [if_neg this]; exact (h.used u d hu').1
    refine kept_setPc mid t _ (fun c hc => by cases hc) (fun _ _ _ hc => by cases hc) ?_
    intro e' i' c hc hoc
    cases hc
    exact h.quiet t e i c hp hoc
  | badCheck t ok c hp hc => exact ⟨h.kept, h.nodup, h.call, h.used, h.apart, h.quiet⟩
  | checkUsed t ok c hp hc hu =>
    exact kept_setPc h t _ (fun d hd => by rw [hp]; exact hd) (fun _ _ _ hc => by cases hc) (fun _ _ _ hc => by cases hc)
  | checkFree t ok c hp hc hu =>
    exact kept_setPc h t _ (fun d hd => by cases hd) (fun _ _ _ hc => by cases hc) (fun _ _ _ hc => by cases hc)
  | clear t ok c hp => exact kept_release h t c (by rw [hp]; rfl)

theorem kept_run (ops : List Op) : ∀ {s : St}, Single s → Kept s → Alone s ops → Settled s ops → Kept (run s ops) := by
  induction ops with
  | nil => exact fun _ h _ _ => h
  | cons o ops ih => exact fun hs h ha hset => ih (single_op hs o ha.1) (kept_op hs h o ha.1 hset.1) ha.2 hset.2

end Verif.TraceSlots
