import Verif.Spec.TraceSlots

/-! Invariants of the slots for traced samples. -/
namespace Verif.TraceSlots
open Verif.TraceSlotsSpec

@[simp] theorem pc_setPc (s : St) (t : Nat) (p : Pc) (u : Nat) : (s.setPc t p).pc u = if u = t then p else s.pc u := rfl
@[simp] theorem slots_setPc (s : St) (t : Nat) (p : Pc) : (s.setPc t p).slots = s.slots := rfl
@[simp] theorem flight_setPc (s : St) (t : Nat) (p : Pc) : (s.setPc t p).flight = s.flight := rfl
@[simp] theorem ranges_setPc (s : St) (t : Nat) (p : Pc) : (s.setPc t p).ranges = s.ranges := rfl
@[simp] theorem size_setPc (s : St) (t : Nat) (p : Pc) : (s.setPc t p).size = s.size := rfl
@[simp] theorem next_setPc (s : St) (t : Nat) (p : Pc) : (s.setPc t p).next = s.next := rfl
@[simp] theorem dead_setPc (s : St) (t : Nat) (p : Pc) : (s.setPc t p).dead = s.dead := rfl
@[simp] theorem lost_setPc (s : St) (t : Nat) (p : Pc) : (s.setPc t p).lost = s.lost := rfl
@[simp] theorem pc_setSlot (s : St) (c : Nat) (v : Option Nat) : (s.setSlot c v).pc = s.pc := rfl
@[simp] theorem slots_setSlot (s : St) (c : Nat) (v : Option Nat) (d : Nat) :
    (s.setSlot c v).slots d = if d = c then v else s.slots d := rfl
@[simp] theorem flight_setSlot (s : St) (c : Nat) (v : Option Nat) : (s.setSlot c v).flight = s.flight := rfl
@[simp] theorem ranges_setSlot (s : St) (c : Nat) (v : Option Nat) : (s.setSlot c v).ranges = s.ranges := rfl
@[simp] theorem size_setSlot (s : St) (c : Nat) (v : Option Nat) : (s.setSlot c v).size = s.size := rfl
@[simp] theorem next_setSlot (s : St) (c : Nat) (v : Option Nat) : (s.setSlot c v).next = s.next := rfl
@[simp] theorem dead_setSlot (s : St) (c : Nat) (v : Option Nat) : (s.setSlot c v).dead = s.dead := rfl
@[simp] theorem lost_setSlot (s : St) (c : Nat) (v : Option Nat) : (s.setSlot c v).lost = s.lost := rfl

/-- What an operation does, case by case. -/
inductive Does (s : St) : Op → St → Prop
  | same (o : Op) : Does s o s
  | register (n : Nat) : Does s (.register n) (s.register n)
  | trace (t e x a n : Nat) (hp : s.pc t = .idle) (hr : s.ranges[e]? = some (a, n)) :
      Does s (.trace t e x) (s.setPc t (.pick e x a))
  | stop (t e a n : Nat) (hp : s.pc t = .idle) (hr : s.ranges[e]? = some (a, n)) :
      Does s (.stop t e) (s.setPc t (.stop e a))
  | finish (t k c x : Nat) (hp : s.pc t = .idle) (hk : s.flight[k]? = some (c, x)) :
      Does s (.finish t k) { s.setPc t (.check c) with flight := s.flight.eraseIdx k }
  | badPick (t : Nat) (ok : Bool) (e x i : Nat) (hp : s.pc t = .pick e x i)
      (hr : s.ranges[e]? = none ∨ ∃ a n, s.ranges[e]? = some (a, n) ∧ i ≠ a + n ∧ s.size ≤ i) :
      Does s (.next t ok) { s with dead := true }
  | noSlot (t : Nat) (ok : Bool) (e x i a n : Nat) (hp : s.pc t = .pick e x i) (hr : s.ranges[e]? = some (a, n))
      (hi : i = a + n) : Does s (.next t ok) { s.setPc t .idle with lost := s.lost ++ [(t, x)] }
  | usedSlot (t : Nat) (ok : Bool) (e x i a n : Nat) (hp : s.pc t = .pick e x i) (hr : s.ranges[e]? = some (a, n))
      (hi : i ≠ a + n) (hs : i < s.size) (hu : (s.slots i).isSome = true) :
      Does s (.next t ok) (s.setPc t (.pick e x (i + 1)))
  | freeSlot (t : Nat) (ok : Bool) (e x i a n : Nat) (hp : s.pc t = .pick e x i) (hr : s.ranges[e]? = some (a, n))
      (hi : i ≠ a + n) (hs : i < s.size) (hu : s.slots i = none) :
      Does s (.next t ok) (s.setPc t (.put e x i))
  | badPut (t : Nat) (ok : Bool) (e x c : Nat) (hp : s.pc t = .put e x c) (hu : (s.slots c).isSome = true) :
      Does s (.next t ok) { s with dead := true }
  | put (t : Nat) (ok : Bool) (e x c : Nat) (hp : s.pc t = .put e x c) (hu : s.slots c = none) :
      Does s (.next t ok) ((s.setSlot c (some x)).setPc t (.call e x c))
  | accepted (t e x c : Nat) (hp : s.pc t = .call e x c) :
      Does s (.next t true) { s.setPc t .idle with flight := s.flight ++ [(c, x)] }
  | refused (t e x c : Nat) (hp : s.pc t = .call e x c) : Does s (.next t false) (s.setPc t (.undo e c))
  | undo (t : Nat) (ok : Bool) (e c : Nat) (hp : s.pc t = .undo e c) :
      Does s (.next t ok) ((s.setSlot c none).setPc t .idle)
  | badStop (t : Nat) (ok : Bool) (e i : Nat) (hp : s.pc t = .stop e i)
      (hr : s.ranges[e]? = none ∨ ∃ a n, s.ranges[e]? = some (a, n) ∧ i ≠ a + n ∧ s.size ≤ i) :
      Does s (.next t ok) { s with dead := true }
  | stopped (t : Nat) (ok : Bool) (e i : Nat) (hp : s.pc t = .stop e i) : Does s (.next t ok) (s.setPc t .idle)
  | stopSlot (t : Nat) (ok : Bool) (e i a n : Nat) (hp : s.pc t = .stop e i) (hr : s.ranges[e]? = some (a, n))
      (hi : i ≠ a + n) (hs : i < s.size) : Does s (.next t ok) ((s.setSlot i none).setPc t (.stop e (i + 1)))
  | badCheck (t : Nat) (ok : Bool) (c : Nat) (hp : s.pc t = .check c) (hc : s.size ≤ c) :
      Does s (.next t ok) { s with dead := true }
  | checkUsed (t : Nat) (ok : Bool) (c : Nat) (hp : s.pc t = .check c) (hc : c < s.size)
      (hu : (s.slots c).isSome = true) : Does s (.next t ok) (s.setPc t (.clear c))
  | checkFree (t : Nat) (ok : Bool) (c : Nat) (hp : s.pc t = .check c) (hc : c < s.size)
      (hu : s.slots c = none) : Does s (.next t ok) (s.setPc t .idle)
  | clear (t : Nat) (ok : Bool) (c : Nat) (hp : s.pc t = .clear c) :
      Does s (.next t ok) ((s.setSlot c none).setPc t .idle)

theorem does_step (s : St) (t : Nat) (ok : Bool) : Does s (.next t ok) (s.step t ok) := by
  unfold St.step
  cases hp : s.pc t with
  | idle => exact .same _
  | pick e x i =>
    dsimp only
    cases hr : s.ranges[e]? with
    | none => exact .badPick t ok e x i hp (Or.inl hr)
    | some r =>
      obtain ⟨a, n⟩ := r
      dsimp only
      by_cases hi : i = a + n
      · rw [if_pos hi]; exact .noSlot t ok e x i a n hp hr hi
      · rw [if_neg hi]
        by_cases hs : s.size ≤ i
        · rw [if_pos hs]; exact .badPick t ok e x i hp (Or.inr ⟨a, n, hr, hi, hs⟩)
        · rw [if_neg hs]
          by_cases hu : (s.slots i).isSome = true
          · rw [if_pos hu]; exact .usedSlot t ok e x i a n hp hr hi (by omega) hu
          · rw [if_neg hu]
            exact .freeSlot t ok e x i a n hp hr hi (by omega) (by simpa using hu)
  | put e x c =>
    dsimp only
    by_cases hu : (s.slots c).isSome = true
    · rw [if_pos hu]; exact .badPut t ok e x c hp hu
    · rw [if_neg hu]; exact .put t ok e x c hp (by simpa using hu)
  | call e x c =>
    dsimp only
    cases ok with
    | true => exact .accepted t e x c hp
    | false => exact .refused t e x c hp
  | undo e c => exact .undo t ok e c hp
  | stop e i =>
    dsimp only
    cases hr : s.ranges[e]? with
    | none => exact .badStop t ok e i hp (Or.inl hr)
    | some r =>
      obtain ⟨a, n⟩ := r
      dsimp only
      by_cases hi : i = a + n
      · rw [if_pos hi]; exact .stopped t ok e i hp
      · rw [if_neg hi]
        by_cases hs : s.size ≤ i
        · rw [if_pos hs]; exact .badStop t ok e i hp (Or.inr ⟨a, n, hr, hi, hs⟩)
        · rw [if_neg hs]; exact .stopSlot t ok e i a n hp hr hi (by omega)
  | check c =>
    dsimp only
    by_cases hs : s.size ≤ c
    · rw [if_pos hs]; exact .badCheck t ok c hp hs
    · rw [if_neg hs]
      by_cases hu : (s.slots c).isSome = true
      · rw [if_pos hu]; exact .checkUsed t ok c hp (by omega) hu
      · rw [if_neg hu]; exact .checkFree t ok c hp (by omega) (by simpa using hu)
  | clear c => exact .clear t ok c hp

theorem does_op (s : St) (o : Op) : Does s o (s.op o) := by
  unfold St.op
  by_cases hd : s.dead = true
  · rw [if_pos hd]; exact .same _
  · rw [if_neg hd]
    cases o with
    | register n => exact .register n
    | trace t e x =>
      unfold St.next'
      dsimp only
      split
      · rename_i hp hr; exact .trace t e x _ _ hp hr
      · exact .same _
    | stop t e =>
      unfold St.next'
      dsimp only
      split
      · rename_i hp hr; exact .stop t e _ _ hp hr
      · exact .same _
    | finish t k =>
      unfold St.next'
      dsimp only
      split
      · rename_i hp hr; exact .finish t k _ _ hp hr
      · exact .same _
    | next t ok => exact does_step s t ok

/-! ## No leak -/

/-- A thread that will release slot `c`, which holds `x`. -/
def Cov : Pc → Nat → Nat → Prop
  | .call _ x' c', c, x => c' = c ∧ x' = x
  | .undo _ c', c, _ => c' = c
  | .check c', c, _ => c' = c
  | .clear c', c, _ => c' = c
  | _, _, _ => False

def Cover (s : St) : Prop := ∀ c x, s.slots c = some x → (c, x) ∈ s.flight ∨ ∃ t, Cov (s.pc t) c x

theorem register_frame (s : St) (n : Nat) : (s.register n).slots = s.slots ∧ (s.register n).pc = s.pc ∧
    (s.register n).flight = s.flight ∧ (s.register n).size = s.size ∧ (s.register n).lost = s.lost := by
  unfold St.register
  split
  · exact ⟨rfl, rfl, rfl, rfl, rfl⟩
  · split <;> exact ⟨rfl, rfl, rfl, rfl, rfl⟩

/-- Thread `t` gets `p`; slots and traces are those of `s` except where covered anew. -/
theorem cover_setPc {s : St} (h : Cover s) (t : Nat) (p : Pc)
    (ht : ∀ c x, s.slots c = some x → Cov (s.pc t) c x → Cov p c x ∨ (c, x) ∈ s.flight) : Cover (s.setPc t p) := by
  intro c x hx
  rcases h c x hx with hf | ⟨u, hu⟩
  · exact Or.inl hf
  · by_cases e : u = t
    · subst e
      rcases ht c x hx hu with h1 | h1
      · exact Or.inr ⟨u, by simpa using h1⟩
      · exact Or.inl h1
    · exact Or.inr ⟨u, by simpa [e] using hu⟩

theorem cover_clear {s : St} (h : Cover s) (t c : Nat) (p : Pc)
    (ht : ∀ d x, Cov (s.pc t) d x → d = c) : Cover ((s.setSlot c none).setPc t p) := by
  intro d x hx
  simp only [slots_setPc, slots_setSlot] at hx
  by_cases e : d = c
  · simp [e] at hx
  · rw [if_neg e] at hx
    rcases h d x hx with hf | ⟨u, hu⟩
    · exact Or.inl hf
    · by_cases e' : u = t
      · subst e'; exact absurd (ht d x hu) e
      · exact Or.inr ⟨u, by simpa [e'] using hu⟩

theorem cover_op {s : St} (h : Cover s) (o : Op) : Cover (s.op o) := by
  have hd := does_op s o
  generalize s.op o = s' at hd
  cases hd with
  | same => exact h
  | register n =>
    obtain ⟨h1, h2, h3, _, _⟩ := register_frame s n
    intro c x hx
    rw [h1] at hx; rw [h2, h3]; exact h c x hx
  | trace t e x a n hp hr => exact cover_setPc h t _ (by rw [hp]; exact fun _ _ _ hc => hc.elim)
  | stop t e a n hp hr => exact cover_setPc h t _ (by rw [hp]; exact fun _ _ _ hc => hc.elim)
  | finish t k c x hp hk =>
    intro d y hy
    rcases h d y hy with hf | ⟨u, hu⟩
    · by_cases e : d = c
      · exact Or.inr ⟨t, by simp [Cov, e]⟩
      · left
        obtain ⟨j, hj⟩ := List.mem_iff_getElem?.1 hf
        have hjk : j ≠ k := by
          intro e'; subst e'; rw [hk] at hj; simp at hj; exact e hj.1.symm
        refine List.mem_iff_getElem?.2 ?_
        rcases Nat.lt_or_gt_of_ne hjk with hlt | hgt
        · exact ⟨j, by simpa [List.getElem?_eraseIdx, hlt] using hj⟩
        · refine ⟨j - 1, ?_⟩
          have : ¬ (j - 1 < k) := by omega
          show (s.flight.eraseIdx k)[j - 1]? = _
          rw [List.getElem?_eraseIdx, if_neg this, show j - 1 + 1 = j by omega]
          exact hj
    · by_cases e' : u = t
      · subst e'; rw [hp] at hu; exact hu.elim
      · exact Or.inr ⟨u, by simpa [e'] using hu⟩
  | badPick t ok e x i hp hr => exact h
  | noSlot t ok e x i a n hp hr hi =>
    exact cover_setPc h t _ (by rw [hp]; exact fun _ _ _ hc => hc.elim)
  | usedSlot t ok e x i a n hp hr hi hs hu => exact cover_setPc h t _ (by rw [hp]; exact fun _ _ _ hc => hc.elim)
  | freeSlot t ok e x i a n hp hr hi hs hu => exact cover_setPc h t _ (by rw [hp]; exact fun _ _ _ hc => hc.elim)
  | badPut t ok e x c hp hu => exact h
  | put t ok e x c hp hu =>
    intro d y hy
    simp only [slots_setPc, slots_setSlot] at hy
    by_cases ed : d = c
    · rw [if_pos ed] at hy
      exact Or.inr ⟨t, by simp [Cov, ed]; simpa using hy⟩
    · rw [if_neg ed] at hy
      rcases h d y hy with hf | ⟨u, hu'⟩
      · exact Or.inl hf
      · by_cases e' : u = t
        · subst e'; rw [hp] at hu'; exact hu'.elim
        · exact Or.inr ⟨u, by simpa [e'] using hu'⟩
  | accepted t e x c hp =>
    intro d y hy
    rcases h d y hy with hf | ⟨u, hu'⟩
    · exact Or.inl (List.mem_append_left _ hf)
    · by_cases e' : u = t
      · subst e'; rw [hp] at hu'
        left
        show (d, y) ∈ s.flight ++ [(c, x)]
        rw [← hu'.1, ← hu'.2]; simp
      · exact Or.inr ⟨u, by simpa [e'] using hu'⟩
  | refused t e x c hp => exact cover_setPc h t _ (by rw [hp]; exact fun _ _ _ hc => Or.inl hc.1)
  | undo t ok e c hp => exact cover_clear h t c _ (by rw [hp]; exact fun _ _ hc => hc.symm)
  | badStop t ok e i hp hr => exact h
  | stopped t ok e i hp => exact cover_setPc h t _ (by rw [hp]; exact fun _ _ _ hc => hc.elim)
  | stopSlot t ok e i a n hp hr hi hs => exact cover_clear h t i _ (by rw [hp]; exact fun _ _ hc => hc.elim)
  | badCheck t ok c hp hc => exact h
  | checkUsed t ok c hp hc hu => exact cover_setPc h t _ (by rw [hp]; exact fun _ _ _ hc => Or.inl hc)
  | checkFree t ok c hp hc hu =>
    refine cover_setPc h t _ ?_
    rw [hp]
    intro d x hx hc'
    rw [show d = c from hc'.symm, hu] at hx; cases hx
  | clear t ok c hp => exact cover_clear h t c _ (by rw [hp]; exact fun _ _ hc => hc.symm)

theorem cover_run (ops : List Op) : ∀ {s : St}, Cover s → Cover (run s ops) := by
  induction ops with
  | nil => exact fun h => h
  | cons o ops ih => exact fun h => ih (cover_op h o)

theorem cover_start (n : Nat) : Cover (start n) := fun c x h => by cases h

/-! ## Ranges -/

structure Ranged (s : St) : Prop where
  ord : ∀ (i j a n b m : Nat), i < j → s.ranges[i]? = some (a, n) → s.ranges[j]? = some (b, m) → a + n ≤ b
  bound : ∀ (i : Nat) a n, s.ranges[i]? = some (a, n) → a + n ≤ s.next
  fits : s.next ≤ s.size

theorem own_unique {s : St} (h : Ranged s) {e e' c : Nat} (h1 : Own s e c) (h2 : Own s e' c) : e = e' := by
  obtain ⟨a, n, r1, l1, u1⟩ := h1
  obtain ⟨b, m, r2, l2, u2⟩ := h2
  rcases Nat.lt_trichotomy e e' with hlt | rfl | hgt
  · have := h.ord _ _ _ _ _ _ hlt r1 r2; omega
  · rfl
  · have := h.ord _ _ _ _ _ _ hgt r2 r1; omega

theorem own_size {s : St} (h : Ranged s) {e c : Nat} (h1 : Own s e c) : c < s.size := by
  obtain ⟨a, n, r1, l1, u1⟩ := h1
  have := h.bound _ _ _ r1
  have := h.fits
  omega

theorem register_ranges (s : St) (n : Nat) :
    (s.register n = { s with dead := true } ∧ (n = 0 ∨ s.size < s.next + n)) ∨
    (s.register n = { s with next := s.next + n, ranges := s.ranges ++ [(s.next, n)] } ∧ 0 < n ∧ s.next + n ≤ s.size) := by
  unfold St.register
  by_cases h0 : n = 0
  · rw [if_pos h0]; exact Or.inl ⟨rfl, Or.inl h0⟩
  · rw [if_neg h0]
    by_cases h1 : s.size ≤ s.next + n - 1
    · rw [if_pos h1]; exact Or.inl ⟨rfl, Or.inr (by omega)⟩
    · rw [if_neg h1]; exact Or.inr ⟨rfl, by omega, by omega⟩

/-- The ranges of elements never change. -/
theorem ranges_op (s : St) (o : Op) : ∃ l, (s.op o).ranges = s.ranges ++ l := by
  have hd := does_op s o
  generalize s.op o = s' at hd
  cases hd with
  | register n =>
    rcases register_ranges s n with ⟨h, _⟩ | ⟨h, _⟩
    · exact ⟨[], by rw [h]; simp⟩
    · exact ⟨[(s.next, n)], by rw [h]⟩
  | _ => exact ⟨[], by simp⟩

theorem range_keep {s : St} (o : Op) {e : Nat} {r : Nat × Nat} (h : s.ranges[e]? = some r) :
    (s.op o).ranges[e]? = some r := by
  obtain ⟨l, hl⟩ := ranges_op s o
  rw [hl, List.getElem?_append_left (List.getElem?_eq_some_iff.1 h).1]
  exact h

theorem own_keep {s : St} (o : Op) {e c : Nat} (h : Own s e c) : Own (s.op o) e c := by
  obtain ⟨a, n, hr, hc⟩ := h
  exact ⟨a, n, range_keep o hr, hc⟩

theorem own_back {s : St} (o : Op) {e c : Nat} {r : Nat × Nat} (hr : s.ranges[e]? = some r) (h : Own (s.op o) e c) :
    Own s e c := by
  obtain ⟨a, n, hr', hc⟩ := h
  rw [range_keep o hr] at hr'
  exact ⟨a, n, hr.trans hr', hc⟩

theorem ranged_op {s : St} (h : Ranged s) (o : Op) : Ranged (s.op o) := by
  have hd := does_op s o
  generalize s.op o = s' at hd
  cases hd with
  | register n =>
    rcases register_ranges s n with ⟨e, _⟩ | ⟨e, hn, hf⟩
    · rw [e]; exact ⟨h.ord, h.bound, h.fits⟩
    · rw [e]
      have get : ∀ (i : Nat) r, (s.ranges ++ [(s.next, n)])[i]? = some r →
          s.ranges[i]? = some r ∨ (i = s.ranges.length ∧ r = (s.next, n)) := by
        intro i r hi
        by_cases hl : i < s.ranges.length
        · rw [List.getElem?_append_left hl] at hi; exact Or.inl hi
        · rw [List.getElem?_append_right (by omega)] at hi
          have : i - s.ranges.length = 0 := by
            have := (List.getElem?_eq_some_iff.1 hi).1
            simp at this; omega
          rw [this] at hi
          exact Or.inr ⟨by omega, by simpa using hi.symm⟩
      refine ⟨?_, ?_, hf⟩
      · intro i j a m b k hij hi hj
        rcases get i _ hi with hi' | ⟨hi', e1⟩ <;> rcases get j _ hj with hj' | ⟨hj', e2⟩
        · exact h.ord i j a m b k hij hi' hj'
        · have := h.bound i a m hi'
          cases e2; exact this
        · have := (List.getElem?_eq_some_iff.1 hj').1; omega
        · omega
      · intro i a m hi
        dsimp only at hi ⊢
        rcases get i _ hi with hi' | ⟨hi', e1⟩
        · have := h.bound i a m hi'; omega
        · cases e1; exact Nat.le_refl _
  | _ => exact ⟨h.ord, h.bound, h.fits⟩

theorem ranged_start (n : Nat) : Ranged (start n) :=
  ⟨fun i j a n b m _ h => by simp [start] at h, fun i a n h => by simp [start] at h, Nat.zero_le _⟩

end Verif.TraceSlots
