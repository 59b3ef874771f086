import Verif.Spec.AllocPtr

namespace Verif.AllocPtr
open Verif.Spec.AllocPtr

variable {V : Type}

/-- Event and slot for which the pointer answers. -/
def key (p : Ptr) : Option (Nat × Nat) := p.bin.bind fun b => b.slot.bind fun s => b.ctl.map fun e => (e, s)

def Owned (ev : Nat → Event V) (p : Ptr) (e s : Nat) : Prop :=
  p = newPtr e (ev e).memory s ∧ (ev e).live = true ∧ (ev e).offered = true ∧ (ev e).comp = true ∧
    (ev e).slots[s]? = some .writing

def Null (p : Ptr) : Prop := p.guard = none ∧ (p.bin = none ∨ ∃ c, p.bin = some { obj := none, slot := none, ctl := c })

structure InvL (ev : Nat → Event V) (L : List Ptr) : Prop where
  ok : ∀ p ∈ L, Null p ∨ ∃ e s, Owned ev p e s
  uniq : (L.filterMap key).Nodup
  held : ∀ e s : Nat, (ev e).slots[s]? = some .writing → (e, s) ∈ L.filterMap key
  count : ∀ e, (ev e).count = L.countP (fun p => p.guard == some e)
  stamp : ∀ e s t : Nat, (ev e).slots[s]? = some (.ready t) → t ≤ (ev e).stamp
  offered : ∀ e, (ev e).offered = true → (ev e).live = true ∧ (ev e).comp = true

structure Inv (w : World V) : Prop where
  fault : w.fault = none
  list : InvL w.events w.ptrs

theorem key_newPtr (e m s : Nat) : key (newPtr e m s) = some (e, s) := rfl

theorem key_null {p : Ptr} (h : Null p) : key p = none := by
  rcases h.2 with h | ⟨c, h⟩ <;> simp [key, h]

theorem null_blank : Null {} := ⟨rfl, Or.inl rfl⟩

theorem InvL.perm {ev : Nat → Event V} {L L' : List Ptr} (h : InvL ev L) (hp : L.Perm L') : InvL ev L' where
  ok p hm := h.ok p (hp.mem_iff.mpr hm)
  uniq := (hp.filterMap key).nodup_iff.mp h.uniq
  held e s hs := (hp.filterMap key).mem_iff.mp (h.held e s hs)
  count e := by rw [h.count e, hp.countP_eq]
  stamp := h.stamp
  offered := h.offered

/-- The world in which one event is another. -/
def upd (ev : Nat → Event V) (e : Nat) (v : Event V) : Nat → Event V := fun x => if x = e then v else ev x

theorem upd_self (ev : Nat → Event V) (e : Nat) (v : Event V) : upd ev e v e = v := by simp [upd]

theorem upd_other (ev : Nat → Event V) {e x : Nat} (v : Event V) (h : x ≠ e) : upd ev e v x = ev x := by
  simp [upd, h]

theorem key_of_owned {ev : Nat → Event V} {p : Ptr} {e s : Nat} (h : Owned ev p e s) : key p = some (e, s) := by
  rw [h.1]; rfl

/-- A pointer lets its slot go. -/
theorem InvL.release {ev : Nat → Event V} {p q : Ptr} {R : List Ptr} {e s t : Nat} {x : Slot}
    (h : InvL ev (p :: R)) (ho : Owned ev p e s) (hq : Null q) (hx : x ≠ .writing)
    (hx2 : ∀ n, x = .ready n → n ≤ t) (ht : (ev e).stamp ≤ t) :
    InvL (upd ev e { ev e with slots := (ev e).slots.set s x, stamp := t, count := (ev e).count - 1 }) (q :: R) := by
  have hk : (p :: R).filterMap key = (e, s) :: R.filterMap key := by
    rw [List.filterMap_cons, key_of_owned ho]
  have hkq : (q :: R).filterMap key = R.filterMap key := by
    rw [List.filterMap_cons, key_null hq]
  have hn := h.uniq
  rw [hk, List.nodup_cons] at hn
  refine ⟨fun r hr => ?_, ?_, fun e' s' hs => ?_, fun e' => ?_, fun e' s' n hs => ?_, fun e' hof => ?_⟩
  · rcases List.mem_cons.mp hr with rfl | hr
    · exact Or.inl hq
    · rcases h.ok r (List.mem_cons_of_mem _ hr) with h1 | ⟨e', s', h1⟩
      · exact Or.inl h1
      · refine Or.inr ⟨e', s', ?_⟩
        by_cases he : e' = e
        · subst he
          have hne : s ≠ s' := by
            rintro rfl
            exact hn.1 (List.mem_filterMap.mpr ⟨r, hr, key_of_owned h1⟩)
          obtain ⟨a, b, c, d, f⟩ := h1
          refine ⟨?_, ?_, ?_, ?_, ?_⟩ <;> rw [upd_self]
          · exact a
          · exact b
          · exact c
          · exact d
          · show ((ev e').slots.set s x)[s']? = _
            rw [List.getElem?_set_ne hne]; exact f
        · obtain ⟨a, b, c, d, f⟩ := h1
          refine ⟨?_, ?_, ?_, ?_, ?_⟩ <;> rw [upd_other _ _ he] <;> assumption
  · rw [hkq]; exact hn.2
  · rw [hkq]
    by_cases he : e' = e
    · subst he
      rw [upd_self] at hs
      have hs : ((ev e').slots.set s x)[s']? = some .writing := hs
      by_cases hss : s = s'
      · subst hss
        rw [List.getElem?_set] at hs
        simp only [if_true] at hs
        split at hs
        · simp only [Option.some.injEq] at hs; exact absurd hs hx
        · cases hs
      · rw [List.getElem?_set_ne hss] at hs
        have := h.held e' s' hs
        rw [hk] at this
        rcases List.mem_cons.mp this with h1 | h1
        · simp only [Prod.mk.injEq, true_and] at h1; exact absurd h1.symm hss
        · exact h1
    · rw [upd_other _ _ he] at hs
      have := h.held e' s' hs
      rw [hk] at this
      rcases List.mem_cons.mp this with h1 | h1
      · simp only [Prod.mk.injEq] at h1; exact absurd h1.1 he
      · exact h1
  · have hc := h.count e'
    rw [List.countP_cons] at hc ⊢
    have hg : p.guard = some e := by rw [ho.1]; rfl
    rw [hg] at hc
    rw [hq.1]
    by_cases he : e' = e
    · subst he
      rw [upd_self]
      simp only [beq_self_eq_true, if_true] at hc
      show (ev e').count - 1 = _
      simp; omega
    · rw [upd_other _ _ he, hc]
      have : (some e == some e') = false := by simp; exact fun h => he h.symm
      rw [this]; simp
  · by_cases he : e' = e
    · subst he
      rw [upd_self] at hs ⊢
      have hs : ((ev e').slots.set s x)[s']? = some (.ready n) := hs
      show n ≤ t
      by_cases hss : s = s'
      · subst hss
        rw [List.getElem?_set] at hs
        simp only [if_true] at hs
        split at hs
        · simp only [Option.some.injEq] at hs; exact hx2 n hs
        · cases hs
      · rw [List.getElem?_set_ne hss] at hs
        exact Nat.le_trans (h.stamp e' s' n hs) ht
    · rw [upd_other _ _ he] at hs ⊢
      exact h.stamp e' s' n hs
  · by_cases he : e' = e
    · subst he; rw [upd_self] at hof ⊢; exact h.offered e' hof
    · rw [upd_other _ _ he] at hof ⊢; exact h.offered e' hof

/-- A pointer gets a slot. -/
theorem InvL.acquire {ev : Nat → Event V} {L : List Ptr} {e s : Nat} {y : Slot} (h : InvL ev L)
    (hof : (ev e).offered = true) (hs : (ev e).slots[s]? = some y) (hy : y ≠ .writing) :
    InvL (upd ev e { ev e with slots := (ev e).slots.set s .writing, count := (ev e).count + 1 })
      (newPtr e (ev e).memory s :: L) := by
  have hlen : s < (ev e).slots.length := by
    rw [List.getElem?_eq_some_iff] at hs; exact hs.1
  have hnew : (e, s) ∉ L.filterMap key := by
    intro hm
    obtain ⟨r, hr, hk⟩ := List.mem_filterMap.mp hm
    rcases h.ok r hr with h1 | ⟨e', s', h1⟩
    · rw [key_null h1] at hk; cases hk
    · rw [key_of_owned h1] at hk
      simp only [Option.some.injEq, Prod.mk.injEq] at hk
      obtain ⟨rfl, rfl⟩ := hk
      have := h1.2.2.2.2
      rw [hs, Option.some.injEq] at this
      exact hy this
  have hk : (newPtr e (ev e).memory s :: L).filterMap key = (e, s) :: L.filterMap key := by
    rw [List.filterMap_cons, key_newPtr]
  refine ⟨fun r hr => ?_, ?_, fun e' s' hs' => ?_, fun e' => ?_, fun e' s' n hs' => ?_, fun e' ho => ?_⟩
  · rcases List.mem_cons.mp hr with rfl | hr'
    · refine Or.inr ⟨e, s, ?_, ?_, ?_, ?_, ?_⟩ <;> rw [upd_self]
      · exact (h.offered e hof).1
      · exact hof
      · exact (h.offered e hof).2
      · show ((ev e).slots.set s .writing)[s]? = _
        rw [List.getElem?_set_self hlen]
    · rcases h.ok r hr' with h1 | ⟨e', s', h1⟩
      · exact Or.inl h1
      · refine Or.inr ⟨e', s', ?_⟩
        by_cases he : e' = e
        · subst he
          have hne : s ≠ s' := by
            rintro rfl
            exact hnew (List.mem_filterMap.mpr ⟨r, hr', key_of_owned h1⟩)
          obtain ⟨a, b, c, d, f⟩ := h1
          refine ⟨?_, ?_, ?_, ?_, ?_⟩ <;> rw [upd_self]
          · exact a
          · exact b
          · exact c
          · exact d
          · show ((ev e').slots.set s .writing)[s']? = _
            rw [List.getElem?_set_ne hne]; exact f
        · obtain ⟨a, b, c, d, f⟩ := h1
          refine ⟨?_, ?_, ?_, ?_, ?_⟩ <;> rw [upd_other _ _ he] <;> assumption
  · rw [hk, List.nodup_cons]; exact ⟨hnew, h.uniq⟩
  · rw [hk]
    by_cases he : e' = e
    · subst he
      rw [upd_self] at hs'
      have hs' : ((ev e').slots.set s .writing)[s']? = some .writing := hs'
      by_cases hss : s = s'
      · subst hss; exact List.mem_cons_self
      · rw [List.getElem?_set_ne hss] at hs'
        exact List.mem_cons_of_mem _ (h.held e' s' hs')
    · rw [upd_other _ _ he] at hs'
      exact List.mem_cons_of_mem _ (h.held e' s' hs')
  · rw [List.countP_cons, ← h.count e']
    by_cases he : e' = e
    · subst he
      rw [upd_self]
      simp [newPtr]
    · rw [upd_other _ _ he]
      have : (some e == some e') = false := by simp; exact fun h => he h.symm
      show _ = _ + if (some e == some e') = true then 1 else 0
      rw [this]; simp
  · by_cases he : e' = e
    · subst he
      rw [upd_self] at hs' ⊢
      have hs' : ((ev e').slots.set s .writing)[s']? = some (.ready n) := hs'
      show n ≤ (ev e').stamp
      by_cases hss : s = s'
      · subst hss; rw [List.getElem?_set_self hlen] at hs'; cases hs'
      · rw [List.getElem?_set_ne hss] at hs'; exact h.stamp e' s' n hs'
    · rw [upd_other _ _ he] at hs' ⊢; exact h.stamp e' s' n hs'
  · by_cases he : e' = e
    · subst he; rw [upd_self] at ho ⊢; exact h.offered e' ho
    · rw [upd_other _ _ he] at ho ⊢; exact h.offered e' ho

/-- The samples do not matter. -/
theorem InvL.write {ev : Nat → Event V} {L : List Ptr} (h : InvL ev L) (e : Nat) (d : Nat → Option V) :
    InvL (upd ev e { ev e with data := d }) L := by
  have hf : ∀ x, (upd ev e { ev e with data := d } x).slots = (ev x).slots ∧
      (upd ev e { ev e with data := d } x).count = (ev x).count ∧
      (upd ev e { ev e with data := d } x).stamp = (ev x).stamp ∧
      (upd ev e { ev e with data := d } x).live = (ev x).live ∧
      (upd ev e { ev e with data := d } x).offered = (ev x).offered ∧
      (upd ev e { ev e with data := d } x).comp = (ev x).comp ∧
      (upd ev e { ev e with data := d } x).memory = (ev x).memory := by
    intro x
    by_cases hx : x = e
    · subst hx; rw [upd_self]; exact ⟨rfl, rfl, rfl, rfl, rfl, rfl, rfl⟩
    · rw [upd_other _ _ hx]; exact ⟨rfl, rfl, rfl, rfl, rfl, rfl, rfl⟩
  refine ⟨fun p hp => ?_, h.uniq, fun x s hs => ?_, fun x => ?_, fun x s t hs => ?_, fun x ho => ?_⟩
  · rcases h.ok p hp with h1 | ⟨x, s, h1⟩
    · exact Or.inl h1
    · obtain ⟨h2, h3, h4, h5, h6, h7, h8⟩ := hf x
      exact Or.inr ⟨x, s, by unfold Owned; rw [h2, h5, h6, h7, h8]; exact h1⟩
  · rw [(hf x).1] at hs; exact h.held x s hs
  · rw [(hf x).2.1]; exact h.count x
  · rw [(hf x).1] at hs; rw [(hf x).2.2.1]; exact h.stamp x s t hs
  · obtain ⟨h2, h3, h4, h5, h6, h7, h8⟩ := hf x
    rw [h6] at ho; rw [h5, h7]; exact h.offered x ho

theorem latest_le {l : List Slot} {s t : Nat} (h : l[s]? = some (.ready t)) : t ≤ latest l := by
  induction l generalizing s with
  | nil => simp at h
  | cons x l ih =>
    cases s with
    | zero =>
      simp only [List.getElem?_cons_zero, Option.some.injEq] at h
      subst h
      simp only [latest]; omega
    | succ s =>
      rw [List.getElem?_cons_succ] at h
      have := ih h
      cases x <;> simp only [latest] <;> omega

/-- An event for which there is no pointer changes. -/
theorem InvL.event {ev : Nat → Event V} {L : List Ptr} (h : InvL ev L) {e : Nat} {v : Event V}
    (hn : ∀ s, (e, s) ∉ L.filterMap key) (hw : ∀ s : Nat, v.slots[s]? ≠ some .writing) (hc : v.count = (ev e).count)
    (hs : ∀ s t : Nat, v.slots[s]? = some (.ready t) → t ≤ v.stamp) (ho : v.offered = true → v.live = true ∧ v.comp = true) :
    InvL (upd ev e v) L := by
  refine ⟨fun p hp => ?_, h.uniq, fun x s hx => ?_, fun x => ?_, fun x s t hx => ?_, fun x hof => ?_⟩
  · rcases h.ok p hp with h1 | ⟨x, s, h1⟩
    · exact Or.inl h1
    · have : x ≠ e := by
        rintro rfl; exact hn s (List.mem_filterMap.mpr ⟨p, hp, key_of_owned h1⟩)
      exact Or.inr ⟨x, s, by unfold Owned; rw [upd_other _ _ this]; exact h1⟩
  · by_cases hxe : x = e
    · subst hxe; rw [upd_self] at hx; exact absurd hx (hw s)
    · rw [upd_other _ _ hxe] at hx; exact h.held x s hx
  · by_cases hxe : x = e
    · subst hxe; rw [upd_self, hc]; exact h.count x
    · rw [upd_other _ _ hxe]; exact h.count x
  · by_cases hxe : x = e
    · subst hxe; rw [upd_self] at hx ⊢; exact hs s t hx
    · rw [upd_other _ _ hxe] at hx ⊢; exact h.stamp x s t hx
  · by_cases hxe : x = e
    · subst hxe; rw [upd_self] at hof ⊢; exact ho hof
    · rw [upd_other _ _ hxe] at hof ⊢; exact h.offered x hof

theorem holds_of_owned {ev : Nat → Event V} {p : Ptr} {e s : Nat} (h : Owned ev p e s) : Holds p e := by
  rw [h.1]; exact ⟨_, _, _, rfl, rfl⟩

theorem not_holds_null {p : Ptr} (h : Null p) : Empty p := by
  rintro e ⟨b, m, s, h1, h2⟩
  rcases h.2 with h | ⟨c, h⟩
  · rw [h] at h1; cases h1
  · rw [h] at h1; injection h1 with h1; subst h1; cases h2

theorem InvL.of_holds {ev : Nat → Event V} {L : List Ptr} (h : InvL ev L) {p : Ptr} (hp : p ∈ L) {e : Nat}
    (hh : Holds p e) : ∃ s, Owned ev p e s := by
  rcases h.ok p hp with h1 | ⟨x, s, h1⟩
  · exact absurd hh (not_holds_null h1 e)
  · obtain ⟨b, m, s', h2, h3⟩ := hh
    have := h1.1
    rw [this] at h2
    injection h2 with h2
    subst h2
    injection h3 with h3
    injection h3 with h3 h4
    subst h3
    exact ⟨s, h1⟩

theorem InvL.no_key {ev : Nat → Event V} {L : List Ptr} (h : InvL ev L) {e : Nat} (hn : ∀ p ∈ L, ¬ Holds p e) (s : Nat) :
    (e, s) ∉ L.filterMap key := by
  intro hm
  obtain ⟨p, hp, hk⟩ := List.mem_filterMap.mp hm
  rcases h.ok p hp with h1 | ⟨x, s', h1⟩
  · rw [key_null h1] at hk; cases hk
  · rw [key_of_owned h1] at hk
    injection hk with hk
    injection hk with hk hk'
    subst hk
    exact hn p hp (holds_of_owned h1)

theorem cons_eraseIdx_perm {L : List Ptr} {i : Nat} {p : Ptr} (h : L[i]? = some p) : L.Perm (p :: L.eraseIdx i) := by
  induction L generalizing i with
  | nil => simp at h
  | cons x L ih =>
    cases i with
    | zero =>
      simp only [List.getElem?_cons_zero, Option.some.injEq] at h
      subst h
      exact List.Perm.refl _
    | succ i =>
      rw [List.getElem?_cons_succ] at h
      exact ((ih h).cons x).trans (List.Perm.swap _ _ _)

theorem set_perm {L : List Ptr} {i : Nat} {p : Ptr} (h : L[i]? = some p) (q : Ptr) :
    L.Perm (p :: L.eraseIdx i) ∧ (L.set i q).Perm (q :: L.eraseIdx i) := by
  refine ⟨cons_eraseIdx_perm h, ?_⟩
  have hl := (List.getElem?_eq_some_iff.mp h).1
  have := cons_eraseIdx_perm (List.getElem?_set_self (a := q) hl)
  rw [List.eraseIdx_set_eq] at this
  exact this

/-! ## What the functions do -/

theorem setEvent_twice (w : World V) (e : Nat) (a b : Event V) : (w.setEvent e a).setEvent e b = w.setEvent e b := by
  unfold World.setEvent
  congr 1
  funext x
  dsimp only
  split <;> rfl

theorem setEvent_self (w : World V) (e : Nat) (a : Event V) : (w.setEvent e a).events e = a := by
  simp [World.setEvent]

theorem destroy_null {w : World V} {p : Ptr} (h : Null p) (hf : w.fault = none) : destroyPtr w p = w := by
  rcases h.2 with h1 | ⟨c, h1⟩ <;> simp [destroyPtr, dropGuard, h.1, World.andThen, hf, h1, dropInternal, dropBinding]

theorem reset_null {w : World V} {p : Ptr} (h : Null p) (hf : w.fault = none) : resetPtr w p = w := by
  rcases h.2 with h1 | ⟨c, h1⟩ <;> simp [resetPtr, dropGuard, h.1, World.andThen, hf, h1, dropInternal, dropBinding]

theorem dropGuard_eq {w : World V} {e : Nat} (h : (w.events e).live = true) (hc : (w.events e).count ≠ 0) :
    dropGuard w (some e) = w.setEvent e { w.events e with count := (w.events e).count - 1 } := by
  simp only [dropGuard, h, hc, Bool.not_true, Bool.false_eq_true, if_false]

theorem discard_eq {w : World V} {e s : Nat} (h : (w.events e).live = true) (hc : (w.events e).comp = true)
    (hs : (w.events e).slots[s]? = some .writing) :
    discard w e s = w.setEvent e { w.events e with slots := (w.events e).slots.set s .invalid } := by
  simp only [discard, h, hc, hs, Bool.not_true, Bool.or_self, Bool.false_eq_true, if_false]

theorem andThen_eq {w : World V} (hf : w.fault = none) (f : World V → World V) : w.andThen f = f w := by
  simp [World.andThen, hf]

theorem andThen_set {w : World V} (hf : w.fault = none) (e : Nat) (v : Event V) (f : World V → World V) :
    (w.setEvent e v).andThen f = f (w.setEvent e v) :=
  andThen_eq (w := w.setEvent e v) hf f

theorem destroy_owned {w : World V} {p : Ptr} {e s : Nat} (hf : w.fault = none) (h : Owned w.events p e s)
    (hc : (w.events e).count ≠ 0) :
    destroyPtr w p = w.setEvent e { w.events e with
      slots := (w.events e).slots.set s .invalid, count := (w.events e).count - 1 } := by
  obtain ⟨rfl, h2, h3, h4, h5⟩ := h
  show (dropGuard w (some e)).andThen (fun w => discard w e s) = _
  rw [dropGuard_eq h2 hc, andThen_set hf, discard_eq]
  · rw [setEvent_twice, setEvent_self]
  · rw [setEvent_self]; exact h2
  · rw [setEvent_self]; exact h4
  · rw [setEvent_self]; exact h5

theorem reset_owned {w : World V} {p : Ptr} {e s : Nat} (hf : w.fault = none) (h : Owned w.events p e s)
    (hc : (w.events e).count ≠ 0) :
    resetPtr w p = w.setEvent e { w.events e with
      slots := (w.events e).slots.set s .invalid, count := (w.events e).count - 1 } := by
  obtain ⟨rfl, h2, h3, h4, h5⟩ := h
  show (discard w e s).andThen (fun w => dropGuard w (some e)) = _
  rw [discard_eq h2 h4 h5, andThen_set hf, dropGuard_eq]
  · rw [setEvent_twice, setEvent_self]
  · rw [setEvent_self]; exact h2
  · rw [setEvent_self]; exact hc

theorem ready_owned {w : World V} {p : Ptr} {e s : Nat} (hf : w.fault = none) (h : Owned w.events p e s)
    (hc : (w.events e).count ≠ 0) :
    ((ready w e p.bin).andThen fun w => destroyPtr w p) = w.setEvent e { w.events e with
      slots := (w.events e).slots.set s (.ready ((w.events e).stamp + 1)), stamp := (w.events e).stamp + 1,
      count := (w.events e).count - 1 } := by
  obtain ⟨rfl, h2, h3, h4, h5⟩ := h
  have hl : s < (w.events e).slots.length := (List.getElem?_eq_some_iff.mp h5).1
  have hr : ready w e (newPtr e (w.events e).memory s).bin = w.setEvent e { w.events e with
      slots := (w.events e).slots.set s (.ready ((w.events e).stamp + 1)), stamp := (w.events e).stamp + 1 } := by
    simp only [ready, newPtr, hl, if_true]
  rw [hr, andThen_set hf]
  show (dropGuard (w.setEvent e _) (some e)).andThen (fun w => discard w e s) = _
  rw [dropGuard_eq (by rw [setEvent_self]; exact h2) (by rw [setEvent_self]; exact hc),
    setEvent_twice, setEvent_self, andThen_set hf]
  simp only [discard, setEvent_self, h2, h4, Bool.not_true, Bool.or_self, Bool.false_eq_true, if_false,
    List.getElem?_set_self hl]

theorem InvL.count_ne {ev : Nat → Event V} {L : List Ptr} (h : InvL ev L) {p : Ptr} (hp : p ∈ L) {e s : Nat}
    (ho : Owned ev p e s) : (ev e).count ≠ 0 := by
  rw [h.count e]
  have : 0 < L.countP (fun p => p.guard == some e) := List.countP_pos_iff.mpr ⟨p, hp, by rw [ho.1]; simp [newPtr]⟩
  omega

theorem upd_setEvent (w : World V) (e : Nat) (v : Event V) : (w.setEvent e v).events = upd w.events e v := rfl

theorem mem_of_get {L : List Ptr} {i : Nat} {p : Ptr} (h : L[i]? = some p) : p ∈ L := List.mem_of_getElem? h

theorem null_cleared {ev : Nat → Event V} {p : Ptr} (h : Null p ∨ ∃ e s, Owned ev p e s) : Null p.cleared := by
  refine ⟨rfl, ?_⟩
  cases hb : p.bin with
  | none => left; simp [Ptr.cleared, hb]
  | some b => right; exact ⟨b.ctl, by simp [Ptr.cleared, hb, Binding.cleared]⟩

theorem InvL.put {ev : Nat → Event V} {L : List Ptr} {i : Nat} {p q : Ptr} (h : InvL ev L) (hp : L[i]? = some p)
    (h0 : Null p) (hq : Null q) : InvL ev (L.set i q) := by
  have h1 := h.perm (set_perm hp q).1
  refine InvL.perm ?_ (set_perm hp q).2.symm
  refine ⟨fun r hr => ?_, ?_, fun e s hs => ?_, fun e => ?_, h.stamp, h.offered⟩
  · rcases List.mem_cons.mp hr with rfl | hr
    · exact Or.inl hq
    · exact h1.ok r (List.mem_cons_of_mem _ hr)
  · have := h1.uniq
    rw [List.filterMap_cons, key_null h0] at this
    rw [List.filterMap_cons, key_null hq]; exact this
  · have := h1.held e s hs
    rw [List.filterMap_cons, key_null h0] at this
    rw [List.filterMap_cons, key_null hq]; exact this
  · have := h1.count e
    rw [List.countP_cons, h0.1] at this
    rw [List.countP_cons, hq.1]; exact this

theorem InvL.append_null {ev : Nat → Event V} {L : List Ptr} {q : Ptr} (h : InvL ev L) (hq : Null q) :
    InvL ev (q :: L) := by
  refine ⟨fun r hr => ?_, ?_, fun e s hs => ?_, fun e => ?_, h.stamp, h.offered⟩
  · rcases List.mem_cons.mp hr with rfl | hr
    · exact Or.inl hq
    · exact h.ok r hr
  · rw [List.filterMap_cons, key_null hq]; exact h.uniq
  · rw [List.filterMap_cons, key_null hq]; exact h.held e s hs
  · rw [List.countP_cons, hq.1]; simpa using h.count e

/-- A pointer ends or is reset. -/
theorem InvL.let_go {w : World V} (h : Inv w) {i e s : Nat} {p q : Ptr} (hp : w.ptrs[i]? = some p)
    (ho : Owned w.events p e s) (hq : Null q) {x : Slot} {t : Nat} (hx : x ≠ .writing)
    (hx2 : ∀ n, x = .ready n → n ≤ t) (ht : (w.events e).stamp ≤ t) :
    Inv ((w.put i q).setEvent e { w.events e with
      slots := (w.events e).slots.set s x, stamp := t, count := (w.events e).count - 1 }) :=
  ⟨h.fault, InvL.perm ((h.list.perm (set_perm hp q).1).release ho hq hx hx2 ht) (set_perm hp q).2.symm⟩

theorem drop_inv {w : World V} (h : Inv w) (i : Nat) : Inv (drop w i) := by
  unfold drop
  split
  · exact h
  · rename_i p hp
    rcases h.list.ok p (mem_of_get hp) with h1 | ⟨e, s, h1⟩
    · rw [destroy_null h1 (show (w.put i {}).fault = none from h.fault)]
      exact ⟨h.fault, h.list.put hp h1 null_blank⟩
    · rw [destroy_owned (w := w.put i {}) h.fault h1 (h.list.count_ne (mem_of_get hp) h1)]
      exact InvL.let_go h hp h1 null_blank (by simp) (by simp) (Nat.le_refl _)

theorem reset_inv {w : World V} (h : Inv w) (i : Nat) : Inv (reset w i) := by
  unfold reset
  split
  · exact h
  · rename_i p hp
    have hc := null_cleared (h.list.ok p (mem_of_get hp))
    rcases h.list.ok p (mem_of_get hp) with h1 | ⟨e, s, h1⟩
    · rw [reset_null h1 (show (w.put i p.cleared).fault = none from h.fault)]
      exact ⟨h.fault, h.list.put hp h1 hc⟩
    · rw [reset_owned (w := w.put i p.cleared) h.fault h1 (h.list.count_ne (mem_of_get hp) h1)]
      exact InvL.let_go h hp h1 hc (by simp) (by simp) (Nat.le_refl _)

theorem send_eq {w : World V} (h : Inv w) {i e s : Nat} {p : Ptr} (hp : w.ptrs[i]? = some p)
    (ho : Owned w.events p e s) :
    send w e i = ((w.put i {}).setEvent e { w.events e with
      slots := (w.events e).slots.set s (.ready ((w.events e).stamp + 1)), stamp := (w.events e).stamp + 1,
      count := (w.events e).count - 1 }, .ok) := by
  unfold send
  rw [hp]
  have hof : ((w.put i {}).events e).offered = true := ho.2.2.1
  simp only [hof, Bool.not_true, Bool.false_eq_true, if_false]
  rw [ready_owned (w := w.put i {}) h.fault ho (h.list.count_ne (mem_of_get hp) ho)]
  rfl

theorem send_inv {w : World V} (h : Inv w) {i e : Nat} {p : Ptr} (hp : w.ptrs[i]? = some p) (hh : Holds p e) :
    Inv (send w e i).1 := by
  obtain ⟨s, ho⟩ := h.list.of_holds (mem_of_get hp) hh
  rw [send_eq h hp ho]
  exact InvL.let_go h hp ho null_blank (by simp) (fun n hn => by injection hn with hn; omega) (Nat.le_succ _)

theorem takes_some {v : Event V} {pick : Option Nat} {s : Nat} (h : takes v pick = some s) :
    pick = some s ∧ ∃ y, v.slots[s]? = some y ∧ y ≠ .writing := by
  unfold takes at h
  split at h
  · cases h
  · split at h
    · cases h
    · cases h
    · rename_i s' y hne hs
      injection h with h
      subst h
      exact ⟨rfl, y, hs, hne⟩

theorem allocate_cases (w : World V) (e : Nat) (pick : Option Nat) :
    ((allocate w e pick).1 = w ∧ (allocate w e pick).2 ≠ .ok) ∨
      ∃ s, takes (w.events e) pick = some s ∧ (w.events e).offered = true ∧
        allocate w e pick = ({ w.setEvent e { w.events e with
          slots := (w.events e).slots.set s .writing, count := (w.events e).count + 1 } with
          ptrs := w.ptrs ++ [newPtr e (w.events e).memory s] }, .ok) := by
  unfold allocate
  dsimp only
  split
  · left; exact ⟨rfl, by simp⟩
  · rename_i ho
    split
    · left; exact ⟨rfl, by simp⟩
    · split
      · left; exact ⟨rfl, by simp⟩
      · rename_i s hs
        right; exact ⟨s, hs, by simpa using ho, rfl⟩

theorem allocate_inv {w : World V} (h : Inv w) (e : Nat) (pick : Option Nat) : Inv (allocate w e pick).1 := by
  rcases allocate_cases w e pick with h1 | ⟨s, h1, h2, h3⟩
  · rw [h1.1]; exact h
  · rw [h3]
    obtain ⟨_, y, hy, hy2⟩ := takes_some h1
    exact ⟨h.fault, (h.list.acquire h2 hy hy2).perm (List.perm_append_comm (l₁ := [_]) (l₂ := w.ptrs))⟩

theorem write_eq {w : World V} {i e s : Nat} {p : Ptr} (hp : w.ptrs[i]? = some p) (ho : Owned w.events p e s) (x : V) :
    write w i x = w.setEvent e { w.events e with data := fun y => if y = s then some x else (w.events e).data y } := by
  obtain ⟨rfl, h2, h3, h4, h5⟩ := ho
  unfold write
  rw [hp]
  simp [newPtr, h2, h4]

theorem write_inv {w : World V} (h : Inv w) {i e s : Nat} {p : Ptr} (hp : w.ptrs[i]? = some p)
    (ho : Owned w.events p e s) (x : V) : Inv (write w i x) := by
  rw [write_eq hp ho]
  exact ⟨h.fault, h.list.write e _⟩

theorem finish_inv {w : World V} {r : Ret} (h : Inv w) : Inv (finish (w, r)) := by
  unfold finish
  dsimp only
  split
  · exact h
  · exact ⟨h.fault, h.list⟩

/-- What `Send` of a value does if there is a slot. -/
theorem sendCopy_eq {w : World V} (h : Inv w) {e s : Nat} (x : V) {pick : Option Nat}
    (ht : takes (w.events e) pick = some s) (ho : (w.events e).offered = true) :
    ∃ w', sendCopy w e x pick = (w', .ok) ∧ Inv w' ∧ w'.ptrs = w.ptrs ++ [({ bin := none, guard := none } : Ptr)] ∧ w'.log = w.log ∧
      w'.events = upd w.events e { w.events e with
        slots := (w.events e).slots.set s (.ready ((w.events e).stamp + 1)), stamp := (w.events e).stamp + 1,
        data := fun y => if y = s then some x else (w.events e).data y } := by
  rcases allocate_cases w e pick with h1 | ⟨s', h1, h2, h3⟩
  · exfalso
    apply h1.2
    simp [allocate, ho, (h.list.offered e ho).2, ht]
  · rw [ht] at h1
    injection h1 with h1
    subst h1
    have hi := allocate_inv h e pick
    have hp : (allocate w e pick).1.ptrs[w.ptrs.length]? = some (newPtr e (w.events e).memory s) := by
      rw [h3]; simp
    obtain ⟨_, y, hy, _⟩ := takes_some ht
    have hl : s < (w.events e).slots.length := (List.getElem?_eq_some_iff.mp hy).1
    have hO : Owned (allocate w e pick).1.events (newPtr e (w.events e).memory s) e s := by
      rw [h3]
      refine ⟨?_, ?_, ?_, ?_, ?_⟩
      · simp [World.setEvent]
      · simpa [World.setEvent] using (h.list.offered e ho).1
      · simpa [World.setEvent] using ho
      · simpa [World.setEvent] using (h.list.offered e ho).2
      · simp [World.setEvent, hl]
    have hw := write_inv hi hp hO x
    have hwe := write_eq hp hO x
    have hp2 : (write (allocate w e pick).1 w.ptrs.length x).ptrs[w.ptrs.length]? =
        some (newPtr e (w.events e).memory s) := by rw [hwe]; exact hp
    have hO2 : Owned (write (allocate w e pick).1 w.ptrs.length x).events (newPtr e (w.events e).memory s) e s := by
      rw [hwe]
      obtain ⟨a, b, c, d, f⟩ := hO
      refine ⟨?_, ?_, ?_, ?_, ?_⟩ <;> rw [setEvent_self] <;> assumption
    have hse := send_eq hw hp2 hO2
    have hsi := send_inv hw hp2 (holds_of_owned hO2)
    refine ⟨(send (write (allocate w e pick).1 w.ptrs.length x) e w.ptrs.length).1, ?_, hsi, ?_, ?_, ?_⟩
    · unfold sendCopy
      have : allocate w e pick = ((allocate w e pick).1, .ok) := by rw [h3]
      rw [this]
      dsimp only
      rw [andThen_eq hw.fault]
    · rw [hse, hwe, h3]
      simp [World.setEvent, World.put]
    · rw [hse, hwe, h3]
      rfl
    · rw [hse, hwe, h3]
      funext z
      by_cases hz : z = e
      · subst hz
        simp [World.setEvent, World.put, upd]
      · simp [World.setEvent, World.put, upd, hz]

theorem sendCopy_inv {w : World V} (h : Inv w) (e : Nat) (x : V) (pick : Option Nat) :
    Inv (sendCopy w e x pick).1 := by
  rcases allocate_cases w e pick with h1 | ⟨s, h1, h2, h3⟩
  · have : sendCopy w e x pick = allocate w e pick := by
      unfold sendCopy
      split
      · rename_i w' he; rw [he] at h1; exact absurd rfl h1.2
      · rename_i he; exact he.symm
    rw [this, h1.1]; exact h
  · obtain ⟨w', h4, h5, _⟩ := sendCopy_eq h x h1 h2
    rw [h4]; exact h5

theorem cleaned_not_writing (l : List Slot) (s : Nat) : (l.map cleaned)[s]? ≠ some .writing := by
  rw [List.getElem?_map]
  cases l[s]? with
  | none => simp
  | some x => cases x <;> simp [cleaned]

theorem InvL.no_key_off {ev : Nat → Event V} {L : List Ptr} (h : InvL ev L) {e : Nat} (ho : (ev e).offered = false)
    (s : Nat) : (e, s) ∉ L.filterMap key := by
  intro hm
  obtain ⟨p, hp, hk⟩ := List.mem_filterMap.mp hm
  rcases h.ok p hp with h1 | ⟨x, s', h1⟩
  · rw [key_null h1] at hk; cases hk
  · rw [key_of_owned h1] at hk
    injection hk with hk
    injection hk with hk hk'
    subst hk
    rw [h1.2.2.1] at ho; cases ho

theorem offer_inv {w : World V} (h : Inv w) (e : Nat) (fresh : Bool) : Inv (offer w e fresh) := by
  unfold offer
  dsimp only
  split
  · exact h
  · rename_i hc
    simp only [Bool.or_eq_true, Bool.not_eq_true', not_or, Bool.not_eq_true, Bool.not_eq_false] at hc
    refine ⟨h.fault, h.list.event (h.list.no_key_off hc.2) (fun s => ?_) rfl (fun s t hs => latest_le hs)
      (fun _ => ⟨hc.1, rfl⟩)⟩
    cases fresh
    · exact cleaned_not_writing _ s
    · simp only [if_true, List.getElem?_replicate]
      split <;> simp

theorem InvL.not_writing {ev : Nat → Event V} {L : List Ptr} (h : InvL ev L) {e : Nat} (hn : ∀ p ∈ L, ¬ Holds p e)
    (s : Nat) : (ev e).slots[s]? ≠ some .writing := fun hs => h.no_key hn s (h.held e s hs)

theorem stopOffer_inv {w : World V} (h : Inv w) {e : Nat} (hn : ∀ p ∈ w.ptrs, ¬ Holds p e) : Inv (stopOffer w e) := by
  unfold stopOffer
  dsimp only
  split
  · exact ⟨h.fault, h.list.event (h.list.no_key hn) (h.list.not_writing hn) rfl (fun s t hs => h.list.stamp e s t hs)
      (fun ho => by cases ho)⟩
  · exact h

theorem InvL.count_zero {ev : Nat → Event V} {L : List Ptr} (h : InvL ev L) {e : Nat} (hn : ∀ p ∈ L, ¬ Holds p e) :
    (ev e).count = 0 := by
  rw [h.count e, List.countP_eq_zero]
  intro p hp
  rcases h.ok p hp with h1 | ⟨x, s, h1⟩
  · rw [h1.1]; simp
  · intro hg
    rw [h1.1] at hg
    simp only [newPtr, beq_iff_eq, Option.some.injEq] at hg
    subst hg
    exact hn p hp (holds_of_owned h1)

theorem destroyEvent_inv {w : World V} (h : Inv w) {e : Nat} (hn : ∀ p ∈ w.ptrs, ¬ Holds p e) :
    Inv (destroyEvent w e) := by
  unfold destroyEvent
  dsimp only
  rw [if_pos (h.list.count_zero hn)]
  split
  · exact h
  · exact ⟨h.fault, h.list.event (h.list.no_key hn) (h.list.not_writing hn) rfl (fun s t hs => h.list.stamp e s t hs)
      (fun ho => by cases ho)⟩

theorem move_inv {w : World V} (h : Inv w) (i : Nat) : Inv (move w i) := by
  unfold move
  split
  · exact h
  · rename_i p hp
    refine ⟨h.fault, ?_⟩
    have h1 := (h.list.append_null null_blank).perm ((set_perm hp {}).1.cons _)
    refine h1.perm ?_
    refine List.Perm.trans (List.Perm.swap _ _ _) ?_
    refine List.Perm.trans ((set_perm hp {}).2.symm.cons p) ?_
    exact List.perm_append_comm (l₁ := [p])

theorem assign_perm {L : List Ptr} {i j : Nat} {p q : Ptr} (hp : L[i]? = some p) (hq : L[j]? = some q) :
    ((L.set i q).set j p).Perm L := by
  obtain ⟨hi, rfl⟩ := List.getElem?_eq_some_iff.mp hp
  obtain ⟨hj, rfl⟩ := List.getElem?_eq_some_iff.mp hq
  exact List.set_set_perm hi hj

theorem assign_inv {w : World V} (h : Inv w) (i j : Nat) : Inv (assign w i j) := by
  unfold assign
  split
  · rename_i p q hp hq
    exact ⟨h.fault, h.list.perm (assign_perm hp hq).symm⟩
  · exact h

theorem call_inv {w v : World V} (h : Inv w) (hv : Inv v) (e : Nat) : Inv (call w e v) := by
  unfold call; split <;> assumption

theorem step_inv {w : World V} (h : Inv w) {x : Step V} (ht : Tidy w x) : Inv (step w x) := by
  unfold step
  rw [h.fault]
  simp only [Option.isSome_none, Bool.false_eq_true, if_false]
  cases x with
  | allocate e pick => exact call_inv h (finish_inv (allocate_inv h e pick)) e
  | move i => exact move_inv h i
  | assign i j => exact assign_inv h i j
  | reset i => exact reset_inv h i
  | drop i => exact drop_inv h i
  | write i x =>
    obtain ⟨p, e, hp, hh⟩ := ht
    obtain ⟨s, ho⟩ := h.list.of_holds (mem_of_get hp) hh
    exact write_inv h hp ho x
  | send e i =>
    obtain ⟨p, hp, hh⟩ := ht
    exact call_inv h (finish_inv (send_inv h hp hh)) e
  | sendCopy e x pick => exact call_inv h (finish_inv (sendCopy_inv h e x pick)) e
  | offer e fresh => exact offer_inv h e fresh
  | stopOffer e => exact stopOffer_inv h ht
  | destroyEvent e => exact destroyEvent_inv h ht

theorem init_inv (size : Nat → Nat) : Inv (run size ([] : List (Step V))) :=
  ⟨rfl, ⟨fun p hp => (by cases hp), List.nodup_nil, fun e s hs => (by simp [run] at hs), fun e => rfl,
    fun e s t hs => (by simp [run] at hs), fun e ho => (by cases ho)⟩⟩

theorem run_inv {size : Nat → Nat} {l : List (Step V)} (h : AllTidy size l) : Inv (run size l) := by
  suffices H : ∀ n a, a.length = n → (∃ b, l = a ++ b) → Inv (run size a) from H _ l rfl ⟨[], by simp⟩
  intro n
  induction n with
  | zero =>
    intro a ha _
    rw [List.length_eq_zero_iff.mp ha]; exact init_inv size
  | succ n ih =>
    intro a ha hb
    obtain ⟨b, hb⟩ := hb
    have hne : a ≠ [] := by rintro rfl; simp at ha
    have hal := List.dropLast_concat_getLast hne
    have hl : l = a.dropLast ++ a.getLast hne :: b := by rw [List.append_cons, hal]; exact hb
    have hi : Inv (run size a.dropLast) := ih a.dropLast (by simp [ha]) ⟨_, hl⟩
    have hx : Tidy (run size a.dropLast) (a.getLast hne) := h _ _ _ hl
    have : run size a = step (run size a.dropLast) (a.getLast hne) := by
      conv => lhs; rw [← hal]
      simp [run, List.foldl_append]
    rw [this]
    exact step_inv hi hx

end Verif.AllocPtr
