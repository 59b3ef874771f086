import Verif.Proofs.AllocPtr

/-! The tracker of an event counts the pointers, whatever the provider does. -/
namespace Verif.AllocPtr
open Verif.Spec.AllocPtr

variable {V : Type}

structure TrkL (c : Nat → Nat) (a : Nat → Bool) (L : List Ptr) : Prop where
  count : ∀ e, c e = L.countP (fun p => p.guard == some e)
  pair : ∀ p ∈ L, ∀ e, Holds p e ↔ p.guard = some e
  live : ∀ p ∈ L, ∀ e, p.guard = some e → a e = true

def Trk (w : World V) : Prop := TrkL (fun e => (w.events e).count) (fun e => (w.events e).live) w.ptrs

theorem TrkL.perm {c : Nat → Nat} {a : Nat → Bool} {L L' : List Ptr} (h : TrkL c a L) (hp : L.Perm L') : TrkL c a L' :=
  ⟨fun e => by rw [h.count e, hp.countP_eq], fun p hm => h.pair p (hp.mem_iff.mpr hm),
    fun p hm => h.live p (hp.mem_iff.mpr hm)⟩

theorem empty_blank : Empty {} := not_holds_null null_blank

theorem empty_cleared (p : Ptr) : Empty p.cleared := by
  rintro e ⟨b, m, s, h1, h2⟩
  cases hb : p.bin with
  | none => simp [Ptr.cleared, hb] at h1
  | some b' =>
    simp only [Ptr.cleared, hb, Option.map_some, Option.some.injEq] at h1
    subst h1
    cases h2

theorem TrkL.release {c c' : Nat → Nat} {a : Nat → Bool} {p q : Ptr} {R : List Ptr} (h : TrkL c a (p :: R))
    (hq : q.guard = none) (he : Empty q) (hc : ∀ x, c x = c' x + if p.guard = some x then 1 else 0) :
    TrkL c' a (q :: R) := by
  refine ⟨fun x => ?_, fun r hr x => ?_, fun r hr x hx => ?_⟩
  · have h1 := h.count x
    rw [List.countP_cons, hc x] at h1
    rw [List.countP_cons, hq]
    simp only [beq_iff_eq] at h1 ⊢
    split at h1 <;> simp_all
  · rcases List.mem_cons.mp hr with rfl | hr
    · rw [hq]; exact ⟨fun hx => absurd hx (he x), fun hx => by cases hx⟩
    · exact h.pair r (List.mem_cons_of_mem _ hr) x
  · rcases List.mem_cons.mp hr with rfl | hr
    · rw [hq] at hx; cases hx
    · exact h.live r (List.mem_cons_of_mem _ hr) x hx

theorem TrkL.blank {c : Nat → Nat} {a : Nat → Bool} {L : List Ptr} (h : TrkL c a L) : TrkL c a (({} : Ptr) :: L) := by
  refine ⟨fun x => ?_, fun r hr x => ?_, fun r hr x hx => ?_⟩
  · rw [List.countP_cons, h.count x]; simp
  · rcases List.mem_cons.mp hr with rfl | hr
    · exact ⟨fun hx => absurd hx (empty_blank x), fun hx => by cases hx⟩
    · exact h.pair r hr x
  · rcases List.mem_cons.mp hr with rfl | hr
    · cases hx
    · exact h.live r hr x hx

/-- The second world comes from the first, and a guard has gone. -/
def Eff (w w' : World V) (g : Option Nat) : Prop :=
  w'.fault = none → w.fault = none ∧ w'.ptrs = w.ptrs ∧ (∀ x, (w'.events x).live = (w.events x).live) ∧
    ∀ x, (w.events x).count = (w'.events x).count + if g = some x then 1 else 0

theorem eff_refl (w : World V) : Eff w w none := fun h => ⟨h, rfl, fun _ => rfl, fun _ => by simp⟩

theorem eff_fail (w : World V) (f : Fault) (g : Option Nat) : Eff w (w.fail f) g := fun h => by cases h

theorem eff_set {w : World V} {e : Nat} {v : Event V} (hl : v.live = (w.events e).live)
    (hc : v.count = (w.events e).count) : Eff w (w.setEvent e v) none := by
  refine fun h => ⟨h, rfl, fun x => ?_, fun x => ?_⟩
  · simp only [World.setEvent]; split
    · rename_i hx; subst hx; exact hl
    · rfl
  · simp only [World.setEvent]; split
    · rename_i hx; subst hx; simp [hc]
    · simp

theorem eff_then {w w1 : World V} {f : World V → World V} {g g' : Option Nat} (h1 : Eff w w1 g) (h2 : Eff w1 (f w1) g')
    (hg : g = none ∨ g' = none) : Eff w (w1.andThen f) (g.or g') := by
  intro h
  unfold World.andThen at h ⊢
  split at h
  · rename_i hf; rw [h] at hf; cases hf
  · rename_i hf
    rw [if_neg hf]
    obtain ⟨a1, a2, a3, a4⟩ := h2 h
    obtain ⟨b1, b2, b3, b4⟩ := h1 a1
    refine ⟨b1, a2.trans b2, fun x => (a3 x).trans (b3 x), fun x => ?_⟩
    rw [b4 x, a4 x]
    rcases hg with rfl | rfl
    · by_cases hx : g' = some x <;> simp [hx]
    · simp

theorem eff_discard (w : World V) (e s : Nat) : Eff w (discard w e s) none := by
  unfold discard
  dsimp only
  split
  · exact eff_fail _ _ _
  · split
    · exact eff_fail _ _ _
    · exact eff_set rfl rfl
    · exact eff_refl w

theorem eff_internal (w : World V) (b : Option Binding) : Eff w (dropInternal w b) none := by
  unfold dropInternal
  split
  · exact eff_refl w
  · unfold dropBinding
    split
    · exact eff_refl w
    · split
      · exact eff_fail _ _ _
      · exact eff_discard _ _ _

theorem eff_guard (w : World V) (g : Option Nat) : Eff w (dropGuard w g) g := by
  unfold dropGuard
  split
  · exact eff_refl w
  · rename_i e
    dsimp only
    split
    · exact eff_fail _ _ _
    · split
      · exact eff_fail _ _ _
      · rename_i hc
        refine fun h => ⟨h, rfl, fun x => ?_, fun x => ?_⟩
        · simp only [World.setEvent]; split
          · rename_i hx; subst hx; rfl
          · rfl
        · simp only [World.setEvent]
          by_cases hx : x = e
          · subst hx; simp; omega
          · have : e ≠ x := fun h => hx h.symm
            simp [hx, this]

theorem eff_destroy (w : World V) (p : Ptr) : Eff w (destroyPtr w p) p.guard := by
  have := eff_then (eff_guard w p.guard) (f := fun w => dropInternal w p.bin) (eff_internal _ p.bin) (Or.inr rfl)
  rwa [Option.or_none] at this

theorem eff_reset (w : World V) (p : Ptr) : Eff w (resetPtr w p) p.guard := by
  have := eff_then (eff_internal w p.bin) (f := fun w => dropGuard w p.guard) (eff_guard _ p.guard) (Or.inl rfl)
  rwa [Option.none_or] at this

theorem eff_ready (w : World V) (e : Nat) (b : Option Binding) : Eff w (ready w e b) none := by
  unfold ready
  split
  · exact eff_fail _ _ _
  · split
    · exact eff_fail _ _ _
    · dsimp only
      split
      · exact eff_set rfl rfl
      · exact eff_fail _ _ _

theorem eff_write (w : World V) (i : Nat) (x : V) : Eff w (write w i x) none := by
  unfold write
  split
  · exact eff_refl w
  · split
    · exact eff_fail _ _ _
    · split
      · exact eff_fail _ _ _
      · dsimp only
        split
        · exact eff_set rfl rfl
        · exact eff_fail _ _ _

theorem trk_eff {w w' : World V} (h : Trk w) (he : Eff w w' none) (hf : w'.fault = none) : Trk w' := by
  obtain ⟨_, h2, h3, h4⟩ := he hf
  unfold Trk
  rw [h2]
  refine ⟨fun e => ?_, h.pair, fun p hp e hg => (h3 e).trans (h.live p hp e hg)⟩
  have := h4 e
  simp only [reduceCtorEq, if_false, Nat.add_zero] at this
  rw [← this]; exact h.count e

/-- A variable gives its pointer up. -/
theorem trk_gone {w w' : World V} {i : Nat} {p q : Ptr} (h : Trk w) (hp : w.ptrs[i]? = some p)
    (hq : q.guard = none) (hE : Empty q) (he : Eff (w.put i q) w' p.guard) (hf : w'.fault = none) : Trk w' := by
  obtain ⟨_, h2, h3, h4⟩ := he hf
  have h1 := (TrkL.perm h (set_perm hp q).1).release (q := q) (c' := fun e => (w'.events e).count) hq hE h4
  unfold Trk
  rw [h2]
  have h5 := h1.perm (set_perm hp q).2.symm
  exact ⟨h5.count, h5.pair, fun r hr e hg => (h3 e).trans (h5.live r hr e hg)⟩

theorem send_trk {w : World V} (h : Trk w) (e i : Nat) (hf : (send w e i).1.fault = none) : Trk (send w e i).1 := by
  unfold send at hf ⊢
  split at hf
  · exact h
  · rename_i p hp
    dsimp only at hf ⊢
    split at hf
    · rename_i ho
      rw [if_pos ho]
      exact trk_gone h hp rfl empty_blank (eff_destroy _ p) hf
    · rename_i ho
      rw [if_neg ho]
      refine trk_gone h hp rfl empty_blank ?_ hf
      have := eff_then (eff_ready (w.put i {}) e p.bin) (f := fun w => destroyPtr w p) (eff_destroy _ p) (Or.inl rfl)
      rwa [Option.none_or] at this

theorem allocate_trk {w : World V} (h : Trk w) (e : Nat) (hl : (w.events e).live = true) (pick : Option Nat) :
    Trk (allocate w e pick).1 := by
  rcases allocate_cases w e pick with h1 | ⟨s, h1, h2, h3⟩
  · rw [h1.1]; exact h
  · rw [h3]
    refine TrkL.perm (L := newPtr e (w.events e).memory s :: w.ptrs) ⟨fun x => ?_, fun r hr x => ?_, fun r hr x hx => ?_⟩
      (List.perm_append_comm (l₁ := [_]) (l₂ := w.ptrs))
    · rw [List.countP_cons, ← h.count x]
      simp only [World.setEvent]
      by_cases hx : x = e
      · subst hx; simp [newPtr]
      · have : e ≠ x := fun h => hx h.symm
        simp [newPtr, hx, this]
    · rcases List.mem_cons.mp hr with rfl | hr
      · constructor
        · rintro ⟨b, m, s', h4, h5⟩
          injection h4 with h4
          subst h4
          injection h5 with h5
          injection h5 with h5 _
          subst h5
          rfl
        · intro hx
          injection hx with hx
          subst hx
          exact ⟨_, _, _, rfl, rfl⟩
      · exact h.pair r hr x
    · have hsame : ((w.setEvent e { w.events e with
          slots := (w.events e).slots.set s .writing, count := (w.events e).count + 1 }).events x).live =
          (w.events x).live := by
        simp only [World.setEvent]; split
        · rename_i hxe; subst hxe; rfl
        · rfl
      refine hsame.trans ?_
      rcases List.mem_cons.mp hr with rfl | hr
      · injection hx with hx; subst hx; exact hl
      · exact h.live r hr x hx

theorem allocate_fault (w : World V) (e : Nat) (pick : Option Nat) : (allocate w e pick).1.fault = w.fault := by
  rcases allocate_cases w e pick with h1 | ⟨s, h1, h2, h3⟩
  · rw [h1.1]
  · rw [h3]; rfl

theorem sendCopy_trk {w : World V} (h : Trk w) (e : Nat) (hl : (w.events e).live = true) (x : V) (pick : Option Nat)
    (hf : (sendCopy w e x pick).1.fault = none) : Trk (sendCopy w e x pick).1 := by
  have ha := allocate_trk h e hl pick
  unfold sendCopy at hf ⊢
  split at hf
  · rename_i w' he
    rw [he] at ha
    dsimp only at hf ⊢
    unfold World.andThen at hf ⊢
    split at hf
    · rename_i hs; rw [hf] at hs; cases hs
    · rename_i hs
      rw [if_neg hs]
      have hwf : (write w' w.ptrs.length x).fault = none := by simpa using hs
      exact send_trk (trk_eff ha (eff_write _ _ _) hwf) _ _ hf
  · rename_i w' r hr he
    rw [he] at ha
    exact ha

theorem finish_trk {w : World V} {r : Ret} (h : w.fault = none → Trk w) (hf : (finish (w, r)).fault = none) :
    Trk (finish (w, r)) := by
  unfold finish at hf ⊢
  dsimp only at hf ⊢
  split at hf
  · rename_i hs; rw [hf] at hs; cases hs
  · rename_i hs
    rw [if_neg hs]
    exact h (by simpa using hs)

theorem call_trk {w v : World V} {e : Nat} (h : Trk w) (hv : (w.events e).live = true → v.fault = none → Trk v)
    (hf : (call w e v).fault = none) : Trk (call w e v) := by
  unfold call at hf ⊢
  split at hf
  · rename_i hl; rw [if_pos hl]; exact hv hl hf
  · rename_i hl; rw [if_neg hl]; exact h

theorem destroyEvent_trk {w : World V} (h : Trk w) (e : Nat) (hf : (destroyEvent w e).fault = none) :
    Trk (destroyEvent w e) := by
  unfold destroyEvent at hf ⊢
  dsimp only at hf ⊢
  split
  · exact h
  · split
    · rename_i hc
      refine ⟨fun x => ?_, h.pair, fun p hp x hg => ?_⟩
      · refine Eq.trans ?_ (h.count x)
        simp only [World.setEvent]; split
        · rename_i hx; subst hx; rfl
        · rfl
      · have hx : x ≠ e := by
          rintro rfl
          have := h.count x
          rw [hc] at this
          exact List.countP_eq_zero.mp this.symm p hp (by simp [hg])
        simp only [World.setEvent, hx, if_false]
        exact h.live p hp x hg
    · rename_i hl hc
      rw [if_neg hl, if_neg hc] at hf
      cases hf

theorem step_trk {w : World V} (h : Trk w) (x : Step V) (hf : (step w x).fault = none) : Trk (step w x) := by
  unfold step at hf ⊢
  split at hf
  · rename_i hs; rw [if_pos hs]; exact h
  rename_i hs
  rw [if_neg hs]
  cases x with
  | allocate e pick =>
    exact call_trk h (fun hl hv => finish_trk (fun _ => allocate_trk h e hl pick) hv) hf
  | move i =>
    dsimp only at hf ⊢
    unfold move at hf ⊢
    split
    · exact h
    · rename_i p hp
      have h1 := (TrkL.blank h).perm ((set_perm hp {}).1.cons _)
      refine h1.perm ?_
      refine List.Perm.trans (List.Perm.swap _ _ _) ?_
      refine List.Perm.trans ((set_perm hp {}).2.symm.cons p) ?_
      exact List.perm_append_comm (l₁ := [p])
  | assign i j =>
    dsimp only at hf ⊢
    unfold assign at hf ⊢
    split
    · rename_i p q hp hq
      exact TrkL.perm h (assign_perm hp hq).symm
    · exact h
  | reset i =>
    dsimp only at hf ⊢
    unfold reset at hf ⊢
    split at hf
    · exact h
    · rename_i p hp
      exact trk_gone h hp rfl (empty_cleared p) (eff_reset _ p) hf
  | drop i =>
    dsimp only at hf ⊢
    unfold drop at hf ⊢
    split at hf
    · exact h
    · rename_i p hp
      exact trk_gone h hp rfl empty_blank (eff_destroy _ p) hf
  | write i x => exact trk_eff h (eff_write w i x) hf
  | send e i => exact call_trk h (fun _ hv => finish_trk (fun h2 => send_trk h e i h2) hv) hf
  | sendCopy e x pick => exact call_trk h (fun hl hv => finish_trk (fun h2 => sendCopy_trk h e hl x pick h2) hv) hf
  | offer e fresh =>
    dsimp only at hf ⊢
    unfold offer at hf ⊢
    dsimp only at hf ⊢
    split
    · exact h
    · exact trk_eff h (eff_set rfl rfl) (by simpa [World.setEvent] using hs)
  | stopOffer e =>
    dsimp only at hf ⊢
    unfold stopOffer at hf ⊢
    dsimp only at hf ⊢
    split
    · exact trk_eff h (eff_set rfl rfl) (by simpa [World.setEvent] using hs)
    · exact h
  | destroyEvent e => exact destroyEvent_trk h e hf

theorem step_fault {w : World V} {x : Step V} (h : (step w x).fault = none) : w.fault = none := by
  unfold step at h
  split at h
  · exact h
  · rename_i hs; simpa using hs

theorem foldl_trk (l : List (Step V)) (w : World V) (h : Trk w) (hf : (l.foldl step w).fault = none) :
    Trk (l.foldl step w) ∧ w.fault = none := by
  induction l generalizing w with
  | nil => exact ⟨h, hf⟩
  | cons x l ih =>
    by_cases h1 : (step w x).fault = none
    · exact ⟨(ih (step w x) (step_trk h x h1) hf).1, step_fault h1⟩
    · exfalso
      have : ∀ (l : List (Step V)) (v : World V), v.fault ≠ none → (l.foldl step v).fault ≠ none := by
        intro l
        induction l with
        | nil => exact fun v h => h
        | cons y l ih => exact fun v h => ih (step v y) fun h2 => h (step_fault h2)
      exact this l _ h1 hf

theorem run_trk {size : Nat → Nat} {l : List (Step V)} (hf : (run size l).fault = none) : Trk (run size l) :=
  (foldl_trk l _ ⟨fun _ => rfl, fun p hp => (by cases hp), fun p hp => (by cases hp)⟩ hf).1

/-! The content of a reserved slot. -/

theorem set_data {w : World V} {e x : Nat} {v : Event V} {n : Nat} (h : v.data n = (w.events e).data n ∨ x ≠ e) :
    ((w.setEvent e v).events x).data n = (w.events x).data n := by
  simp only [World.setEvent]
  split
  · rename_i hx
    subst hx
    rcases h with h | h
    · exact h
    · exact absurd rfl h
  · rfl

theorem finish_events (w : World V) (r : Ret) : (finish (w, r)).events = w.events := by
  unfold finish; dsimp only; split <;> rfl

theorem step_data {w : World V} (h : Inv w) {e s : Nat} (hs : (w.events e).slots[s]? = some .writing) {x : Step V}
    (ht : Tidy w x) (hw : ∀ i v, x = .write i v → ∀ p m, w.ptrs[i]? = some p → ¬ At p e m s) :
    ((step w x).events e).data s = (w.events e).data s := by
  have hoff : (w.events e).offered = true := by
    obtain ⟨p, hp, hk⟩ := List.mem_filterMap.mp (h.list.held e s hs)
    rcases h.list.ok p hp with h1 | ⟨e', s', h1⟩
    · rw [key_null h1] at hk; cases hk
    · rw [key_of_owned h1] at hk
      injection hk with hk
      injection hk with hk _
      subst hk
      exact h1.2.2.1
  unfold step
  rw [h.fault]
  simp only [Option.isSome_none, Bool.false_eq_true, if_false]
  have hcall : ∀ (e' : Nat) (v : World V), (v.events e).data s = (w.events e).data s →
      ((call w e' v).events e).data s = (w.events e).data s := by
    intro e' v hv; unfold call; split
    · exact hv
    · rfl
  cases x with
  | allocate e' pick =>
    apply hcall
    rw [finish_events]
    rcases allocate_cases w e' pick with h1 | ⟨s', h1, h2, h3⟩
    · rw [h1.1]
    · rw [h3]; exact set_data (Or.inl rfl)
  | move i =>
    dsimp only
    unfold move; split <;> rfl
  | assign i j =>
    dsimp only
    unfold assign; split <;> rfl
  | reset i =>
    dsimp only
    unfold reset
    split
    · rfl
    · rename_i p hp
      rcases h.list.ok p (mem_of_get hp) with h1 | ⟨e', s', h1⟩
      · rw [reset_null h1 (show (w.put i p.cleared).fault = none from h.fault)]; rfl
      · rw [reset_owned (w := w.put i p.cleared) h.fault h1 (h.list.count_ne (mem_of_get hp) h1)]
        exact set_data (w := w.put i p.cleared) (Or.inl rfl)
  | drop i =>
    dsimp only
    unfold drop
    split
    · rfl
    · rename_i p hp
      rcases h.list.ok p (mem_of_get hp) with h1 | ⟨e', s', h1⟩
      · rw [destroy_null h1 (show (w.put i {}).fault = none from h.fault)]; rfl
      · rw [destroy_owned (w := w.put i {}) h.fault h1 (h.list.count_ne (mem_of_get hp) h1)]
        exact set_data (w := w.put i {}) (Or.inl rfl)
  | write i v =>
    obtain ⟨p, e', hp, hh⟩ := ht
    obtain ⟨s', ho⟩ := h.list.of_holds (mem_of_get hp) hh
    dsimp only
    rw [write_eq hp ho]
    refine set_data ?_
    by_cases he : e = e'
    · subst he
      left
      have : s ≠ s' := by
        rintro rfl
        refine hw i v rfl p (w.events e).memory hp ?_
        rw [ho.1]; exact ⟨_, rfl, rfl⟩
      simp [this]
    · exact Or.inr he
  | send e' i =>
    obtain ⟨p, hp, hh⟩ := ht
    obtain ⟨s', ho⟩ := h.list.of_holds (mem_of_get hp) hh
    apply hcall
    rw [send_eq h hp ho, finish_events]
    exact set_data (w := w.put i {}) (Or.inl rfl)
  | sendCopy e' v pick =>
    apply hcall
    rcases allocate_cases w e' pick with h1 | ⟨s', h1, h2, h3⟩
    · have : sendCopy w e' v pick = allocate w e' pick := by
        unfold sendCopy
        split
        · rename_i w' he; rw [he] at h1; exact absurd rfl h1.2
        · rename_i he; exact he.symm
      rw [this, finish_events, h1.1]
    · obtain ⟨w', h4, _, _, _, h5⟩ := sendCopy_eq h v h1 h2
      rw [h4, finish_events, h5]
      refine set_data (w := w) ?_
      by_cases he : e = e'
      · subst he
        left
        obtain ⟨_, y, hy, hy2⟩ := takes_some h1
        have : s ≠ s' := by
          rintro rfl
          rw [hs] at hy
          injection hy with hy
          exact hy2 hy.symm
        simp [this]
      · exact Or.inr he
  | offer e' fresh =>
    dsimp only
    unfold offer
    dsimp only
    split
    · rfl
    · rename_i hc
      refine set_data (Or.inr ?_)
      rintro rfl
      rw [hoff] at hc
      simp at hc
  | stopOffer e' =>
    dsimp only
    unfold stopOffer
    dsimp only
    split
    · exact set_data (Or.inl rfl)
    · rfl
  | destroyEvent e' =>
    dsimp only
    unfold destroyEvent
    dsimp only
    split
    · rfl
    · split
      · exact set_data (Or.inl rfl)
      · rfl

/-! A check that concrete programs are tidy. -/

def holdsB (p : Ptr) (e : Nat) : Bool :=
  match p.bin.bind Binding.obj with
  | some (x, _, _) => x == e
  | none => false

theorem holdsB_iff (p : Ptr) (e : Nat) : holdsB p e = true ↔ Holds p e := by
  unfold holdsB Holds
  cases hb : p.bin with
  | none => simp
  | some b =>
    cases ho : b.obj with
    | none => simp [ho]
    | some o =>
      obtain ⟨x, m, s⟩ := o
      simp only [Option.bind_some, ho, beq_iff_eq, Option.some.injEq]
      constructor
      · rintro rfl; exact ⟨b, m, s, rfl, ho⟩
      · rintro ⟨b', m', s', rfl, h2⟩
        rw [ho] at h2
        injection h2 with h2
        injection h2

def tidyB (w : World V) : Step V → Bool
  | .stopOffer e => w.ptrs.all fun p => !holdsB p e
  | .destroyEvent e => w.ptrs.all fun p => !holdsB p e
  | .send e i => (w.ptrs[i]?).any fun p => holdsB p e
  | .write i _ => (w.ptrs[i]?).any fun p => (p.bin.bind Binding.obj).isSome
  | _ => true

theorem any_some {o : Option Ptr} {f : Ptr → Bool} (h : o.any f = true) : ∃ p, o = some p ∧ f p = true := by
  cases o with
  | none => cases h
  | some p => exact ⟨p, rfl, h⟩

theorem tidyB_tidy {w : World V} {x : Step V} (h : tidyB w x = true) : Tidy w x := by
  cases x with
  | stopOffer e =>
    intro p hp hh
    have := List.all_eq_true.mp h p hp
    rw [(holdsB_iff p e).mpr hh] at this; cases this
  | destroyEvent e =>
    intro p hp hh
    have := List.all_eq_true.mp h p hp
    rw [(holdsB_iff p e).mpr hh] at this; cases this
  | send e i =>
    obtain ⟨p, hp, hh⟩ := (any_some h)
    exact ⟨p, hp, (holdsB_iff p e).mp hh⟩
  | write i v =>
    obtain ⟨p, hp, hh⟩ := (any_some h)
    obtain ⟨o, ho⟩ := Option.isSome_iff_exists.mp hh
    obtain ⟨b, hb, ho⟩ := Option.bind_eq_some_iff.mp ho
    obtain ⟨e, m, s⟩ := o
    exact ⟨p, e, hp, b, m, s, hb, ho⟩
  | _ => trivial

def allTidyB (w : World V) : List (Step V) → Bool
  | [] => true
  | x :: l => tidyB w x && allTidyB (step w x) l

theorem allTidyB_tidy {size : Nat → Nat} {l : List (Step V)} (h : allTidyB (run size []) l = true) : AllTidy size l := by
  suffices H : ∀ (l a b : List (Step V)) (x : Step V) (w : World V), allTidyB w l = true → l = a ++ x :: b →
      Tidy (a.foldl step w) x from fun a x b hl => H l a b x _ h hl
  intro l
  induction l with
  | nil => intro a b x w _ hl; simp at hl
  | cons y l ih =>
    intro a b x w hw hl
    simp only [allTidyB, Bool.and_eq_true] at hw
    cases a with
    | nil =>
      injection hl with h1 h2
      subst h1
      exact tidyB_tidy hw.1
    | cons z a =>
      injection hl with h1 h2
      subst h1
      exact ih a b x _ hw.2 h2

end Verif.AllocPtr
