import Verif.Spec.FieldRace

namespace Verif.FieldRace
open Verif.FieldRaceSpec
variable {V : Type}

section goto
variable (s : St V) (b : Bool) (p : WPc V)
@[simp] theorem goto_n : (s.goto b p).n = s.n := by cases b <;> rfl
@[simp] theorem goto_slots : (s.goto b p).slots = s.slots := by cases b <;> rfl
@[simp] theorem goto_data : (s.goto b p).data = s.data := by cases b <;> rfl
@[simp] theorem goto_cur : (s.goto b p).cur = s.cur := by cases b <;> rfl
@[simp] theorem goto_get : (s.goto b p).get = s.get := by cases b <;> rfl
@[simp] theorem goto_held : (s.goto b p).held = s.held := by cases b <;> rfl
@[simp] theorem goto_sent : (s.goto b p).sent = s.sent := by cases b <;> rfl
@[simp] theorem goto_before : (s.goto b p).before = s.before := by cases b <;> rfl
@[simp] theorem goto_gets : (s.goto b p).gets = s.gets := by cases b <;> rfl
@[simp] theorem goto_pc_same : (s.goto b p).pc b = p := by cases b <;> rfl
theorem goto_pc_other (c : Bool) (h : c ≠ b) : (s.goto b p).pc c = s.pc c := by
  cases b <;> cases c <;> first | rfl | exact absurd rfl h
end goto

@[simp] theorem put_same {α : Type} (f : Nat → α) (i : Nat) (a : α) : put f i a i = a := by simp [put]
theorem put_other {α : Type} (f : Nat → α) (i j : Nat) (a : α) (h : j ≠ i) : put f i a j = f j := by simp [put, h]

theorem run_append (s : St V) (a b : List (Op V)) : run s (a ++ b) = run (run s a) b := List.foldl_append ..
theorem run_cons (s : St V) (o : Op V) (b : List (Op V)) : run s (o :: b) = run (step s o) b := rfl
theorem run_snoc (s : St V) (a : List (Op V)) (o : Op V) : run s (a ++ [o]) = step (run s a) o := List.foldl_append ..

/-- The `Get` has a reference of slot `i`. -/
def GPc.holds : GPc V → Nat → Nat
  | .copy j _, i => if i = j then 1 else 0
  | .release j _ _, i => if i = j then 1 else 0
  | _, _ => 0

/-- The `Send` writes to slot `i`. -/
def WPc.owns : WPc V → Nat → Prop
  | .write _ j, i => i = j
  | .load _ j, i => i = j
  | .store _ j _, i => i = j
  | .reload _ j, i => i = j
  | .ready _ j _, i => i = j
  | _, _ => False

/-- The status can be allocated. -/
def W.unused (w : W) : Prop := w = .invalid ∨ ∃ t, w = .ready t 0

/-- What the local variables of a `Send` have to do with the slots. -/
def WPc.fine (p : WPc V) (n : Nat) (data : Nat → V) : Prop :=
  match p with
  | .find _ _ _ (some (i, w)) => i < n ∧ w.unused
  | .cas _ _ i w => i < n ∧ w.unused
  | .load v i => data i = v
  | .store v i _ => data i = v
  | .reload v i => data i = v
  | .ready v i _ => data i = v
  | _ => True

/-- What the local variables of a `Get` have to do with the slots. -/
def GPc.fine (p : GPc V) (n : Nat) (slots : Nat → W) (sent : List (Nat × V)) : Prop :=
  match p with
  | .find _ _ (some (i, _, _)) => i < n
  | .cas _ i _ _ => i < n
  | .copy i ts => ∃ rc, slots i = .ready ts (rc + 1)
  | .release i ts v => (∃ rc, slots i = .ready ts (rc + 1)) ∧ (ts, v) ∈ sent
  | _ => True

/-- Holds after every schedule. -/
structure Good (s : St V) : Prop where
  rc : ∀ i ts rc, s.slots i = .ready ts rc → rc = s.held i + s.get.holds i
  none : ∀ i, (∀ ts rc, s.slots i ≠ .ready ts rc) → s.held i = 0
  sent : ∀ i ts rc, s.slots i = .ready ts rc → (ts, s.data i) ∈ s.sent
  own : ∀ b i, (s.pc b).owns i → s.slots i = .writing
  owned : ∀ i, s.slots i = .writing → ∃ b, (s.pc b).owns i
  one : ∀ i, (s.pc false).owns i → (s.pc true).owns i → False
  fine : ∀ b, (s.pc b).fine s.n s.data
  gfine : s.get.fine s.n s.slots s.sent
  gets : ∀ g ∈ s.gets, ∀ ts v, g.ans = .value ts v → (ts, v) ∈ g.after
  gets' : ∀ g ∈ s.gets, ∀ ts v, g.ans = .value ts v → (ts, v) ∈ s.sent
  out : ∀ i, s.n ≤ i → s.slots i = .invalid

theorem good_start (n : Nat) (v0 : V) : Good (start n v0) where
  rc := by intro i ts rc h; cases h
  none := fun _ _ => rfl
  sent := by intro i ts rc h; cases h
  own := by intro b i h; cases b <;> cases h
  owned := by intro i h; cases h
  one := by intro i h; cases h
  fine := by intro b; cases b <;> trivial
  gfine := trivial
  gets := by intro g h; cases h
  gets' := by intro g h; cases h
  out := fun _ _ => rfl

/-- A step of a `Send` that only changes where it is. -/
theorem good_goto {s : St V} (h : Good s) (b : Bool) (p : WPc V) (ho : ∀ i, p.owns i ↔ (s.pc b).owns i)
    (hf : p.fine s.n s.data) : Good (s.goto b p) where
  rc := by simpa using h.rc
  none := by simpa using h.none
  sent := by simpa using h.sent
  own := by
    intro c i hc
    rw [goto_slots]
    by_cases e : c = b
    · subst e; rw [goto_pc_same] at hc; exact h.own c i ((ho i).1 hc)
    · rw [goto_pc_other _ _ _ _ e] at hc; exact h.own c i hc
  owned := by
    intro i hi
    rw [goto_slots] at hi
    obtain ⟨c, hc⟩ := h.owned i hi
    refine ⟨c, ?_⟩
    by_cases e : c = b
    · subst e; rw [goto_pc_same]; exact (ho i).2 hc
    · rw [goto_pc_other _ _ _ _ e]; exact hc
  one := by
    intro i h1 h2
    refine h.one i ?_ ?_
    · cases b
      · rw [goto_pc_same] at h1; exact (ho i).1 h1
      · rw [goto_pc_other _ _ _ _ (by decide)] at h1; exact h1
    · cases b
      · rw [goto_pc_other _ _ _ _ (by decide)] at h2; exact h2
      · rw [goto_pc_same] at h2; exact (ho i).1 h2
  fine := by
    intro c
    rw [goto_n, goto_data]
    by_cases e : c = b
    · subst e; rw [goto_pc_same]; exact hf
    · rw [goto_pc_other _ _ _ _ e]; exact h.fine c
  gfine := by rw [goto_get, goto_n, goto_slots, goto_sent]; exact h.gfine
  gets := by simpa using h.gets
  gets' := by simpa using h.gets'
  out := by simpa using h.out

theorem again_fine (v : V) (r n : Nat) (d : Nat → V) : (again v r).fine n d ∧ ∀ i, ¬ (again v r).owns i := by
  unfold again; split <;> exact ⟨trivial, fun _ h => h⟩

theorem findOldest_fine (n : Nat) (sl : Nat → W) (v : V) (r k : Nat) (best : Option (Nat × W)) (d : Nat → V)
    (hb : (WPc.find v r k best).fine n d) :
    (findOldest n sl v r k best).fine n d ∧ ∀ i, ¬ (findOldest n sl v r k best).owns i := by
  unfold findOldest
  split
  · rename_i hk
    split
    · exact ⟨⟨hk, .inl rfl⟩, fun _ h => h⟩
    · refine ⟨?_, fun _ h => h⟩
      cases best <;> exact hb
    · split
      · rename_i hr
        exact ⟨⟨hk, .inr ⟨_, by rw [hr.1]⟩⟩, fun _ h => h⟩
      · refine ⟨?_, fun _ h => h⟩
        cases best <;> exact hb
  · split
    · exact ⟨hb, fun _ h => h⟩
    · exact again_fine v r n d

theorem good_send {s : St V} (h : Good s) (b : Bool) : Good (s.send b) := by
  unfold St.send
  have hfb := h.fine b
  cases hp : s.pc b with
  | idle => exact h
  | find v r k best =>
    rw [hp] at hfb
    obtain ⟨h1, h2⟩ := findOldest_fine s.n s.slots v r k best s.data hfb
    exact good_goto h b _ (fun i => ⟨fun x => absurd x (h2 i), fun x => by rw [hp] at x; cases x⟩) h1
  | cas v r i w =>
    rw [hp] at hfb
    dsimp only
    by_cases e : s.slots i = w
    · rw [if_pos e]
      have hu : (s.slots i).unused := by rw [e]; exact hfb.2
      have hnw : s.slots i ≠ .writing := by
        rcases hu with hu | ⟨t, hu⟩ <;> rw [hu] <;> intro x <;> cases x
      have hno : ∀ c, ¬ (s.pc c).owns i := fun c hc => hnw (h.own c i hc)
      have hh : s.held i = 0 ∧ s.get.holds i = 0 := by
        rcases hu with hu | ⟨t, hu⟩
        · refine ⟨h.none i (fun ts rc x => by rw [hu] at x; cases x), ?_⟩
          have := h.gfine
          cases hg : s.get with
          | copy j ts =>
            rw [hg] at this; obtain ⟨rc, hrc⟩ := this
            simp only [GPc.holds]; rw [if_neg]; intro e; subst e; rw [hu] at hrc; cases hrc
          | release j ts v =>
            rw [hg] at this; obtain ⟨⟨rc, hrc⟩, _⟩ := this
            simp only [GPc.holds]; rw [if_neg]; intro e; subst e; rw [hu] at hrc; cases hrc
          | _ => rfl
        · have := h.rc i t 0 hu; omega
      constructor
      · intro j ts rc hj
        simp only [goto_slots, goto_held, goto_get] at hj ⊢
        by_cases ej : j = i
        · subst ej; rw [put_same] at hj; cases hj
        · rw [put_other _ _ _ _ ej] at hj; exact h.rc j ts rc hj
      · intro j hj
        simp only [goto_slots, goto_held] at hj ⊢
        by_cases ej : j = i
        · subst ej; exact hh.1
        · exact h.none j (fun ts rc => by have := hj ts rc; rwa [put_other _ _ _ _ ej] at this)
      · intro j ts rc hj
        simp only [goto_slots, goto_data, goto_sent] at hj ⊢
        by_cases ej : j = i
        · subst ej; rw [put_same] at hj; cases hj
        · rw [put_other _ _ _ _ ej] at hj; exact h.sent j ts rc hj
      · intro c j hc
        simp only [goto_slots]
        by_cases ej : j = i
        · subst ej; rw [put_same]
        · rw [put_other _ _ _ _ ej]
          by_cases ec : c = b
          · subst ec; rw [goto_pc_same] at hc; exact absurd hc ej
          · rw [goto_pc_other _ _ _ _ ec] at hc; exact h.own c j hc
      · intro j hj
        simp only [goto_slots] at hj
        by_cases ej : j = i
        · subst ej; exact ⟨b, by rw [goto_pc_same]; exact rfl⟩
        · rw [put_other _ _ _ _ ej] at hj
          obtain ⟨c, hc⟩ := h.owned j hj
          refine ⟨c, ?_⟩
          by_cases ec : c = b
          · subst ec; rw [hp] at hc; cases hc
          · rw [goto_pc_other _ _ _ _ ec]; exact hc
      · intro j h1 h2
        cases b
        · rw [goto_pc_same] at h1; rw [goto_pc_other _ _ _ _ (by decide)] at h2
          have : j = i := h1
          subst this; exact hno true h2
        · rw [goto_pc_same] at h2; rw [goto_pc_other _ _ _ _ (by decide)] at h1
          have : j = i := h2
          subst this; exact hno false h1
      · intro c
        by_cases ec : c = b
        · subst ec; rw [goto_pc_same]; trivial
        · rw [goto_pc_other _ _ _ _ ec, goto_n, goto_data]; exact h.fine c
      · simp only [goto_get, goto_n, goto_slots, goto_sent]
        have hg := h.gfine
        cases hgc : s.get with
        | copy j ts =>
          rw [hgc] at hg; obtain ⟨rc, hrc⟩ := hg
          refine ⟨rc, ?_⟩
          rw [put_other]; exact hrc
          intro ej; subst ej; have := hh.2; rw [hgc] at this; simp [GPc.holds] at this
        | release j ts v =>
          rw [hgc] at hg; obtain ⟨⟨rc, hrc⟩, hs⟩ := hg
          refine ⟨⟨rc, ?_⟩, hs⟩
          rw [put_other]; exact hrc
          intro ej; subst ej; have := hh.2; rw [hgc] at this; simp [GPc.holds] at this
        | find r k best => rw [hgc] at hg; cases best <;> exact hg
        | cas r i ts rc => rw [hgc] at hg; exact hg
        | idle => trivial
      · simpa using h.gets
      · simpa using h.gets'
      · intro j hj
        simp only [goto_slots, goto_n] at hj ⊢
        rw [put_other]; exact h.out j hj
        intro ej; subst ej; exact absurd hfb.1 (by omega)
    · rw [if_neg e]
      obtain ⟨h1, h2⟩ := again_fine v r s.n s.data
      exact good_goto h b _ (fun j => ⟨fun x => absurd x (h2 j), fun x => by rw [hp] at x; cases x⟩) h1
  | write v i =>
    have hw : s.slots i = .writing := h.own b i (by rw [hp]; exact rfl)
    have hother : ∀ c, c ≠ b → ¬ (s.pc c).owns i := by
      intro c hc hx
      have hb : (s.pc b).owns i := by rw [hp]; exact rfl
      cases b <;> cases c
      · exact hc rfl
      · exact h.one i hb hx
      · exact h.one i hx hb
      · exact hc rfl
    have hg : Good ({ s with data := put s.data i v } : St V) := by
      refine ⟨h.rc, h.none, ?_, h.own, h.owned, h.one, ?_, h.gfine, h.gets, h.gets', h.out⟩
      · intro j ts rc hj
        have ej : j ≠ i := by intro e; subst e; rw [hw] at hj; cases hj
        show (ts, put s.data i v j) ∈ s.sent
        rw [put_other _ _ _ _ ej]; exact h.sent j ts rc hj
      · intro c
        show (s.pc c).fine s.n (put s.data i v)
        by_cases ec : c = b
        · subst ec; rw [hp]; trivial
        · have h1 := h.fine c
          have h2 := hother c ec
          cases hc : s.pc c with
          | load u j => rw [hc] at h1 h2; show put s.data i v j = u; rw [put_other _ _ _ _ (fun e => h2 e.symm)]; exact h1
          | store u j x => rw [hc] at h1 h2; show put s.data i v j = u; rw [put_other _ _ _ _ (fun e => h2 e.symm)]; exact h1
          | reload u j => rw [hc] at h1 h2; show put s.data i v j = u; rw [put_other _ _ _ _ (fun e => h2 e.symm)]; exact h1
          | ready u j x => rw [hc] at h1 h2; show put s.data i v j = u; rw [put_other _ _ _ _ (fun e => h2 e.symm)]; exact h1
          | find u r k best => rw [hc] at h1; cases best <;> exact h1
          | cas u r j w => rw [hc] at h1; exact h1
          | write u j => trivial
          | idle => trivial
    refine good_goto hg b _ (fun j => ?_) (put_same _ _ _)
    show j = i ↔ (s.pc b).owns j
    rw [hp]; exact Iff.rfl
  | load v i =>
    rw [hp] at hfb
    exact good_goto h b _ (fun j => by rw [hp]; exact Iff.rfl) hfb
  | store v i x =>
    rw [hp] at hfb
    have hg : Good ({ s with cur := x + 1 } : St V) :=
      ⟨h.rc, h.none, h.sent, h.own, h.owned, h.one, h.fine, h.gfine, h.gets, h.gets', h.out⟩
    refine good_goto hg b _ (fun j => ?_) hfb
    show j = i ↔ (s.pc b).owns j
    rw [hp]; exact Iff.rfl
  | reload v i =>
    rw [hp] at hfb
    exact good_goto h b _ (fun j => by rw [hp]; exact Iff.rfl) hfb
  | ready v i x =>
    rw [hp] at hfb
    have hw : s.slots i = .writing := h.own b i (by rw [hp]; exact rfl)
    have hother : ∀ c, c ≠ b → ¬ (s.pc c).owns i := by
      intro c hc hx
      have hb : (s.pc b).owns i := by rw [hp]; exact rfl
      cases b <;> cases c
      · exact hc rfl
      · exact h.one i hb hx
      · exact h.one i hx hb
      · exact hc rfl
    have hheld : s.held i = 0 := h.none i (fun ts rc e => by rw [hw] at e; cases e)
    have hholds : s.get.holds i = 0 := by
      have := h.gfine
      cases hg : s.get with
      | copy j ts =>
        rw [hg] at this; obtain ⟨rc, hrc⟩ := this
        simp only [GPc.holds]; rw [if_neg]; intro e; subst e; rw [hw] at hrc; cases hrc
      | release j ts v =>
        rw [hg] at this; obtain ⟨⟨rc, hrc⟩, _⟩ := this
        simp only [GPc.holds]; rw [if_neg]; intro e; subst e; rw [hw] at hrc; cases hrc
      | _ => rfl
    dsimp only
    constructor
    · intro j ts rc hj
      simp only [goto_slots, goto_held, goto_get] at hj ⊢
      by_cases ej : j = i
      · subst ej; rw [put_same] at hj; cases hj; omega
      · rw [put_other _ _ _ _ ej] at hj; exact h.rc j ts rc hj
    · intro j hj
      simp only [goto_slots, goto_held] at hj ⊢
      by_cases ej : j = i
      · subst ej; exact hheld
      · exact h.none j (fun ts rc => by have := hj ts rc; rwa [put_other _ _ _ _ ej] at this)
    · intro j ts rc hj
      simp only [goto_slots, goto_data, goto_sent] at hj ⊢
      by_cases ej : j = i
      · subst ej; rw [put_same] at hj; cases hj
        rw [show s.data j = v from hfb]; exact List.mem_cons_self
      · rw [put_other _ _ _ _ ej] at hj; exact List.mem_cons_of_mem _ (h.sent j ts rc hj)
    · intro c j hc
      simp only [goto_slots]
      by_cases ec : c = b
      · subst ec; rw [goto_pc_same] at hc; cases hc
      · rw [goto_pc_other _ _ _ _ ec] at hc
        have ej : j ≠ i := by intro e; subst e; exact hother c ec hc
        rw [put_other _ _ _ _ ej]; exact h.own c j hc
    · intro j hj
      simp only [goto_slots] at hj
      by_cases ej : j = i
      · subst ej; rw [put_same] at hj; cases hj
      · rw [put_other _ _ _ _ ej] at hj
        obtain ⟨c, hc⟩ := h.owned j hj
        refine ⟨c, ?_⟩
        by_cases ec : c = b
        · subst ec; rw [hp] at hc; exact absurd hc ej
        · rw [goto_pc_other _ _ _ _ ec]; exact hc
    · intro j h1 h2
      cases b
      · rw [goto_pc_same] at h1; cases h1
      · rw [goto_pc_same] at h2; cases h2
    · intro c
      by_cases ec : c = b
      · subst ec; rw [goto_pc_same]; trivial
      · rw [goto_pc_other _ _ _ _ ec, goto_n, goto_data]; exact h.fine c
    · simp only [goto_get, goto_n, goto_slots, goto_sent]
      have hg := h.gfine
      cases hgc : s.get with
      | copy j ts =>
        rw [hgc] at hg; obtain ⟨rc, hrc⟩ := hg
        refine ⟨rc, ?_⟩
        rw [put_other]; exact hrc
        intro ej; subst ej; rw [hw] at hrc; cases hrc
      | release j ts v =>
        rw [hgc] at hg; obtain ⟨⟨rc, hrc⟩, hs⟩ := hg
        refine ⟨⟨rc, ?_⟩, List.mem_cons_of_mem _ hs⟩
        rw [put_other]; exact hrc
        intro ej; subst ej; rw [hw] at hrc; cases hrc
      | find r k best => rw [hgc] at hg; cases best <;> exact hg
      | cas r i ts rc => rw [hgc] at hg; exact hg
      | idle => trivial
    · simpa using h.gets
    · intro g hg ts v' ha
      simp only [goto_gets, goto_sent] at hg ⊢
      exact List.mem_cons_of_mem _ (h.gets' g hg ts v' ha)
    · intro j hj
      simp only [goto_slots, goto_n] at hj ⊢
      rw [put_other]; exact h.out j hj
      intro ej; subst ej; have := h.out j hj; rw [hw] at this; cases this

/-- A change of the references of a slot that is ready. -/
theorem good_refs {s t : St V} (h : Good s) (i ts rc rc' : Nat) (hi : s.slots i = .ready ts rc)
    (h1 : t.slots = put s.slots i (.ready ts rc')) (h2 : t.data = s.data) (h3 : t.sent = s.sent)
    (h4 : ∀ b, t.pc b = s.pc b) (h5 : t.n = s.n)
    (hr : rc' = t.held i + t.get.holds i)
    (ho : ∀ j, j ≠ i → t.held j = s.held j ∧ t.get.holds j = s.get.holds j)
    (hg : t.get.fine t.n t.slots t.sent)
    (hgets : ∀ g ∈ t.gets, ∀ ts v, g.ans = .value ts v → (ts, v) ∈ g.after)
    (hgets' : ∀ g ∈ t.gets, ∀ ts v, g.ans = .value ts v → (ts, v) ∈ t.sent) : Good t where
  rc := by
    intro j u k hj
    rw [h1] at hj
    by_cases e : j = i
    · subst e; rw [put_same] at hj; cases hj; exact hr
    · rw [put_other _ _ _ _ e] at hj; rw [(ho j e).1, (ho j e).2]; exact h.rc j u k hj
  none := by
    intro j hj
    by_cases e : j = i
    · subst e; exact absurd (by rw [h1, put_same]) (hj ts rc')
    · rw [(ho j e).1]
      refine h.none j (fun u k x => hj u k ?_)
      rw [h1, put_other _ _ _ _ e]; exact x
  sent := by
    intro j u k hj
    rw [h1] at hj; rw [h2, h3]
    by_cases e : j = i
    · subst e; rw [put_same] at hj; cases hj; exact h.sent j ts rc hi
    · rw [put_other _ _ _ _ e] at hj; exact h.sent j u k hj
  own := by
    intro b j hb
    rw [h4] at hb
    have hw := h.own b j hb
    have e : j ≠ i := by intro e; subst e; rw [hi] at hw; cases hw
    rw [h1, put_other _ _ _ _ e]; exact hw
  owned := by
    intro j hj
    rw [h1] at hj
    by_cases e : j = i
    · subst e; rw [put_same] at hj; cases hj
    · rw [put_other _ _ _ _ e] at hj
      obtain ⟨b, hb⟩ := h.owned j hj
      exact ⟨b, by rw [h4]; exact hb⟩
  one := by intro j; rw [h4, h4]; exact h.one j
  fine := by intro b; rw [h4, h5, h2]; exact h.fine b
  gfine := hg
  gets := hgets
  gets' := hgets'
  out := by
    intro j hj
    rw [h5] at hj
    have hw := h.out j hj
    have e : j ≠ i := by intro e; subst e; rw [hi] at hw; cases hw
    rw [h1, put_other _ _ _ _ e]; exact hw

/-- A change of where the `Get` is, without reference before and after. -/
theorem good_get {s : St V} (h : Good s) (p : GPc V) (bf : List (Nat × V)) (gs : List (Got V))
    (h1 : ∀ i, s.get.holds i = 0) (h2 : ∀ i, p.holds i = 0) (h3 : p.fine s.n s.slots s.sent)
    (hg : gs = s.gets ∨ ∃ bf' a, gs = ⟨bf', s.sent, a⟩ :: s.gets ∧ ∀ ts v, a ≠ .value ts v) :
    Good ({ s with get := p, before := bf, gets := gs } : St V) := by
  refine ⟨?_, h.none, h.sent, h.own, h.owned, h.one, h.fine, h3, ?_, ?_, h.out⟩
  · intro i ts rc hi
    have := h.rc i ts rc hi
    rw [h1 i] at this
    show rc = s.held i + p.holds i
    rw [h2 i]; exact this
  · intro g hgm ts v ha
    replace hgm : g ∈ gs := hgm
    rcases hg with e | ⟨bf', a, e, hne⟩
    · rw [e] at hgm; exact h.gets g hgm ts v ha
    · rw [e] at hgm
      rcases List.mem_cons.1 hgm with rfl | hm
      · exact absurd ha (hne ts v)
      · exact h.gets g hm ts v ha
  · intro g hgm ts v ha
    replace hgm : g ∈ gs := hgm
    rcases hg with e | ⟨bf', a, e, hne⟩
    · rw [e] at hgm; exact h.gets' g hgm ts v ha
    · rw [e] at hgm
      rcases List.mem_cons.1 hgm with rfl | hm
      · exact absurd ha (hne ts v)
      · exact h.gets' g hm ts v ha

theorem good_getStep {s : St V} (h : Good s) (sp : Bool) : Good (s.getStep sp) := by
  have hgf := h.gfine
  unfold St.getStep
  cases hg : s.get with
  | idle => exact h
  | find r k best =>
    rw [hg] at hgf
    have h0 : ∀ i, s.get.holds i = 0 := fun i => by rw [hg]; rfl
    dsimp only
    unfold St.findNewest
    by_cases hk : k < s.n
    · rw [if_pos hk]
      have hb : ∀ b', (GPc.find r k b' : GPc V).fine s.n s.slots s.sent →
          Good ({ s with get := .find r (k + 1) b' } : St V) := by
        intro b' hb'
        refine good_get h _ s.before s.gets h0 (fun _ => rfl) ?_ (.inl rfl)
        cases b' <;> exact hb'
      split
      · split
        · exact hb _ hk
        · exact hb _ (by cases best <;> exact hgf)
      · exact hb _ (by cases best <;> exact hgf)
    · rw [if_neg hk]
      cases best with
      | none => exact good_get h .idle s.before _ h0 (fun _ => rfl) trivial (.inr ⟨_, _, rfl, fun _ _ e => by cases e⟩)
      | some x =>
        obtain ⟨i, ts, rc⟩ := x
        exact good_get h (.cas r i ts rc) s.before s.gets h0 (fun _ => rfl) hgf (.inl rfl)
  | cas r i ts rc =>
    have h0 : ∀ i, s.get.holds i = 0 := fun i => by rw [hg]; rfl
    dsimp only
    by_cases hc : s.slots i = .ready ts rc ∧ sp = false
    · rw [if_pos hc]
      refine good_refs h i ts rc (rc + 1) hc.1 rfl rfl rfl (fun b => by cases b <;> rfl) rfl ?_ ?_ ?_ h.gets h.gets'
      · have := h.rc i ts rc hc.1
        rw [h0 i] at this
        show rc + 1 = s.held i + (if i = i then 1 else 0)
        simp; omega
      · intro j hj
        refine ⟨rfl, ?_⟩
        rw [h0 j]
        show (if j = i then 1 else 0) = 0
        rw [if_neg hj]
      · exact ⟨rc, put_same _ _ _⟩
    · rw [if_neg hc]
      split
      · exact good_get h (.find (r + 1) 0 none) s.before s.gets h0 (fun _ => rfl) trivial (.inl rfl)
      · exact good_get h .idle s.before _ h0 (fun _ => rfl) trivial (.inr ⟨_, _, rfl, fun _ _ e => by cases e⟩)
  | copy i ts =>
    rw [hg] at hgf
    obtain ⟨rc, hrc⟩ := hgf
    refine ⟨?_, h.none, h.sent, h.own, h.owned, h.one, h.fine, ⟨⟨rc, hrc⟩, h.sent i ts _ hrc⟩, h.gets, h.gets', h.out⟩
    intro j u k hj
    have := h.rc j u k hj
    rw [hg] at this; exact this
  | release i ts v =>
    rw [hg] at hgf
    obtain ⟨⟨rc, hrc⟩, hs⟩ := hgf
    dsimp only
    rw [hrc]
    dsimp only
    have h1 := h.rc i ts _ hrc
    rw [hg] at h1
    have h2 : (GPc.release i ts v).holds i = 1 := by simp [GPc.holds]
    refine good_refs h i ts (rc + 1) (rc + 1 - 1) hrc rfl rfl rfl (fun b => by cases b <;> rfl) rfl ?_ ?_ trivial ?_ ?_
    · show rc + 1 - 1 = s.held i + 0
      omega
    · intro j hj
      refine ⟨rfl, ?_⟩
      rw [hg]
      show 0 = (if j = i then 1 else 0)
      rw [if_neg hj]
    · intro g hgm u w ha
      rcases List.mem_cons.1 hgm with rfl | hm
      · cases ha; exact hs
      · exact h.gets g hm u w ha
    · intro g hgm u w ha
      rcases List.mem_cons.1 hgm with rfl | hm
      · cases ha; exact hs
      · exact h.gets' g hm u w ha

theorem good_step {s : St V} (h : Good s) (o : Op V) : Good (step s o) := by
  cases o with
  | send b v =>
    unfold step
    dsimp only
    split
    · rename_i hp
      exact good_goto h b _ (fun i => by rw [hp]; exact Iff.rfl) trivial
    · exact h
  | sendStep b => exact good_send h b
  | get =>
    unfold step
    dsimp only
    split
    · rename_i hg
      exact good_get h _ s.sent s.gets (fun i => by rw [hg]; rfl) (fun _ => rfl) trivial (.inl rfl)
    · exact h
  | getStep sp => exact good_getStep h sp
  | take i =>
    unfold step
    dsimp only
    split
    · rename_i ts rc hi
      refine good_refs h i ts rc (rc + 1) hi rfl rfl rfl (fun b => by cases b <;> rfl) rfl ?_ ?_ ?_ h.gets h.gets'
      · have := h.rc i ts rc hi
        show rc + 1 = put s.held i (s.held i + 1) i + s.get.holds i
        rw [put_same]; omega
      · intro j hj
        exact ⟨put_other _ _ _ _ hj, rfl⟩
      · have hg := h.gfine
        show s.get.fine s.n (put s.slots i (.ready ts (rc + 1))) s.sent
        cases hgc : s.get with
        | copy j u =>
          rw [hgc] at hg; obtain ⟨k, hk⟩ := hg
          by_cases e : j = i
          · subst e; rw [hi] at hk; cases hk; exact ⟨_, put_same _ _ _⟩
          · exact ⟨k, by rw [put_other _ _ _ _ e]; exact hk⟩
        | release j u v =>
          rw [hgc] at hg; obtain ⟨⟨k, hk⟩, hs⟩ := hg
          refine ⟨?_, hs⟩
          by_cases e : j = i
          · subst e; rw [hi] at hk; cases hk; exact ⟨_, put_same _ _ _⟩
          · exact ⟨k, by rw [put_other _ _ _ _ e]; exact hk⟩
        | find r k best => rw [hgc] at hg; cases best <;> exact hg
        | cas r i ts rc => rw [hgc] at hg; exact hg
        | idle => trivial
    · exact h
  | drop i =>
    unfold step
    dsimp only
    split
    · rename_i ts rc hi
      by_cases h0 : s.held i = 0
      · rw [if_pos h0]; exact h
      rw [if_neg h0]
      have hrc := h.rc i ts rc hi
      refine good_refs h i ts rc (rc - 1) hi rfl rfl rfl (fun b => by cases b <;> rfl) rfl ?_ ?_ ?_ h.gets h.gets'
      · show rc - 1 = put s.held i (s.held i - 1) i + s.get.holds i
        rw [put_same]; omega
      · intro j hj
        exact ⟨put_other _ _ _ _ hj, rfl⟩
      · have hg := h.gfine
        show s.get.fine s.n (put s.slots i (.ready ts (rc - 1))) s.sent
        cases hgc : s.get with
        | copy j u =>
          rw [hgc] at hg hrc; obtain ⟨k, hk⟩ := hg
          by_cases e : j = i
          · subst e
            simp only [GPc.holds] at hrc
            rw [hi] at hk; cases hk
            exact ⟨s.held j - 1, by rw [put_same]; congr 1; simp at hrc; omega⟩
          · exact ⟨k, by rw [put_other _ _ _ _ e]; exact hk⟩
        | release j u v =>
          rw [hgc] at hg hrc; obtain ⟨⟨k, hk⟩, hs⟩ := hg
          refine ⟨?_, hs⟩
          by_cases e : j = i
          · subst e
            simp only [GPc.holds] at hrc
            rw [hi] at hk; cases hk
            exact ⟨s.held j - 1, by rw [put_same]; congr 1; simp at hrc; omega⟩
          · exact ⟨k, by rw [put_other _ _ _ _ e]; exact hk⟩
        | find r k best => rw [hgc] at hg; cases best <;> exact hg
        | cas r i ts rc => rw [hgc] at hg; exact hg
        | idle => trivial
    · exact h

theorem good_run {s : St V} (h : Good s) (ops : List (Op V)) : Good (run s ops) := by
  induction ops generalizing s with
  | nil => exact h
  | cons o ops ih => exact ih (good_step h o)

end Verif.FieldRace
