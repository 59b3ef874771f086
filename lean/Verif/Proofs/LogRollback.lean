import Mathlib.Data.List.Forall2
import Mathlib.Logic.Basic
import Verif.Spec.LogRollback
/-! Rolling back the logs of a dead consumer. -/
namespace Verif.Rollback

theorem rollbackInc_spec (sl : List (Bool × Bool)) : ∀ i,
    ((rollbackInc i sl).2.2 = true ↔ ∀ x ∈ sl, x.1 = x.2) ∧
    ((rollbackInc i sl).2.2 = true → (rollbackInc i sl).1 = sl.map (fun _ => (false, false)) ∧
      (rollbackInc i sl).2.1 = (heldFrom i sl).map Eff.deref) := by
  induction sl with
  | nil => intro i; simp [rollbackInc, heldFrom]
  | cons x rest ih =>
    intro i
    obtain ⟨b, e⟩ := x
    have := ih (i + 1)
    cases b <;> cases e <;> simp_all [rollbackInc, heldFrom]

theorem not_containsTransactions_map (sl : List (Bool × Bool)) (c : Nat) :
    containsTransactions { slots := sl.map (fun _ => (false, false)), sb := false, se := false, cnt := c } = false := by
  simp [containsTransactions, hasRefTransactions]

/-- Outcome of rolling back one log. -/
theorem rollbackLog_spec (l : Log) :
    (rollbackLog l = .abort ↔ (l.sb = false ∧ l.se = false ∧ hasRefTransactions l = true)) ∧
    (∀ l' eff, rollbackLog l = .done l' eff true → ¬ Ambiguous l ∧ containsTransactions l' = false ∧
      eff = (heldFrom 0 l.slots).map Eff.deref ++ (if l.sb then [.unsub l.cnt] else [])) ∧
    (∀ l' eff, rollbackLog l = .done l' eff false → Ambiguous l) := by
  have h := rollbackInc_spec l.slots 0
  unfold rollbackLog
  refine ⟨?_, ?_, ?_⟩
  · constructor
    · intro he
      dsimp only at he
      split at he
      · rename_i hc; simpa [and_assoc] using hc
      · repeat' split at he
        all_goals cases he
    · rintro ⟨h1, h2, h3⟩; simp [h1, h2, h3]
  · intro l' eff he
    dsimp only at he
    split at he
    · cases he
    · split at he
      · rename_i hok
        obtain ⟨hs, hef⟩ := h.2 hok
        have hall := h.1.mp hok
        split at he
        · rename_i hbe
          simp only [Bool.and_eq_true] at hbe
          cases he
          refine ⟨?_, ?_, ?_⟩
          · rintro (⟨x, hx, hne⟩ | hne)
            · exact hne (hall x hx)
            · exact hne (by rw [hbe.1, hbe.2])
          · rw [hs]; exact not_containsTransactions_map _ _
          · rw [hef, if_pos hbe.1]
        · rename_i hbe
          injection he with e1 e2 e3
          have hb : l.sb = false ∧ l.se = false := by simpa using e3
          subst e1; subst e2
          refine ⟨?_, ?_, ?_⟩
          · rintro (⟨x, hx, hne⟩ | hne)
            · exact hne (hall x hx)
            · exact hne (by rw [hb.1, hb.2])
          · simp [containsTransactions, hasRefTransactions, hb, hs]
          · rw [hef, hb.1]; simp
      · cases he
  · intro l' eff he
    dsimp only at he
    split at he
    · cases he
    · split at he
      · rename_i hok
        split at he
        · cases he
        · rename_i hbe
          injection he with e1 e2 e3
          right
          cases hb : l.sb <;> cases hse : l.se <;> simp_all
      · rename_i hok
        left
        have := mt h.1.mpr hok
        simp only [not_forall] at this
        obtain ⟨x, hx, hne⟩ := this
        exact ⟨x, hx, hne⟩

/-- A node that is free again. -/
def Freed (y : Node) : Prop := y.id = 0 ∧ y.rb = false ∧ containsTransactions y.log = false

/-- What one call may do to a node. -/
def Change (id : Nat) (x y : Node) : Prop :=
  y = x ∨ (x.due id = true ∧ ((y.id = x.id ∧ y.rb = x.rb) ∨ Freed y))

theorem change_refl (id : Nat) (l : List Node) : List.Forall₂ (Change id) l l := by
  induction l with
  | nil => exact .nil
  | cons x l ih => exact .cons (.inl rfl) ih

theorem rollbackNodes_spec (id : Nat) (hid : id ≠ 0) (nodes : List Node) : ∀ res,
    (rollbackNodes id res nodes = .abort → ∃ x ∈ nodes, x.due id = true ∧ rollbackLog x.log = .abort) ∧
    (∀ nodes' eff ok, rollbackNodes id res nodes = .done nodes' eff ok →
      List.Forall₂ (Change id) nodes nodes' ∧
      (ok = true → dueCount id nodes' = dueCount id nodes - 1 ∧ (dueCount id nodes = 0 → res = true) ) ∧
      (ok = false → (∀ x ∈ nodes, x.due id = true → Ambiguous x.log) ∧ (res = true → 0 < dueCount id nodes)) ∧
      (ok = true → 0 < dueCount id nodes → ∃ x ∈ nodes, x.due id = true ∧ ¬ Ambiguous x.log)) := by
  induction nodes with
  | nil =>
    intro res
    simp only [rollbackNodes, dueCount]
    refine ⟨by simp, ?_⟩
    intro nodes' eff ok he
    injection he with e1 e2 e3
    subst e1 e2 e3
    exact ⟨.nil, by simp, by cases res <;> simp, by simp⟩
  | cons x rest ih =>
    intro res
    unfold rollbackNodes
    have hlog := rollbackLog_spec x.log
    by_cases hdue : x.due id = true
    · rw [if_pos hdue]
      have hcnt : dueCount id (x :: rest) = dueCount id rest + 1 := by simp [dueCount, hdue]
      split
      · rename_i hab
        exact ⟨fun _ => ⟨x, by simp, hdue, hab⟩, by simp⟩
      · rename_i log eff hl
        obtain ⟨h1, h2, h3⟩ := hlog.2.1 _ _ hl
        rw [if_neg (by simp [h2])]
        refine ⟨by simp, ?_⟩
        intro nodes' eff' ok he
        injection he with e1 e2 e3
        subst e1 e2 e3
        refine ⟨.cons (.inr ⟨hdue, .inr ⟨rfl, rfl, h2⟩⟩) (change_refl id rest), ?_, by simp, ?_⟩
        · intro _
          rw [hcnt]
          refine ⟨?_, by omega⟩
          have : (Node.due id { id := 0, rb := false, log := log }) = false := by simp [Node.due]
          simp [dueCount, this]
        · intro _ _; exact ⟨x, by simp, hdue, h1⟩
      · rename_i log eff hl
        have hamb := hlog.2.2 _ _ hl
        obtain ⟨ih1, ih2⟩ := ih false
        split
        · rename_i hab
          refine ⟨fun _ => ?_, by simp⟩
          obtain ⟨y, hy, hy'⟩ := ih1 hab
          exact ⟨y, by simp [hy], hy'⟩
        · rename_i rest' eff' ok hr
          refine ⟨by simp, ?_⟩
          intro nodes' eff'' ok' he
          injection he with e1 e2 e3
          subst e1 e2 e3
          obtain ⟨i1, i2, i3, i4⟩ := ih2 _ _ _ hr
          have hdue' : Node.due id { id := x.id, rb := x.rb, log := log } = true := hdue
          refine ⟨.cons (.inr ⟨hdue, .inl ⟨rfl, rfl⟩⟩) i1, ?_, ?_, ?_⟩
          · intro hok
            obtain ⟨j1, j2⟩ := i2 hok
            have hpos : dueCount id rest ≠ 0 := fun e => by simpa using j2 e
            refine ⟨?_, by omega⟩
            rw [hcnt]
            have : dueCount id ({ id := x.id, rb := x.rb, log := log } :: rest') = dueCount id rest' + 1 := by
              simp [dueCount, hdue']
            rw [this]; omega
          · intro hok
            obtain ⟨j1, j2⟩ := i3 hok
            refine ⟨?_, by omega⟩
            intro y hy hyd
            rcases List.mem_cons.mp hy with rfl | hy
            · exact hamb
            · exact j1 y hy hyd
          · intro hok _
            obtain ⟨j1, j2⟩ := i2 hok
            have hpos : dueCount id rest ≠ 0 := fun e => by simpa using j2 e
            obtain ⟨y, hy, hy'⟩ := i4 hok (by omega)
            exact ⟨y, by simp [hy], hy'⟩
    · rw [if_neg hdue]
      have hcnt : dueCount id (x :: rest) = dueCount id rest := by simp [dueCount, hdue]
      obtain ⟨ih1, ih2⟩ := ih res
      split
      · rename_i hab
        refine ⟨fun _ => ?_, by simp⟩
        obtain ⟨y, hy, hy'⟩ := ih1 hab
        exact ⟨y, by simp [hy], hy'⟩
      · rename_i rest' eff' ok hr
        refine ⟨by simp, ?_⟩
        intro nodes' eff'' ok' he
        injection he with e1 e2 e3
        subst e1 e2 e3
        obtain ⟨i1, i2, i3, i4⟩ := ih2 _ _ _ hr
        have hcnt' : dueCount id (x :: rest') = dueCount id rest' := by simp [dueCount, hdue]
        refine ⟨.cons (.inl rfl) i1, ?_, ?_, ?_⟩
        · rw [hcnt, hcnt']; exact i2
        · rw [hcnt]
          intro hok
          refine ⟨?_, (i3 hok).2⟩
          intro y hy hyd
          rcases List.mem_cons.mp hy with rfl | hy
          · exact absurd hyd hdue
          · exact (i3 hok).1 y hy hyd
        · rw [hcnt]
          intro hok hp
          obtain ⟨y, hy, hy'⟩ := i4 hok hp
          exact ⟨y, by simp [hy], hy'⟩

/-- All events of one successful proxy creation. -/
theorem rollbackEvents_ok (id : Nat) (hid : id ≠ 0) (evs : List (List Node)) :
    ∀ evs' eff, rollbackEvents id evs = .done evs' eff true →
      List.Forall₂ (fun a b => List.Forall₂ (Change id) a b ∧ dueCount id b = dueCount id a - 1) evs evs' := by
  induction evs with
  | nil =>
    intro evs' eff he
    simp only [rollbackEvents] at he
    injection he with e1; subst e1; exact .nil
  | cons ev rest ih =>
    intro evs' eff he
    simp only [rollbackEvents] at he
    split at he
    · cases he
    · rename_i ev' eff' hs
      split at he
      · cases he
      · rename_i rest' effs ok hr
        injection he with e1 e2 e3
        subst e1 e2 e3
        have h := (rollbackNodes_spec id hid ev true).2 _ _ _ hs
        exact .cons ⟨h.1, (h.2.1 rfl).1⟩ (ih _ _ hr)
    · injection he with e1 e2 e3; cases e3

theorem mark_due (id : Nat) (hid : id ≠ 0) (nodes : List Node) :
    dueCount id (mark id nodes) = nodes.countP (fun x => x.id == id) := by
  induction nodes with
  | nil => rfl
  | cons x rest ih =>
    simp only [mark, List.map_cons, dueCount, List.countP_cons] at ih ⊢
    rw [ih]
    congr 1
    by_cases h : x.id = id
    · simp [Node.due, h, hid]
    · simp [Node.due, h]

theorem registerIn_due (id : Nat) (nodes : List Node) (hid : id ≠ 0) : dueCount id (registerIn id nodes) = dueCount id nodes := by
  induction nodes with
  | nil => rfl
  | cons x rest ih =>
    simp only [registerIn]
    split
    · rename_i h
      simp [dueCount, List.countP_cons, Node.due, h, Ne.symm hid]
    · simp only [dueCount, List.countP_cons] at ih ⊢
      rw [ih]

/-- Bookkeeping: an old log is marked or recovered. -/
def Half (id : Nat) (x y : Node) : Prop := if x.id = id then (y.due id = true ∨ Freed y) else y = x

theorem half_step {id : Nat} (hid : id ≠ 0) {x y z : Node} (h : Half id x y) (hc : Change id y z) : Half id x z := by
  unfold Half at *
  split
  · rename_i hx
    rw [if_pos hx] at h
    rcases hc with rfl | ⟨hd, ⟨h1, h2⟩ | hf⟩
    · exact h
    · left; unfold Node.due at *; rw [h1, h2]; exact hd
    · exact .inr hf
  · rename_i hx
    rw [if_neg hx] at h; subst h
    rcases hc with rfl | ⟨hd, -⟩
    · rfl
    · exfalso; apply hx; unfold Node.due at hd; simp at hd; exact hd.1

theorem half_mark (id : Nat) (hid : id ≠ 0) (l : List Node) : List.Forall₂ (Half id) l (mark id l) := by
  induction l with
  | nil => exact .nil
  | cons x l ih =>
    refine .cons ?_ ih
    unfold Half
    by_cases hx : x.id = id
    · rw [if_pos hx]; left; simp [hx, hid, Node.due]
    · rw [if_neg hx]; simp [hx]

theorem forall2_trans {α : Type} {R S T : α → α → Prop} (h : ∀ x y z, R x y → S y z → T x z) {a b c : List α}
    (h1 : List.Forall₂ R a b) (h2 : List.Forall₂ S b c) : List.Forall₂ T a c := by
  induction h1 generalizing c with
  | nil => cases h2; exact .nil
  | cons hr _ ih => cases h2 with | cons hs h2 => exact .cons (h _ _ _ hr hs) (ih h2)

/-- State between creations: relative to the events `ev0` before the restart. -/
def Mid (id : Nat) (k : Nat) (a b : List Node) : Prop :=
  List.Forall₂ (Half id) a b ∧ dueCount id b ≤ ownLogs id a - k

theorem create_step {id : Nat} (hid : id ≠ 0) {ev0 : List (List Node)} {k : Nat} {p : Proc} (hp : p.prepared = true)
    (hm : List.Forall₂ (Mid id k) ev0 p.events) (hok : (create id p).2.2 = .ok) :
    List.Forall₂ (Mid id (k + 1)) ev0 (create id p).1.events ∧ (create id p).1.prepared = true := by
  unfold create at *
  simp only [hp, if_true] at *
  split at hok
  · cases hok
  · rename_i ev eff hr
    refine ⟨?_, rfl⟩
    refine forall2_trans ?_ hm (rollbackEvents_ok id hid _ _ _ hr)
    rintro x y z ⟨h1, h2⟩ ⟨h3, h4⟩
    refine ⟨forall2_trans (R := Half id) (S := Change id) (T := Half id) (fun _ _ _ => half_step hid) h1 h3, by omega⟩
  · cases hok

theorem create_first {id : Nat} (hid : id ≠ 0) {ev0 : List (List Node)}
    (hok : (create id { events := ev0, prepared := false }).2.2 = .ok) :
    List.Forall₂ (Mid id 1) ev0 (create id { events := ev0, prepared := false }).1.events ∧
      (create id { events := ev0, prepared := false }).1.prepared = true := by
  have e : create id { events := ev0, prepared := false } =
      create id { events := ev0.map (mark id), prepared := true } := by
    simp [create]
  rw [e] at hok ⊢
  refine create_step hid rfl (k := 0) ?_ hok
  show List.Forall₂ (Mid id 0) ev0 (ev0.map (mark id))
  rw [List.forall₂_map_right_iff]
  rw [List.forall₂_same]
  intro x hx
  exact ⟨half_mark id hid x, by rw [mark_due id hid, ownLogs]; omega⟩

theorem creates_mid {id : Nat} (hid : id ≠ 0) {ev0 : List (List Node)} (N : Nat) : ∀ (k : Nat) (p : Proc),
    p.prepared = true → List.Forall₂ (Mid id k) ev0 p.events →
    (∀ o ∈ (run id p (List.replicate N .create)).2, o = .ok) →
    List.Forall₂ (Mid id (k + N)) ev0 (run id p (List.replicate N .create)).1.events := by
  induction N with
  | zero => intro k p _ h _; exact h
  | succ N ih =>
    intro k p hp hm hok
    simp only [List.replicate_succ, run, step, Option.toList, List.singleton_append, List.mem_cons] at hok ⊢
    obtain ⟨h1, h2⟩ := create_step hid hp hm (hok _ (.inl rfl))
    have := ih (k + 1) _ h2 h1 (fun o ho => hok o (.inr ho))
    rw [show k + (N + 1) = k + 1 + N by omega]
    exact this

theorem mem_heldFrom (sl : List (Bool × Bool)) : ∀ i k, k ∈ heldFrom i sl ↔ i ≤ k ∧ sl[k - i]? = some (true, true) := by
  induction sl with
  | nil => simp [heldFrom]
  | cons x rest ih =>
    intro i k
    obtain ⟨b, e⟩ := x
    have hk : i + 1 ≤ k → (((b, e) :: rest)[k - i]? = rest[k - (i + 1)]?) := by
      intro h
      rw [show k - i = (k - (i + 1)) + 1 by omega, List.getElem?_cons_succ]
    simp only [heldFrom]
    split
    · rename_i hbe
      simp only [Bool.and_eq_true] at hbe
      obtain ⟨rfl, rfl⟩ := hbe
      rw [List.mem_cons, ih]
      constructor
      · rintro (rfl | ⟨h1, h2⟩)
        · simp
        · exact ⟨by omega, by rw [hk h1]; exact h2⟩
      · rintro ⟨h1, h2⟩
        by_cases h : k = i
        · exact .inl h
        · exact .inr ⟨by omega, by rw [← hk (by omega)]; exact h2⟩
    · rename_i hbe
      rw [ih]
      constructor
      · rintro ⟨h1, h2⟩; exact ⟨by omega, by rw [hk h1]; exact h2⟩
      · rintro ⟨h1, h2⟩
        by_cases h : k = i
        · subst h
          rw [Nat.sub_self, List.getElem?_cons_zero, Option.some.injEq, Prod.mk.injEq] at h2
          simp [h2] at hbe
        · exact ⟨by omega, by rw [← hk (by omega)]; exact h2⟩

end Verif.Rollback
