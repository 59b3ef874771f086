import Verif.Spec.Marker
namespace Verif.Marker

structure Inv (s : St) : Prop where
  lock : ∀ i k, s.lock i = some k ↔ s.pc k = .up i
  up : ∀ i k, s.pc k = .up i → s.path = some i
  opened : ∀ i k, s.pc k = .opened i → s.path = some i
  un : ∀ k j i, s.pc k = .unlocked → s.pc j ≠ .up i
  un1 : ∀ k j, s.pc k = .unlocked → s.pc j = .unlocked → k = j
  lt : ∀ i, s.path = some i → i < s.fresh
  free : ∀ i, s.fresh ≤ i → s.lock i = none

theorem inv_init : Inv init := by
  constructor <;> simp [init]

/-- The part that holds in all runs. -/
structure Base (s : St) : Prop where
  lock : ∀ i k, s.lock i = some k ↔ s.pc k = .up i
  opened : ∀ i k, s.pc k = .opened i → i < s.fresh
  lt : ∀ i, s.path = some i → i < s.fresh
  free : ∀ i, s.fresh ≤ i → s.lock i = none

theorem base_init : Base init := by
  constructor <;> simp [init]

theorem base_step (c : Nat → Nat) {s : St} (o : Op) (h : Base s) : Base (step c s o) := by
  have ⟨h1, h2, h3, h4⟩ := h
  have l1 : ∀ i k, s.lock i = some k → s.pc k = .up i := fun i k => (h1 i k).mp
  have l2 : ∀ i k, s.pc k = .up i → s.lock i = some k := fun i k => (h1 i k).mpr
  cases o with
  | «open» k ok =>
    simp only [step]
    split
    · split
      · constructor <;> dsimp only <;> intros <;> (try simp only [upd_apply] at *) <;> grind
      · constructor <;> dsimp only <;> intros <;> (try simp only [upd_apply] at *) <;> grind
    · exact ⟨h1, h2, h3, h4⟩
  | tryLock k =>
    simp only [step]
    split
    · split
      · constructor <;> dsimp only <;> intros <;> (try simp only [upd_apply] at *) <;> grind
      · constructor <;> dsimp only <;> intros <;> (try simp only [upd_apply] at *) <;> grind
    · exact ⟨h1, h2, h3, h4⟩
  | unlock k =>
    simp only [step]
    split
    · constructor <;> dsimp only <;> intros <;> (try simp only [upd_apply] at *) <;> grind
    · exact ⟨h1, h2, h3, h4⟩
  | unlink k =>
    simp only [step]
    split
    · constructor <;> dsimp only <;> intros <;> (try simp only [upd_apply] at *) <;> grind
    · exact ⟨h1, h2, h3, h4⟩
  | crash p =>
    simp only [step]
    constructor <;> dsimp only <;> intros <;> grind

theorem base_run (c : Nat → Nat) (ops : List Op) : ∀ {s : St}, Base s → Base (run c s ops) := by
  induction ops with
  | nil => exact id
  | cons o ops ih => intro s h; exact ih (base_step c o h)

theorem inv_step (c : Nat → Nat) {s : St} (o : Op) (h : Inv s) (ha : Apart s) : Inv (step c s o) := by
  have ⟨h1, h2, h3, h4, h5, h6, h7⟩ := h
  have l1 : ∀ i k, s.lock i = some k → s.pc k = .up i := fun i k => (h1 i k).mp
  have l2 : ∀ i k, s.pc k = .up i → s.lock i = some k := fun i k => (h1 i k).mpr
  have l3 : ∀ k j i i', s.pc k = .up i → s.pc j = .up i' → k = j := by
    intro k j i i' a b
    have := h2 _ _ a
    rw [h2 _ _ b] at this
    cases this
    have a := l2 _ _ a
    rw [l2 _ _ b] at a
    exact (Option.some.inj a).symm
  have ha : ∀ k j i, s.pc k = .opened i → s.pc j = .unlocked → False := fun k j i a b => ha k j ⟨i, a⟩ b
  cases o with
  | «open» k ok =>
    simp only [step]
    split
    · split
      · constructor <;> dsimp only <;> intros <;> (try simp only [upd_apply] at *) <;> grind
      · constructor <;> dsimp only <;> intros <;> (try simp only [upd_apply] at *) <;> grind
    · exact ⟨h1, h2, h3, h4, h5, h6, h7⟩
  | tryLock k =>
    simp only [step]
    split
    · split
      · constructor <;> dsimp only <;> intros <;> (try simp only [upd_apply] at *) <;> grind
      · constructor <;> dsimp only <;> intros <;> (try simp only [upd_apply] at *) <;> grind
    · exact ⟨h1, h2, h3, h4, h5, h6, h7⟩
  | unlock k =>
    simp only [step]
    split
    · constructor <;> dsimp only <;> intros <;> (try simp only [upd_apply] at *) <;> grind
    · exact ⟨h1, h2, h3, h4, h5, h6, h7⟩
  | unlink k =>
    simp only [step]
    split
    · constructor <;> dsimp only <;> intros <;> (try simp only [upd_apply] at *) <;> grind
    · exact ⟨h1, h2, h3, h4, h5, h6, h7⟩
  | crash p =>
    simp only [step]
    constructor <;> dsimp only <;> intros <;> grind

theorem inv_run (c : Nat → Nat) (ops : List Op) :
    ∀ {s : St}, Inv s → (∀ pre, pre <+: ops → Apart (run c s pre)) → Inv (run c s ops) := by
  induction ops with
  | nil => intro s h _; exact h
  | cons o ops ih =>
    intro s h ha
    refine ih (inv_step c o h (ha [] (List.nil_prefix))) ?_
    intro pre hp
    exact ha (o :: pre) (List.cons_prefix_cons.mpr ⟨rfl, hp⟩)

theorem inv_orderly (c : Nat → Nat) (ops : List Op) (h : Orderly c ops) : Inv (run c init ops) :=
  inv_run c ops inv_init h

/-- The object of an operation. -/
def Op.obj : Op → Option Nat
  | .open k _ | .tryLock k | .unlock k | .unlink k => some k
  | .crash _ => none

theorem untouched_step (c : Nat → Nat) {s : St} {o : Op} {k : Nat} (h : o.obj ≠ some k) (hs : s.pc k = .none) :
    (step c s o).pc k = .none := by
  cases o with
  | crash p => simp only [step]; split <;> simp_all
  | _ j =>
    have hk : k ≠ j := by rintro rfl; exact h rfl
    simp only [step]
    repeat' split
    all_goals first | exact hs | (simp only [upd_ne _ _ hk]; exact hs)

theorem untouched (c : Nat → Nat) (ops : List Op) {k : Nat} (h : ∀ o ∈ ops, o.obj ≠ some k) :
    ∀ {s : St}, s.pc k = .none → (run c s ops).pc k = .none := by
  induction ops with
  | nil => exact id
  | cons o ops ih =>
    intro s hs
    exact ih (fun o' ho' => h o' (List.mem_cons_of_mem _ ho')) (untouched_step c (h o List.mem_cons_self) hs)

end Verif.Marker
