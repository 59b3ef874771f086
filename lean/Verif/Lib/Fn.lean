/-!
Small library: point updates of functions and counting below a bound.
Nothing here models code.
-/
namespace Verif

/-- `upd f i v` is `f` with the value at `i` replaced by `v`. -/
def upd {α : Type u} (f : Nat → α) (i : Nat) (v : α) : Nat → α :=
  fun j => if j = i then v else f j

@[simp] theorem upd_self {α : Type u} (f : Nat → α) (i : Nat) (v : α) : upd f i v i = v := by
  simp [upd]

theorem upd_ne {α : Type u} (f : Nat → α) {i j : Nat} (v : α) (h : j ≠ i) : upd f i v j = f j := by
  simp [upd, h]

theorem upd_apply {α : Type u} (f : Nat → α) (i j : Nat) (v : α) :
    upd f i v j = if j = i then v else f j := rfl

theorem upd_same {α : Type u} (f : Nat → α) (i : Nat) : upd f i (f i) = f := by
  funext j; simp only [upd]; split <;> simp_all

/-- Number of `j < m` with `p j`. -/
def count (p : Nat → Bool) : Nat → Nat
  | 0 => 0
  | m + 1 => count p m + (if p m then 1 else 0)

theorem count_le (p : Nat → Bool) (m : Nat) : count p m ≤ m := by
  induction m with
  | zero => simp [count]
  | succ m ih => simp only [count]; split <;> omega

theorem count_congr {p q : Nat → Bool} {m : Nat} (h : ∀ j, j < m → p j = q j) :
    count p m = count q m := by
  induction m with
  | zero => rfl
  | succ m ih =>
    simp only [count]
    rw [ih (fun j hj => h j (by omega)), h m (by omega)]

theorem count_eq_zero {p : Nat → Bool} {m : Nat} :
    count p m = 0 ↔ ∀ j, j < m → p j = false := by
  induction m with
  | zero => simp [count]
  | succ m ih =>
    simp only [count]
    constructor
    · intro h j hj
      by_cases hm : p m = true
      · simp [hm] at h
      · rcases Nat.lt_succ_iff_lt_or_eq.mp hj with h1 | h1
        · exact ih.mp (by omega) j h1
        · subst h1; simpa using hm
    · intro h
      have h1 := ih.mpr (fun j hj => h j (by omega))
      have h2 := h m (by omega)
      simp [h1, h2]

theorem count_pos {p : Nat → Bool} {m c : Nat} (hc : c < m) (h : p c = true) : 0 < count p m := by
  rcases Nat.eq_zero_or_pos (count p m) with h0 | h0
  · have := count_eq_zero.mp h0 c hc; simp_all
  · exact h0

/-- Changing the predicate at one point below the bound. -/
theorem count_upd {p q : Nat → Bool} {m c : Nat} (hc : c < m) (hne : ∀ j, j ≠ c → q j = p j) :
    count q m + (if p c then 1 else 0) = count p m + (if q c then 1 else 0) := by
  induction m with
  | zero => omega
  | succ m ih =>
    simp only [count]
    rcases Nat.lt_succ_iff_lt_or_eq.mp hc with h1 | h1
    · have := ih h1
      rw [hne m (by omega)]; omega
    · subst h1
      rw [count_congr (p := q) (q := p) (fun j hj => hne j (by omega))]; omega

theorem count_le_of_imp {p q : Nat → Bool} {m : Nat} (h : ∀ j, j < m → p j = true → q j = true) :
    count p m ≤ count q m := by
  induction m with
  | zero => simp [count]
  | succ m ih =>
    simp only [count]
    have := ih (fun j hj => h j (by omega))
    by_cases hp : p m = true
    · simp [hp, h m (by omega) hp]; omega
    · simp [hp]; omega

/-- Sum of `f j` over `j < m`. -/
def sumTo (f : Nat → Nat) : Nat → Nat
  | 0 => 0
  | m + 1 => sumTo f m + f m

theorem sumTo_congr {f g : Nat → Nat} {m : Nat} (h : ∀ j, j < m → f j = g j) : sumTo f m = sumTo g m := by
  induction m with
  | zero => rfl
  | succ m ih =>
    simp only [sumTo]
    rw [ih (fun j hj => h j (by omega)), h m (by omega)]

theorem sumTo_zero (m : Nat) : sumTo (fun _ => 0) m = 0 := by
  induction m with
  | zero => rfl
  | succ m ih => simp only [sumTo, ih]

/-- Changing the summand at one point below the bound. -/
theorem sumTo_upd {f g : Nat → Nat} {m c : Nat} (hc : c < m) (hne : ∀ j, j ≠ c → g j = f j) :
    sumTo g m + f c = sumTo f m + g c := by
  induction m with
  | zero => omega
  | succ m ih =>
    simp only [sumTo]
    rcases Nat.lt_succ_iff_lt_or_eq.mp hc with h1 | h1
    · have := ih h1
      rw [hne m (by omega)]; omega
    · subst h1
      rw [sumTo_congr (f := g) (g := f) (fun j hj => hne j (by omega))]; omega

theorem sumTo_le {f g : Nat → Nat} {m : Nat} (h : ∀ j, j < m → f j ≤ g j) : sumTo f m ≤ sumTo g m := by
  induction m with
  | zero => simp [sumTo]
  | succ m ih =>
    simp only [sumTo]
    have := ih (fun j hj => h j (by omega))
    have := h m (by omega)
    omega

theorem sumTo_ge {f : Nat → Nat} {m c : Nat} (hc : c < m) : f c ≤ sumTo f m := by
  induction m with
  | zero => omega
  | succ m ih =>
    simp only [sumTo]
    rcases Nat.lt_succ_iff_lt_or_eq.mp hc with h1 | h1
    · have := ih h1; omega
    · subst h1; omega

/-- A sum of terms of at most `k` that vanish outside `p` is at most `k` times the count of `p`. -/
theorem sumTo_le_count {f : Nat → Nat} {p : Nat → Bool} {k m : Nat}
    (h : ∀ j, j < m → f j ≤ if p j then k else 0) : sumTo f m ≤ k * count p m := by
  induction m with
  | zero => simp [sumTo, count]
  | succ m ih =>
    simp only [sumTo, count]
    have h1 := ih (fun j hj => h j (by omega))
    have h2 := h m (by omega)
    rw [Nat.mul_add]
    split at h2 <;> simp_all <;> omega

theorem upd_upd {α : Type} (f : Nat → α) (i : Nat) (a b : α) : upd (upd f i a) i b = upd f i b := by
  funext j; simp only [upd]; split <;> rfl

end Verif
