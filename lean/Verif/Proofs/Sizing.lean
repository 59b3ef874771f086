import Verif.Spec.Sizing
import Verif.Proofs.ShmAlloc
import Verif.Proofs.ArithProps
namespace Verif.Sizing
open Verif.Arith Verif.Props.ArithSpec

/-- The first multiple of `a` from `p` on. -/
def up (a p : Nat) : Nat := (p + a - 1) / a * a

/-- Where a sequence of allocations ends that starts at `p`. -/
def ideal : Nat → List Req → Nat
  | p, [] => p
  | p, (s, a) :: rest => ideal (up a p + s) rest

theorem up_spec {a : Nat} (ha : 0 < a) (p : Nat) : a ∣ up a p ∧ p ≤ up a p ∧ up a p < p + a := by
  obtain ⟨k, h1, h2, h3⟩ := ShmAlloc.alignUp_eq (p := p) ha
  unfold up
  rw [h1]
  exact ⟨⟨k, rfl⟩, h2, h3⟩

theorem up_least {a p q : Nat} (ha : 0 < a) (hd : a ∣ q) (h : p ≤ q) : up a p ≤ q := by
  obtain ⟨k, h1, h2, h3⟩ := ShmAlloc.alignUp_eq (p := p) ha
  obtain ⟨j, rfl⟩ := hd
  unfold up
  rw [h1]
  exact ShmAlloc.least h3 h

theorem up_unique {a p q : Nat} (ha : 0 < a) (hd : a ∣ q) (h : p ≤ q) (hl : q < p + a) : up a p = q := by
  obtain ⟨h1, h2, h3⟩ := up_spec ha p
  have h4 := up_least ha hd h
  obtain ⟨j, hj⟩ := h1
  obtain ⟨k, hk⟩ := hd
  rw [hj, hk] at h4 ⊢
  rw [hj] at h2 h3
  rw [hk] at h hl
  have : j ≤ k := Nat.le_of_mul_le_mul_left h4 ha
  rcases Nat.lt_or_ge j k with hlt | hge
  · have := Nat.mul_le_mul_left a (show j + 1 ≤ k from hlt)
    rw [Nat.mul_add] at this; omega
  · have : j = k := by omega
    rw [this]

theorem up_self {a p : Nat} (ha : 0 < a) (hd : a ∣ p) : up a p = p := up_unique ha hd (Nat.le_refl _) (by omega)

theorem up_mono {a p q : Nat} (ha : 0 < a) (h : p ≤ q) : up a p ≤ up a q :=
  up_least ha (up_spec ha q).1 (Nat.le_trans h (up_spec ha q).2.1)

theorem up_add {a b : Nat} (ha : 0 < a) (hd : a ∣ b) (p : Nat) : up a (b + p) = b + up a p := by
  obtain ⟨h1, h2, h3⟩ := up_spec ha p
  exact up_unique ha (Nat.dvd_add hd h1) (by omega) (by omega)

/-- All alignments are positive and divide `b`. -/
def Div (b : Nat) (l : List Req) : Prop := ∀ x ∈ l, 0 < x.2 ∧ x.2 ∣ b

theorem Div.tail {b : Nat} {x : Req} {l : List Req} (h : Div b (x :: l)) : Div b l := fun y hy => h y (List.mem_cons_of_mem _ hy)

theorem Div.head {b s a : Nat} {l : List Req} (h : Div b ((s, a) :: l)) : 0 < a ∧ a ∣ b := h (s, a) (by simp)

theorem ideal_le {b : Nat} : ∀ (l : List Req) (p : Nat), Div b l → p ≤ ideal p l
  | [], _, _ => Nat.le_refl _
  | (s, a) :: l, p, h => by
    have h1 := (up_spec h.head.1 p).2.1
    have h2 := ideal_le l (up a p + s) h.tail
    simp only [ideal]; omega

theorem ideal_mono {b : Nat} : ∀ (l : List Req) (p q : Nat), Div b l → p ≤ q → ideal p l ≤ ideal q l
  | [], _, _, _, h => h
  | (s, a) :: l, p, q, h, hpq => by
    have h1 := up_mono h.head.1 hpq
    simp only [ideal]
    exact ideal_mono l _ _ h.tail (by omega)

theorem ideal_add {b : Nat} : ∀ (l : List Req) (p : Nat), Div b l → ideal (b + p) l = b + ideal p l
  | [], _, _ => rfl
  | (s, a) :: l, p, h => by
    obtain ⟨ha, hd⟩  := h.head
    simp only [ideal]
    rw [up_add ha hd, Nat.add_assoc]
    exact ideal_add l _ h.tail

theorem ideal_append : ∀ (l m : List Req) (p : Nat), ideal p (l ++ m) = ideal (ideal p l) m
  | [], _, _ => rfl
  | (s, a) :: l, m, p => by simp only [List.cons_append, ideal]; exact ideal_append l m _

/-- Leaving out allocations does not need more. -/
theorem ideal_sublist {b : Nat} {l m : List Req} (h : l.Sublist m) : ∀ (p q : Nat), Div b m → p ≤ q → ideal p l ≤ ideal q m := by
  induction h with
  | slnil => intro p q _ h; exact h
  | @cons l m x hs ih =>
    intro p q hd hpq
    obtain ⟨s, a⟩ := x
    simp only [ideal]
    exact ih _ _ hd.tail (by have := (up_spec hd.head.1 q).2.1; omega)
  | @cons_cons l m x hs ih =>
    intro p q hd hpq
    obtain ⟨s, a⟩ := x
    simp only [ideal]
    exact ih _ _ hd.tail (by have := up_mono hd.head.1 hpq; omega)

/-- The aligned size is the first multiple. -/
theorem alignedSize_up {s a r : Nat} (hs : s < 2 ^ 64) (h : alignedSize s a = some r) : r = up a s := by
  obtain ⟨⟨h1, h2, h3⟩, ha⟩ := alignedSize_some hs h
  obtain ⟨g1, g2, g3⟩ := up_spec ha s
  have := h3 _ g1 g2
  exact (up_unique ha h1 h2 (by omega)).symm

theorem sequence_ideal : ∀ (l : List Req) (p t : Nat), (∀ x, l.head? = some x → x.2 ∣ p) → alignedSequenceFrom p l = some t →
    p < 2 ^ 64 → (∀ x ∈ l, x.1 < 2 ^ 64 ∧ x.2 < 2 ^ 64) → t = ideal p l
  | [], p, t, _, h, _, _ => by simp only [alignedSequenceFrom, Option.some.injEq] at h; exact h.symm
  | [(s, a)], p, t, hd, h, _, _ => by
    simp only [alignedSequenceFrom] at h
    split at h
    · cases h
    · rename_i ha
      split at h
      · cases h
        simp only [ideal]
        rw [up_self (by omega) (hd (s, a) rfl)]
      · cases h
  | (s, a) :: (s', a') :: l, p, t, hd, h, hp, hal => by
    simp only [alignedSequenceFrom] at h
    split at h
    · cases h
    · rename_i ha
      split at h
      · rename_i hle
        split at h
        · cases h
        · rename_i ha'
          have hW : W = 2 ^ 64 := by decide
          have hs : p + s < 2 ^ 64 := by have := (hal (s, a) (by simp)).1; dsimp only at this; omega
          cases e : alignedSize (p + s) a' with
          | none => rw [e] at h; cases h
          | some r =>
            rw [e] at h
            have hr := alignedSize_up hs e
            have hr64 : r < 2 ^ 64 := by
              unfold alignedSize at e
              split at e
              · cases e
              · split at e
                · cases e; exact hs
                · split at e
                  · split at e
                    · cases e; rw [← hW]; exact Nat.mod_lt _ (by decide)
                    · cases e
                  · cases e; exact (hal (s', a') (by simp)).2
            have ha0 : 0 < a' := by omega
            have ih := sequence_ideal ((s', a') :: l) r t (by
              intro x hx; cases hx; subst hr; exact (up_spec ha0 _).1) h hr64 (fun x hx => hal x (List.mem_cons_of_mem _ hx))
            rw [ih]
            simp only [ideal]
            rw [up_self (by omega) (hd (s, a) rfl), hr, up_self ha0 (up_spec ha0 _).1]
      · cases h

/-- One allocation: it succeeds iff there is room, at the first aligned offset. -/
theorem compute_eq {c : ShmAlloc.Cfg} {cur bytes align : Nat} (hb : 0 < c.base 0) (hs : c.base 0 + c.size < 2 ^ 63) (hc : cur ≤ c.size)
    (ha : 0 < align) (hd : align ∣ c.base 0) :
    ShmAlloc.compute c 0 cur bytes align =
      if up align cur + bytes ≤ c.size then some (c.base 0 + up align cur, up align cur + bytes) else none := by
  have hW : W = 2 ^ 64 := by decide
  have hH : H = 2 ^ 63 := by decide
  have hal : align ≤ c.base 0 := Nat.le_of_dvd hb hd
  obtain ⟨u1, u2, u3⟩ := up_spec ha cur
  have e1 : addOffset (c.base 0) c.size = some (c.base 0 + c.size) := by
    unfold addOffset
    rw [if_pos (by omega), Nat.mod_eq_of_lt (by omega)]
  have e2 : addOffset (c.base 0) cur = some (c.base 0 + cur) := by
    unfold addOffset
    rw [if_pos (by omega), Nat.mod_eq_of_lt (by omega)]
  have e3 : subPointers (c.base 0 + c.size) (c.base 0 + cur) = some (((c.base 0 + c.size : Nat) : Int) - (c.base 0 + cur : Nat)) :=
    ShmAlloc.subPointers_ge (by omega) (by omega)
  have e4 : toUnsigned (((c.base 0 + c.size : Nat) : Int) - (c.base 0 + cur : Nat)) = c.size - cur := by
    rw [ShmAlloc.toUnsigned_sub (by omega) (by omega)]; omega
  have e5 : ShmAlloc.alignUp (c.base 0 + cur) align = c.base 0 + up align cur := by
    have : ShmAlloc.alignUp (c.base 0 + cur) align = up align (c.base 0 + cur) % W := rfl
    rw [this, up_add ha hd, Nat.mod_eq_of_lt (by omega)]
  have e6 : (c.base 0 + up align cur + W - (c.base 0 + cur)) % W = up align cur - cur := by
    rw [show c.base 0 + up align cur + W - (c.base 0 + cur) = (up align cur - cur) + W by omega, Nat.add_mod_right,
      Nat.mod_eq_of_lt (by omega)]
  unfold ShmAlloc.compute ShmAlloc.algorithm
  rw [e1]; dsimp only [Option.bind_eq_bind, Option.bind_some]
  rw [e2]; dsimp only [Option.bind_eq_bind, Option.bind_some]
  rw [e3]; dsimp only [Option.map_some, Option.bind_some]
  rw [e4]
  unfold ShmAlloc.stdAlign
  dsimp only
  rw [e5, e6]
  by_cases hfit : up align cur + bytes ≤ c.size
  · rw [if_neg (by omega), if_neg (by omega), if_neg (by omega), if_pos hfit]
    dsimp only [Option.bind_some]
    rw [ShmAlloc.subPointers_ge (by omega) (by omega)]
    dsimp only [Option.bind_some]
    rw [if_neg (by omega)]
    have e7 : (((c.base 0 + up align cur : Nat) : Int) - (c.base 0 + cur : Nat)).toNat = up align cur - cur := by omega
    rw [e7]
    unfold ShmAlloc.safeAdd
    rw [if_pos (by omega)]
    dsimp only [Option.bind_some]
    rw [if_pos (by omega)]
    dsimp only [Option.bind_some, pure]
    congr 2
    omega
  · rw [if_neg hfit]
    by_cases h1 : c.size - cur < bytes
    · rw [if_pos h1]; rfl
    · rw [if_neg h1, if_pos (by omega)]; rfl

/-- A sequence of allocations succeeds iff there is room for all. -/
theorem place_eq {c : ShmAlloc.Cfg} (hb : 0 < c.base 0) (hs : c.base 0 + c.size < 2 ^ 63) :
    ∀ (l : List Req) (cur : Nat), Div (c.base 0) l → cur ≤ c.size →
      place c cur l = if ideal cur l ≤ c.size then some (ideal cur l) else none
  | [], cur, _, hc => by simp [place, ideal, hc]
  | (s, a) :: l, cur, hd, hc => by
    obtain ⟨ha, had⟩ := hd.head
    simp only [place, ideal]
    rw [compute_eq hb hs hc ha had]
    by_cases h : up a cur + s ≤ c.size
    · rw [if_pos h]
      exact place_eq hb hs l _ hd.tail h
    · rw [if_neg h]
      have := ideal_le l (up a cur + s) hd.tail
      have h2 : ¬ ideal (up a cur + s) l ≤ c.size := by omega
      simp [h2]

theorem simulateOne_some {sum bytes align r : Nat} (ha : 0 < align) (hd : align ∣ 4096) (h : simulateOne sum bytes align = some r) :
    r = up align sum + bytes := by
  have hW : W = 2 ^ 64 := by decide
  have hH : H = 2 ^ 63 := by decide
  obtain ⟨u1, u2, u3⟩ := up_spec ha sum
  have hal : align ≤ 4096 := Nat.le_of_dvd (by omega) hd
  unfold simulateOne at h
  simp only [Option.bind_eq_bind, Option.bind_eq_some_iff] at h
  obtain ⟨start, h1, most, h2, h⟩ := h
  have hst : start = 4096 + sum ∧ 4096 + sum < 2 ^ 64 := by
    unfold addOffset at h1
    split at h1
    · cases h1
      exact ⟨Nat.mod_eq_of_lt (by omega), by omega⟩
    · cases h1
  have hm : most = bytes + align ∧ bytes + align < 2 ^ 64 := by
    unfold ShmAlloc.safeAdd at h2
    split at h2
    · cases h2; exact ⟨rfl, by omega⟩
    · cases h2
  rw [if_neg (by omega)] at h
  simp only [Option.bind_eq_some_iff] at h
  obtain ⟨stop, h3, q?, h4, q, rfl, pad, h5, h⟩ := h
  have hsp : stop = start + (most - 1) ∧ start + (most - 1) < 2 ^ 64 := by
    unfold addOffset at h3
    split at h3
    · cases h3
      exact ⟨Nat.mod_eq_of_lt (by omega), by omega⟩
    · cases h3
  have hq : q = 4096 + up align sum := by
    unfold ShmAlloc.algorithm at h4
    simp only [Option.map_eq_some_iff] at h4
    obtain ⟨d, hdd, h4⟩ := h4
    unfold ShmAlloc.stdAlign at h4
    dsimp only at h4
    split at h4
    · cases h4
    · split at h4
      · cases h4
      · split at h4
        · cases h4
        · cases h4
          have : ShmAlloc.alignUp start align = up align start % W := rfl
          rw [this, hst.1, up_add ha hd]
          have hu : 4096 + up align sum ≤ 4096 + sum + (align - 1) := by omega
          exact Nat.mod_eq_of_lt (by omega)
  split at h
  · cases h
  · simp only [Option.bind_eq_some_iff] at h
    obtain ⟨total, h6, h7⟩ := h
    rw [hq, hst.1] at h5
    have hp : pad = ((4096 + up align sum : Nat) : Int) - (4096 + sum : Nat) := by
      by_cases hbig : 4096 + up align sum - (4096 + sum) ≤ H - 1
      · rw [ShmAlloc.subPointers_ge (by omega) hbig] at h5
        exact (Option.some.inj h5).symm
      · omega
    unfold ShmAlloc.safeAdd at h6 h7
    split at h6
    · split at h7
      · cases h6; cases h7
        omega
      · cases h7
    · cases h6

theorem simulate_some : ∀ (l : List Req) (sum r : Nat), Div 4096 l → simulate sum l = some r → r = ideal sum l
  | [], sum, r, _, h => by simp only [simulate, Option.some.injEq] at h; exact h.symm
  | (s, a) :: l, sum, r, hd, h => by
    simp only [simulate] at h
    cases e : simulateOne sum s a with
    | none => rw [e] at h; cases h
    | some v =>
      rw [e] at h
      obtain ⟨ha, had⟩ := hd.head
      have := simulateOne_some ha had e
      subst this
      exact simulate_some l _ r hd.tail h

end Verif.Sizing
