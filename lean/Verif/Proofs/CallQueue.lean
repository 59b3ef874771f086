import Verif.Spec.CallQueue
import Verif.Proofs.ShmAlloc
namespace Verif.CallQueue
open Verif

theorem W_eq : Arith.W = 2 ^ 64 := by decide

theorem mul_of_lt {x y : Nat} (h : x * y < 2 ^ 64) : mul x y = x * y := by
  unfold mul; rw [W_eq]; exact Nat.mod_eq_of_lt h

/-- The storage allocated for one half of the queue. -/
theorem allocateOne_some {c : ShmAlloc.Cfg} {i cur n : Nat} {t? : Option TypeInfo} {s : Span} {cur' : Nat}
    (ok : c.Ok) (hc : cur ≤ c.size) (ht : ∀ t, t? = some t → t.Ok)
    (h : allocateOne c i cur t? n = some (s, cur')) :
    cur ≤ cur' ∧ cur' ≤ c.size ∧
      ∀ t, t? = some t → s.size = mul t.size n ∧ t.align ∣ s.data ∧ c.base i + cur ≤ s.data ∧ s.data + s.size = c.base i + cur' := by
  unfold allocateOne at h
  cases ht? : t? with
  | none =>
    rw [ht?] at h
    simp only [Option.some.injEq, Prod.mk.injEq] at h
    obtain ⟨_, rfl⟩ := h
    exact ⟨Nat.le_refl _, hc, fun t ht => by cases ht⟩
  | some t =>
    rw [ht?] at h
    dsimp only at h
    cases hr : ShmAlloc.compute c i cur (mul t.size n) t.align with
    | none => rw [hr] at h; simp at h
    | some r =>
      obtain ⟨q, new⟩ := r
      rw [hr] at h
      simp only [Option.map_some, Option.some.injEq, Prod.mk.injEq] at h
      obtain ⟨rfl, rfl⟩ := h
      obtain ⟨_, _, k, hk, hal⟩ := ht t ht?
      have hlt : t.align < Arith.W := by
        rw [hal, W_eq]; exact Nat.pow_lt_pow_right (by decide) hk
      obtain ⟨h1, h2, h3, h4⟩ := ShmAlloc.compute_some ok hc hlt hr
      refine ⟨by omega, by omega, fun t' ht' => ?_⟩
      simp only [Option.some.injEq] at ht'
      subst ht'
      exact ⟨rfl, h1, h2, h4.symm⟩

theorem construct_some {c : ShmAlloc.Cfg} {i cur : Nat} {q : Queue} {cur' : Nat} (h : Built c i cur q cur') :
    ∃ mid, cur ≤ mid ∧ mid ≤ cur' ∧ cur' ≤ c.size ∧
      (∀ t, q.info.inArg = some t → q.inArgs.size = mul t.size q.info.queueSize ∧ t.align ∣ q.inArgs.data ∧
        c.base i + cur ≤ q.inArgs.data ∧ q.inArgs.data + q.inArgs.size = c.base i + mid) ∧
      (∀ t, q.info.ret = some t → q.returns.size = mul t.size q.info.queueSize ∧ t.align ∣ q.returns.data ∧
        c.base i + mid ≤ q.returns.data ∧ q.returns.data + q.returns.size = c.base i + cur') := by
  obtain ⟨ok, hc, hi, h⟩ := h
  unfold construct at h
  cases h1 : allocateOne c i cur q.info.inArg q.info.queueSize with
  | none => rw [h1] at h; simp at h
  | some r =>
    obtain ⟨a, mid⟩ := r
    rw [h1] at h
    dsimp only at h
    cases h2 : allocateOne c i mid q.info.ret q.info.queueSize with
    | none => rw [h2] at h; simp at h
    | some r2 =>
      obtain ⟨b, fin⟩ := r2
      rw [h2] at h
      simp only [Option.some.injEq, Prod.mk.injEq] at h
      obtain ⟨hq, rfl⟩ := h
      obtain ⟨g1, g2, g3⟩ := allocateOne_some ok hc hi.1 h1
      obtain ⟨k1, k2, k3⟩ := allocateOne_some ok g2 hi.2.1 h2
      have ea : q.inArgs = a := by rw [← hq]
      have eb : q.returns = b := by rw [← hq]
      refine ⟨mid, g1, k1, k2, fun t ht => ?_, fun t ht => ?_⟩
      · rw [ea]; exact g3 t ht
      · rw [eb]; exact k3 t ht

/-- An element of a storage that is as long as it should be. -/
theorem getElement_some {pos n : Nat} {t : TypeInfo} {s e : Span} (hf : t.size * n < 2 ^ 64) (hs : s.data + s.size < 2 ^ 64)
    (h : getElement pos t s n = some e) :
    pos < n ∧ s.size = t.size * n ∧ e.data = s.data + t.size * pos ∧ e.size = t.size := by
  unfold getElement at h
  split at h
  · cases h
  · rename_i hp
    split at h
    · cases h
    · rename_i hsz
      have hp : pos < n := by omega
      have hsz : s.size = mul t.size n := Decidable.not_not.mp hsz
      rw [mul_of_lt hf] at hsz
      have hle : t.size * pos ≤ t.size * n := Nat.mul_le_mul_left _ (Nat.le_of_lt hp)
      rw [mul_of_lt (by omega)] at h
      unfold Arith.addOffset at h
      rw [W_eq] at h
      split at h
      · simp only [Option.map_some, Option.some.injEq] at h
        subst h
        refine ⟨hp, hsz, ?_, rfl⟩
        show (s.data + t.size * pos) % 2 ^ 64 = _
        exact Nat.mod_eq_of_lt (by omega)
      · cases h

theorem getElement_of_lt {pos n : Nat} {t : TypeInfo} {s : Span} (hf : t.size * n < 2 ^ 64) (hs : s.data + s.size < 2 ^ 64)
    (hsz : s.size = t.size * n) (hp : pos < n) : ∃ e, getElement pos t s n = some e := by
  have hle : t.size * pos ≤ t.size * n := Nat.mul_le_mul_left _ (Nat.le_of_lt hp)
  unfold getElement
  rw [if_neg (by omega), if_neg (by rw [mul_of_lt hf]; omega), mul_of_lt (by omega)]
  unfold Arith.addOffset
  rw [W_eq, if_pos (by omega)]
  exact ⟨_, rfl⟩

theorem getElement_big {pos n : Nat} {t : TypeInfo} {s : Span} (hp : n ≤ pos) : getElement pos t s n = none := by
  unfold getElement
  rw [if_pos (by omega)]

theorem inArgAt_eq (q : Queue) (pos : Nat) :
    q.inArgAt pos = match q.info.inArg with
      | none => none
      | some t => getElement pos t q.inArgs q.info.queueSize := by
  unfold Queue.inArgAt Queue.inArgStorage inArgElement
  cases h : q.info.inArg <;> simp [h]

theorem returnAt_eq (q : Queue) (pos : Nat) :
    q.returnAt pos = match q.info.ret with
      | none => none
      | some t => getElement pos t q.returns q.info.queueSize := by
  unfold Queue.returnAt Queue.returnStorage returnElement
  cases h : q.info.ret <;> simp [h]

/-- Two elements of one storage do not overlap. -/
theorem apart_of_ne {s i j : Nat} (d : Nat) (h : i ≠ j) : Span.Apart ⟨d + s * i, s⟩ ⟨d + s * j, s⟩ := by
  intro x
  rintro ⟨⟨h1, h2⟩, h3, h4⟩
  dsimp only at h1 h2 h3 h4
  rcases Nat.lt_or_gt_of_ne h with hl | hl
  · have : s * (i + 1) ≤ s * j := Nat.mul_le_mul_left _ hl
    rw [Nat.mul_succ] at this
    omega
  · have : s * (j + 1) ≤ s * i := Nat.mul_le_mul_left _ hl
    rw [Nat.mul_succ] at this
    omega

end Verif.CallQueue
