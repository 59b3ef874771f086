import Verif.Proofs.Marker
/-! C77: one provider per service instance. -/
namespace Verif.Props.C77
open Verif Verif.Marker

/-- At most one skeleton object exists for a service instance, in all processes together, in every run in which no object is created
while another one is destroyed. -/
theorem one_provider_partial (c : Nat → Nat) (ops : List Op) (h : Orderly c ops) (k j : Nat)
    (hk : Exists (run c init ops) k) (hj : Exists (run c init ops) j) : k = j := by
  have hi := inv_orderly c ops h
  obtain ⟨i, hk⟩ := hk
  obtain ⟨i', hj⟩ := hj
  have h1 := hi.up _ _ hk
  have h2 := hi.up _ _ hj
  have : i = i' := by rw [h1] at h2; exact Option.some.inj h2
  subst this
  have a := (hi.lock _ _).mpr hk
  have b := (hi.lock _ _).mpr hj
  rw [a] at b
  exact Option.some.inj b

/-- While an object exists, Create of another one fails, in such runs. -/
theorem second_refused_partial (c : Nat → Nat) (ops : List Op) (k j : Nat) (ok : Bool)
    (h : Orderly c (ops ++ [.open j ok, .tryLock j])) (hk : Exists (run c init ops) k) (hkj : j ≠ k) :
    ¬Exists (run c init (ops ++ [.open j ok, .tryLock j])) j := by
  intro hj
  refine hkj (one_provider_partial c _ h j k hj ?_)
  obtain ⟨i, hk⟩ := hk
  refine ⟨i, ?_⟩
  rw [run, List.foldl_append]
  simp only [List.foldl_cons, List.foldl_nil]
  have e1 : (step c (run c init ops) (.open j ok)).pc k = .up i := by
    simp only [step]; split
    · split <;> simp only [upd_ne _ _ (Ne.symm hkj)] <;> exact hk
    · exact hk
  have e2 : ∀ s : St, s.pc k = .up i → (step c s (.tryLock j)).pc k = .up i := by
    intro s hs
    simp only [step]; split
    · split <;> simp only [upd_ne _ _ (Ne.symm hkj)] <;> exact hs
    · exact hs
  exact e2 _ e1

/-- Whatever happened before, including ends of processes at any point: when no object exists and none is being created or
destroyed, Create succeeds. -/
theorem can_be_created (c : Nat → Nat) (ops : List Op) (h : ∀ k, (run c init ops).pc k = .none) (k : Nat) :
    Exists (run c init (ops ++ [.open k true, .tryLock k])) k := by
  have hb := base_run c ops base_init
  have hl : ∀ i, (run c init ops).lock i = none := by
    intro i
    cases e : (run c init ops).lock i with
    | none => rfl
    | some j => have := (hb.lock i j).mp e; rw [h j] at this; cases this
  rw [run, List.foldl_append]
  show Exists (step c (step c (run c init ops) (.open k true)) (.tryLock k)) k
  generalize run c init ops = s at *
  cases hp : s.path with
  | some i =>
    refine ⟨i, ?_⟩
    simp [step, h k, hp, hl]
  | none =>
    refine ⟨s.fresh, ?_⟩
    simp [step, h k, hp, hl]

/-- The claim without the restriction. -/
def OneProvider : Prop :=
  ∀ (c : Nat → Nat) (ops : List Op) (k j : Nat), Exists (run c init ops) k → Exists (run c init ops) j → k = j

/-- Object 1 opens the file while object 0 exists and locks it after object 0 has unlocked it. Then object 0 removes the name, so
object 2 makes and locks another file. -/
def overlap : List Op :=
  [.open 0 true, .tryLock 0, .open 1 true, .unlock 0, .tryLock 1, .unlink 0, .open 2 true, .tryLock 2]

/-- Finding: the restriction is needed. The name of the marker file is removed after it is unlocked, and Create does not check that
the file that it has locked is still the one that the path names. -/
theorem two_providers : ¬OneProvider := by
  intro h
  have := h id overlap 1 2 ⟨0, by decide +kernel⟩ ⟨1, by decide +kernel⟩
  exact absurd this (by decide)

/-- Meanwhile nothing ends a process and no operation fails. -/
theorem two_providers_wherever (c : Nat → Nat) : Exists (run c init overlap) 1 ∧ Exists (run c init overlap) 2 := by
  constructor
  · exact ⟨0, by simp [overlap, run, step, init, upd]⟩
  · exact ⟨1, by simp [overlap, run, step, init, upd]⟩

end Verif.Props.C77

namespace Verif.Demo.C77
open Verif Verif.Marker

/-- Object 0 is created; object 1 is refused; the process of object 0 ends; object 1 is created and destroyed; object 2 is created. -/
def demo : List Op :=
  [.open 0 true, .tryLock 0, .open 1 true, .tryLock 1, .crash 0, .open 1 true, .tryLock 1, .unlock 1, .unlink 1, .open 2 true,
   .tryLock 2]

def isOpened : Pc → Bool
  | .opened _ => true
  | _ => false

example : Orderly id demo := by
  intro pre hp
  obtain ⟨n, hn, rfl⟩ : ∃ n, n ≤ demo.length ∧ pre = demo.take n := ⟨pre.length, hp.length_le, (List.prefix_iff_eq_take.mp hp)⟩
  have hout : ∀ k, 3 ≤ k → (run id init (demo.take n)).pc k = .none := fun k hk =>
    untouched id _ (fun o ho he => by
      have : o ∈ demo := List.mem_of_mem_take ho
      have hb : ∀ o ∈ demo, ∀ k, o.obj = some k → k < 3 := by decide +kernel
      have := hb o this k he
      omega) rfl
  rintro k j ⟨i, hk⟩ hj
  have k3 : k < 3 := by
    rcases Nat.lt_or_ge k 3 with h | h
    · exact h
    · rw [hout k h] at hk; cases hk
  have j3 : j < 3 := by
    rcases Nat.lt_or_ge j 3 with h | h
    · exact h
    · rw [hout j h] at hj; cases hj
  have key : ∀ n < 12, ∀ k < 3, ∀ j < 3, (run id init (demo.take n)).pc j = .unlocked →
      isOpened ((run id init (demo.take n)).pc k) = false := by decide +kernel
  have := key n (by have : demo.length = 11 := rfl; omega) k k3 j j3 hj
  rw [hk] at this
  cases this

example : (run id init (demo.take 4)).pc 1 = .none ∧ (run id init (demo.take 4)).pc 0 = .up 0 ∧
    (run id init (demo.take 7)).pc 1 = .up 0 ∧ (run id init demo).pc 2 = .up 1 := by decide +kernel

end Verif.Demo.C77
