import Verif.Proofs.Stamp
import Verif.Proofs.StampSent
/-! C85: no accepted value of a field is hidden by another one. -/
namespace Verif.Props.C85
open Verif.Stamp Verif.StampSpec

variable {V : Type}

/-- If no `Update` overlaps with another `Update` or with a set handler, every sample has a greater timestamp than all samples
published before it. -/
theorem increasing_partial (ops : List (Op V)) (ha : Apart {} ops) (hl : (run {} ops).sent.length < 2 ^ 32) (i j : Nat)
    (p q : Nat × V) (hij : i < j) (hp : (run {} ops).sent[i]? = some p) (hq : (run {} ops).sent[j]? = some q) : p.1 < q.1 :=
  counted_increasing (inv_run ops inv_init ha).counted hl i j p q hij hp hq

/-- Then a consumer that has seen the sample published as number `i` is given all later ones and no earlier one. -/
theorem all_given_partial (ops : List (Op V)) (ha : Apart {} ops) (hl : (run {} ops).sent.length < 2 ^ 32) (i : Nat) (p : Nat × V)
    (hp : (run {} ops).sent[i]? = some p) :
    unseen p.1 (run {} ops).sent = ((run {} ops).sent.drop (i + 1)).map (·.2) := by
  have hc := (inv_run ops inv_init ha).counted
  have hi : i < (run {} ops).sent.length := (List.getElem?_eq_some_iff.1 hp).1
  have : p.1 = i + 1 := by
    rw [hc i p hp]; exact Nat.mod_eq_of_lt (by unfold modulus; omega)
  rw [this]
  exact counted_unseen hc hl (i + 1)

/-- The mutex suffices for `Set`: any number of set handlers on any threads do not disturb each other. -/
theorem sets_increasing_partial (ops : List (Op V)) (hs : SetsOnly ops) (hl : (run {} ops).sent.length < 2 ^ 32) (i j : Nat)
    (p q : Nat × V) (hij : i < j) (hp : (run {} ops).sent[i]? = some p) (hq : (run {} ops).sent[j]? = some q) : p.1 < q.1 :=
  increasing_partial ops (noUpdate_apart ops (by intro t; simp [Pc.kind]) hs) hl i j p q hij hp hq

/-- In every run: when all calls have returned, exactly the values of the calls have been published, each as often as it was given. -/
theorem all_published (ops : List (Op V)) (hq : ∀ t, (run ({} : St V) ops).pc t = .idle) :
    ((run {} ops).sent.map (·.2)).Perm (called {} ops) :=
  sent_all ops hq

/-- In every run: one set handler at most runs at a time, and a set handler that cannot start waits for another one that runs. -/
theorem waits_for_set (ops : List (Op V)) :
    (∀ t j, InSet ((run {} ops).pc t) → InSet ((run {} ops).pc j) → t = j) ∧
    ∀ t v, (run {} ops).pc t = .wait v → ((run {} ops).step (.next t)).pc t = .wait v → ∃ j, InSet ((run {} ops).pc j) := by
  have hi := lock_run ops (s := ({} : St V)) (by intro t; simp [Pc.isSet])
  constructor
  · intro t j ht hj
    rw [inSet_iff, hi] at ht hj
    rw [ht] at hj; exact Option.some.inj hj
  · intro t v hw hn
    cases hl : (run ({} : St V) ops).lock with
    | some j => exact ⟨j, inSet_iff.2 ((hi j).2 hl)⟩
    | none => simp [St.step, St.next, hw, hl, St.at] at hn

/-- An `Update` that overlaps with a `Set` can get the same timestamp: a consumer that has seen the one is never given the other. -/
theorem overlap_hides : ∃ ops : List (Op Nat), (run {} ops).sent = [(1, 10), (1, 20)] ∧ unseen 1 (run {} ops).sent = [] :=
  ⟨[.call 0 .update 10, .call 1 .set 20, .next 1, .next 0, .next 1, .next 0, .next 1, .next 0, .next 0, .next 1, .next 1],
    by decide +kernel, by decide +kernel⟩

/-- After such an overlap the counter is behind: a value set later, with no other send running, is hidden from a consumer that has seen
the values before. -/
theorem overlap_hides_later : ∃ (before : List (Op Nat)) (after : List (Op Nat)), (∀ t, (run {} before).pc t = .idle) ∧
    (3, 23) ∈ (run {} before).sent ∧ after = [.call 0 .update 30, .next 0, .next 0, .next 0, .next 0] ∧
    (run (run {} before) after).sent = (run {} before).sent ++ [(2, 30)] ∧ unseen 3 (run (run {} before) after).sent = [] := by
  refine ⟨[.call 0 .update 10, .next 0,
    .call 1 .set 21, .next 1, .next 1, .next 1, .next 1, .next 1,
    .call 1 .set 22, .next 1, .next 1, .next 1, .next 1, .next 1,
    .call 1 .set 23, .next 1, .next 1, .next 1, .next 1, .next 1,
    .next 0, .next 0, .next 0], _, ?_, by decide +kernel, rfl, by decide +kernel, by decide +kernel⟩
  intro t
  by_cases h0 : t = 0
  · subst h0; decide +kernel
  · by_cases h1 : t = 1
    · subst h1; decide +kernel
    · simp [run, St.step, St.next, St.at, St.leave, h0, h1]

/-- Two set handlers that overlap, between two calls of `Update`. -/
def demo : List (Op Nat) :=
  [.call 0 .update 1, .next 0, .next 0, .next 0, .next 0,
   .call 1 .set 2, .call 2 .set 3, .next 1, .next 2, .next 1, .next 2, .next 1, .next 1, .next 1, .next 2, .next 2, .next 2, .next 2,
   .next 2]

example : (run {} demo).sent = [(1, 1), (2, 2), (3, 3)] ∧ unseen 1 (run {} demo).sent = [2, 3] := by decide +kernel

end Verif.Props.C85

namespace Verif.Demo.C85
open Verif.Stamp Verif.StampSpec Verif.Props.C85

example : SetsOnly (demo.drop 5) ∧ (run {} (demo.drop 5)).sent = [(1, 2), (2, 3)] := by
  constructor
  · intro t v; simp [demo]
  · decide +kernel

/-- `all_published`: at the end of the run all threads are idle. -/
example : (∀ t, (run {} demo).pc t = .idle) ∧ called {} demo = [1, 2, 3] := by
  refine ⟨fun t => ?_, by decide +kernel⟩
  by_cases h0 : t = 0
  · subst h0; decide +kernel
  · by_cases h1 : t = 1
    · subst h1; decide +kernel
    · by_cases h2 : t = 2
      · subst h2; decide +kernel
      · simp [demo, run, St.step, St.next, St.at, St.leave, h0, h1, h2]

/-- `waits_for_set`: thread 2 waits for thread 1. -/
example : let s := run {} (demo.take 9)
    s.pc 2 = .wait 3 ∧ (s.step (.next 2)).pc 2 = .wait 3 ∧ s.pc 1 = .ready .set 2 := by decide +kernel

/-- The run keeps `Update` apart. -/
theorem demo_apart : Apart {} demo := by
  have e : demo = demo.take 5 ++ demo.drop 5 := rfl
  have app : ∀ (a b : List (Op Nat)) (s : St Nat), Apart s a → Apart (run s a) b → Apart s (a ++ b) := by
    intro a
    induction a with
    | nil => intro b s _ h; exact h
    | cons o a ih => intro b s h1 h2; exact ⟨h1.1, ih b _ h1.2 h2⟩
  rw [e]
  refine app _ _ _ ?_ (noUpdate_apart _ ?_ ?_)
  · refine ⟨?_, ?_, ?_, ?_, ?_, trivial⟩
    · intro t; rw [sending_iff]; simp [Pc.kind]
    all_goals
      rintro ⟨v, hv⟩
      simp [St.step, St.next, St.at] at hv
  · intro t
    by_cases h0 : t = 0
    · subst h0; decide +kernel
    · simp [demo, run, St.step, St.next, St.at, St.leave, h0, Pc.kind]
  · intro t v; simp [demo]

end Verif.Demo.C85
