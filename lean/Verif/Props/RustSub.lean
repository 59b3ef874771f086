import Verif.Proofs.RustSub

/-!
# C125  A subscription of the Rust API

`run init ops` is the state after any sequence of what a user may do with a subscriber, its
subscription, receive futures and samples, and any outcome of what these ask for.
-/
namespace Verif.Props.C125
open Verif.RustSub

/-- **In force just as long as it exists.**  While the process lives, the event is subscribed with
just the number that the subscription of the user has, and not without one.  The proxy exists just if
the user has one of the two objects, and the receive handler is set only with a subscription. -/
theorem in_force (ops : List Op) (h : Alive (run init ops)) :
    (∀ m, (run init ops).sub = some m ↔ (run init ops).obj = .subscription m) ∧
    ((run init ops).proxy = true ↔ (run init ops).obj ≠ .none) ∧
    ((run init ops).handler = true → ∃ m, (run init ops).obj = .subscription m) := by
  have i : Inv (run init ops) := inv_run ops inv_init
  have o := (alive_iff i).1 h
  exact ⟨i.sb o, i.px o, i.hd o⟩

example : let s := run init [.create true, .subscribe 3 true true true, .startReceive, .endReceive false, .unsubscribe,
      .subscribe 5 true true true]
    Alive s ∧ s.obj = .subscription 5 ∧ s.sub = some 5 ∧ s.handler = false := by unfold Alive; decide +kernel

/-- **No sample without its subscription.**  While the process lives, the samples of a subscription
do not outlive it, and they are at most as many as were asked for. -/
theorem samples_within (ops : List Op) (h : Alive (run init ops)) (hs : 0 < (run init ops).samples) :
    ∃ m, (run init ops).obj = .subscription m ∧ (run init ops).sub = some m ∧ (run init ops).samples ≤ m := by
  have i : Inv (run init ops) := inv_run ops inv_init
  have o := (alive_iff i).1 h
  obtain ⟨m, a, b⟩ := i.sm o hs
  exact ⟨m, a, (i.sb o m).2 a, b⟩

example : let s := run init [.create true, .subscribe 3 true true true, .receive 2, .receive 4, .release]
    Alive s ∧ s.samples = 2 := by unfold Alive; decide +kernel

/-- **The result of `subscribe`.**  With a number up to 255 or above 32 bits the process goes on.  The
subscription is there just if the number is not zero and fits, the service has the event, the binding
accepts it and the type is known.  Otherwise an error is returned and nothing is left behind, also if
the error comes after the event was subscribed. -/
theorem subscribe_result (ops : List Op) (m : Nat) (e b o : Bool) (h : Alive (run init ops))
    (hs : (run init ops).obj = .subscriber) (hm : m ≤ 255 ∨ 4294967295 < m) :
    let s' := run init (ops ++ [.subscribe m e b o])
    Alive s' ∧
    (0 < m ∧ m ≤ 255 ∧ e = true ∧ b = true ∧ o = true →
      s'.obj = .subscription m ∧ s'.sub = some m ∧ s'.log = .subscribed m :: (run init ops).log) ∧
    (¬ (0 < m ∧ m ≤ 255 ∧ e = true ∧ b = true ∧ o = true) →
      Nothing s' ∧ s'.log = .refused m :: (run init ops).log) := by
  have i : Inv (run init ops) := inv_run ops inv_init
  have ov := (alive_iff i).1 h
  have e1 : run init (ops ++ [.subscribe m e b o]) = step (run init ops) (.subscribe m e b o) := by
    simp [run, List.foldl_append]
  intro s'
  have i' : Inv s' := inv_run _ inv_init
  rw [alive_iff i']
  have e2 : s' = step (run init ops) (.subscribe m e b o) := e1
  rw [e2]
  have hh : (run init ops).handler = false := by
    cases hx : (run init ops).handler with
    | false => rfl
    | true => obtain ⟨k, a⟩ := i.hd ov hx; rw [hs] at a; cases a
  have hsm : (run init ops).samples = 0 := by
    cases hx : (run init ops).samples with
    | zero => rfl
    | succ n => obtain ⟨k, a, _⟩ := i.sm ov (by omega); rw [hs] at a; cases a
  have hsub : (run init ops).sub = none := by
    cases hx : (run init ops).sub with
    | none => rfl
    | some k => have := (i.sb ov k).1 hx; rw [hs] at this; cases this
  clear e2 i' e1 i h
  generalize run init ops = s at *
  clear s'
  have hr : ∀ u : St, u.over = false → u.samples = 0 → u.handler = false →
      (refuse u m).over = false ∧ Nothing (refuse u m) ∧ (refuse u m).log = .refused m :: u.log := by
    intro u a b c
    cases hu : u.sub <;> simp [refuse, destroyProxy, cppUnsubscribe, Nothing, a, b, c, hu]
  have r1 := hr s ov hsm hh
  have r2 := hr { s with sub := some m } ov hsm hh
  simp only [hs, ov] at r2
  simp only [step, ov, Bool.false_eq_true, if_false, subscribe, hs]
  by_cases h0 : m = 0
  · rw [if_pos h0]; exact ⟨r1.1, fun x => by omega, fun _ => r1.2⟩
  · rw [if_neg h0]
    cases e with
    | false => rw [if_pos rfl]; exact ⟨r1.1, by simp, fun _ => r1.2⟩
    | true =>
      rw [if_neg (by simp)]
      by_cases h1 : 4294967295 < m
      · rw [if_pos h1]; exact ⟨r1.1, fun x => by omega, fun _ => r1.2⟩
      · have h2 : ¬ 255 < m := by omega
        rw [if_neg h1, if_neg h2]
        cases b with
        | false => rw [if_pos rfl]; exact ⟨r1.1, by simp, fun _ => r1.2⟩
        | true =>
          rw [if_neg (by simp)]
          cases o with
          | false => rw [if_pos rfl]; exact ⟨r2.1, by simp, fun _ => r2.2⟩
          | true =>
            rw [if_neg (by simp)]
            exact ⟨rfl, fun _ => ⟨rfl, rfl, rfl⟩, fun x => absurd ⟨by omega, by omega, rfl, rfl, rfl⟩ x⟩

example : let s := run init [.create true, .subscribe 2 true true true, .unsubscribe]
    Alive s ∧ s.obj = .subscriber := by unfold Alive; decide +kernel

/-- **Giving up.**  A subscription that is given up without samples and without a forgotten future
ends in order: after `unsubscribe` the user has a subscriber with its proxy and the event is not
subscribed; after a drop nothing is left. -/
theorem giving_up_partial (ops : List Op) (h : Alive (run init ops)) (hg : MayGiveUp (run init ops))
    (hs : (run init ops).samples = 0) (hb : (run init ops).busy = false) :
    let s' := run init (ops ++ [.unsubscribe])
    let s'' := run init (ops ++ [.drop])
    (Alive s' ∧ s'.obj = .subscriber ∧ s'.sub = none ∧ s'.proxy = true ∧ s'.handler = false) ∧
      Alive s'' ∧ Nothing s'' := by
  have i : Inv (run init ops) := inv_run ops inv_init
  have ov := (alive_iff i).1 h
  obtain ⟨⟨m, hm⟩, hf⟩ := hg
  have hsub := (i.sb ov m).2 hm
  have hp := (i.px ov).2 (by rw [hm]; simp)
  have a1 : run init (ops ++ [.unsubscribe]) = step (run init ops) .unsubscribe := by simp [run, List.foldl_append]
  have a2 : run init (ops ++ [.drop]) = step (run init ops) .drop := by simp [run, List.foldl_append]
  intro s' s''
  rw [show s' = _ from a1, show s'' = _ from a2, alive_iff (inv_step i _), alive_iff (inv_step i _)]
  clear s' s''
  generalize run init ops = s at *
  constructor <;>
    simp [step, ov, unsubscribe, drop, dropSubscription, cppUnsubscribe, destroyProxy, Nothing, hm, hf, hb, hs, hsub, hp]

example : let s := run init [.create true, .subscribe 2 true true true, .receive 1, .startReceive, .release, .endReceive false]
    Alive s ∧ MayGiveUp s ∧ s.samples = 0 ∧ s.busy = false ∧ s.handler = true :=
  ⟨by unfold Alive; decide +kernel, ⟨⟨2, by decide +kernel⟩, by decide +kernel⟩, by decide +kernel, by decide +kernel,
    by decide +kernel⟩

/-- **The process goes on** with a careful user.  Missing: the cases below. -/
theorem process_lives_partial (ops : List Op)
    (h : ∀ pre op post, ops = pre ++ op :: post → Careful (run init pre) op) : Alive (run init ops) := by
  have key : ∀ (post pre : List Op), ops = pre ++ post → Calm (run init pre) → Calm (run init ops) := by
    intro post
    induction post with
    | nil => intro pre e c; rw [e]; simpa using c
    | cons op post ih =>
      intro pre e c
      refine ih (pre ++ [op]) (by simp [e]) ?_
      have : run init (pre ++ [op]) = step (run init pre) op := by simp [run, List.foldl_append]
      rw [this]
      exact calm_step (inv_run pre inv_init) c (h pre op post e)
  have c := key ops [] rfl ⟨rfl, by simp [run, init]⟩
  exact (alive_iff (inv_run ops inv_init)).2 c.ov

/-- The hypothesis for the drop of a subscription whose samples are dropped. -/
example : Careful (run init [.create true, .subscribe 2 true true true, .receive 1, .release]) .drop :=
  ⟨fun _ => by decide +kernel, by simp, by simp, by simp⟩

/-- **Violated.**  Samples borrow nothing, so that the compiler allows to give up the subscription
before them.  Whenever this happens, the process is ended. -/
theorem held_samples_fails (ops : List Op) (h : Alive (run init ops)) (hg : MayGiveUp (run init ops))
    (hs : 0 < (run init ops).samples) :
    ¬ Alive (run init (ops ++ [.unsubscribe])) ∧ ¬ Alive (run init (ops ++ [.drop])) := by
  have i : Inv (run init ops) := inv_run ops inv_init
  have ov := (alive_iff i).1 h
  obtain ⟨⟨m, hm⟩, hf⟩ := hg
  have hsub := (i.sb ov m).2 hm
  have a1 : run init (ops ++ [.unsubscribe]) = step (run init ops) .unsubscribe := by simp [run, List.foldl_append]
  have a2 : run init (ops ++ [.drop]) = step (run init ops) .drop := by simp [run, List.foldl_append]
  rw [a1, a2, alive_iff (inv_step i _), alive_iff (inv_step i _)]
  generalize run init ops = s at *
  have h0 : s.samples ≠ 0 := by omega
  cases hb : s.busy <;>
    simp [step, ov, unsubscribe, drop, dropSubscription, cppUnsubscribe, finish, hm, hf, hb, h0, hsub]

example : let s := run init [.create true, .subscribe 2 true true true, .receive 1]
    Alive s ∧ MayGiveUp s ∧ 0 < s.samples :=
  ⟨by unfold Alive; decide +kernel, ⟨⟨2, by decide +kernel⟩, by decide +kernel⟩, by decide +kernel⟩

/-- **Violated.**  A receive future that is given to `mem::forget` (safe code) leaves the guard taken:
the next receive, and the drop of the subscription, end the process. -/
theorem forgotten_future_fails (m : Nat) (h0 : 0 < m) (h1 : m ≤ 255) (op : Op)
    (ho : op = .drop ∨ op = .unsubscribe ∨ op = .startReceive ∨ ∃ n, op = .receive n) :
    let ops : List Op := [.create true, .subscribe m true true true, .startReceive, .endReceive true]
    Alive (run init ops) ∧ (run init ops).samples = 0 ∧ ¬ Alive (run init (ops ++ [op])) := by
  have a : m ≠ 0 := by omega
  have b : ¬ 4294967295 < m := by omega
  have c : ¬ 255 < m := by omega
  rcases ho with rfl | rfl | rfl | ⟨n, rfl⟩ <;>
    simp [Alive, run, init, step, create, subscribe, startReceive, endReceive, drop, unsubscribe, receive,
      dropSubscription, finish, a, b, c]

/-- **Violated.**  `subscribe` refuses numbers above 32 bits with an error.  Numbers from 256 on that
fit in 32 bits end the process instead. -/
theorem many_samples_fails (ops : List Op) (m : Nat) (b o : Bool) (h : Alive (run init ops))
    (hs : (run init ops).obj = .subscriber) (h1 : 255 < m) (h2 : m ≤ 4294967295) :
    ¬ Alive (run init (ops ++ [.subscribe m true b o])) := by
  have i : Inv (run init ops) := inv_run ops inv_init
  have ov := (alive_iff i).1 h
  have a1 : run init (ops ++ [.subscribe m true b o]) = step (run init ops) (.subscribe m true b o) := by
    simp [run, List.foldl_append]
  rw [a1, alive_iff (inv_step i _)]
  generalize run init ops = s at *
  have a : m ≠ 0 := by omega
  have c : ¬ 4294967295 < m := by omega
  simp [step, ov, subscribe, hs, finish, a, c, h1]

example : Alive (run init [.create true]) ∧ (run init [.create true]).obj = .subscriber := by unfold Alive; decide +kernel

end Verif.Props.C125
