import Verif.Proofs.FindTold

/-!
# C122  Starting and stopping a search, and the calls of its handler

`run init ops` is the state after any interleaving of the calls of any number of threads, of the
handlers, and of the thread of the service discovery.  A search is named by its handle `h`.  The
newest event is the first of the log.
-/
namespace Verif.Props.C122
open Verif.FindCalls

/-- **One at a time.**  Handlers run in one thread only; all others wait. -/
theorem handlers_one_at_a_time (ops : List Op) (t u h k : Nat) :
    Running (run init ops) t h → Running (run init ops) u k → t = u :=
  fun a b => only_owner (inv_run ops inv_init) a b

/-- Two handlers in one thread: the handler of search 0 starts search 1, which is told at once. -/
example : let s := run init [.start 1 .known, .go 1, .start 1 .known, .go 1]
    Running s 1 0 ∧ Running s 1 1 := by unfold Running; decide +kernel

/-- **No call after the end.**  A handler is called only for a search that was started before with a
name that is in the configuration and without an error, and that no call of `StopFindService` has
ended before. -/
theorem no_call_after_stop (ops : List Op) (t h : Nat) (pre post : List Ev)
    (hl : (run init ops).log = post ++ .called t h :: pre) :
    (∀ u, .stopReturned u h ∉ pre) ∧ (∀ u, .startReturned u h false ∉ (run init ops).log) ∧
      ∃ u m, .startCalled u h m ∈ pre ∧ (m = .quiet ∨ m = .known) := by
  have i : Inv (run init ops) := inv_run ops inv_init
  have x : Told (run init ops) := told_run ops inv_init told_init
  have g := i.good
  rw [hl] at g
  have g' := g.at_
  refine ⟨g'.1, fun u a => ?_, g'.2⟩
  obtain ⟨v, m, b, c⟩ := g'.2
  obtain ⟨m', d, e⟩ := x.ret u h false a
  have f := e.1 rfl
  have : m = m' := i.startU v u h m m' (by rw [hl]; simp [b]) d
  subst this; subst f
  rcases c with c | c <;> cases c

/-- The search is stopped while the service discovery has something to tell: no call. -/
example : let s := run init [.start 1 .known, .go 1, .finish 1, .go 1, .stop 1 0, .events, .tell 0, .go 0,
      .go 1]
    s.log = [.stopReturned 1 0, .stopCalled 1 0, .startReturned 1 0 true, .returned 1 0, .called 1 0,
      .startCalled 1 0 .known] := by decide +kernel

/-- **Stopped means stopped.**  If nobody has stopped the search before, and a thread that is not in
its handler calls `StopFindService`, then once the call has returned nobody is in the handler,
whatever else happens; with `no_call_after_stop`, what the handler uses may be destroyed then.

Missing for the full claim: searches that somebody else is already stopping (see
`second_stop_fails`). -/
theorem quiet_after_stop_partial (ops more : List Op) (t h : Nat)
    (first : ∀ op ∈ ops, ¬ Stops h op) (outside : ¬ Running (run init ops) t h) :
    let s := step (run init ops) (.stop t h)
    .stopCalled t h ∈ s.log → .stopReturned t h ∈ (run s more).log →
      ∀ u, ¬ Running (run s more) u h := by
  intro s hc hr
  have i : Inv (run init ops) := inv_run ops inv_init
  have hno : ∀ v, Ev.stopCalled v h ∉ (run init ops).log := by
    intro v a
    rcases stopCalled_run ops a with b | b
    · simp [init] at b
    · exact first _ b ⟨v, rfl⟩
  have hs : s = stop (run init ops) t h := rfl
  have hcond : userRuns t ((run init ops).stacks t) = true ∧ h < (run init ops).next := by
    by_cases c : userRuns t ((run init ops).stacks t) = true ∧ h < (run init ops).next
    · exact c
    · rw [hs] at hc; unfold stop at hc; rw [if_neg c] at hc; exact absurd hc (hno t)
  have x : Stopped s t h := by
    have hcb : s.callbacks h = false := by
      rw [hs]; unfold stop; rw [if_pos hcond]; dsimp only
      split <;> simp [St.say, St.put, erase, upd]
    have hrun : ∀ u, Running s u h → Running (run init ops) u h := by
      intro u a
      rw [hs] at a; unfold stop at a; rw [if_pos hcond] at a; dsimp only at a
      unfold Running at a ⊢
      split at a
      · simp only [St.put, St.say, erase] at a
        rcases mem_upd a with ⟨e, b⟩ | ⟨_, b⟩
        · subst e; simpa using b
        · exact b
      · exact a
    refine ⟨inv_step i _, hcb, ?_, fun a => outside (hrun t a), ?_⟩
    · rw [hs]; unfold stop; rw [if_pos hcond]; dsimp only; split <;> exact hcond.2
    · cases hi : (run init ops).insts h with
      | true =>
        right
        have e : s = ((erase (run init ops) h).say (.stopCalled t h)).put t
            (.stopping h false :: (run init ops).stacks t) := by
          rw [hs]; unfold stop; rw [if_pos hcond]; simp only [hi, if_true]
        rw [e]
        refine ⟨⟨(run init ops).stacks t, by simp [St.put, upd]⟩, ?_⟩
        intro a
        simp only [St.put, St.say, erase] at a
        rcases List.mem_cons.1 a with a | a
        · cases a
        · have := (i.stopL t h a).1
          rw [i.cb h hi] at this; cases this
      | false =>
        left
        intro u a
        rcases i.runs u h (hrun u a) with b | ⟨v, b⟩
        · rw [hi] at b; cases b
        · exact hno v b
  have y := stopped_run more x
  rcases y.wait with a | ⟨_, a⟩
  · exact a
  · exact absurd hr a

/-- The handler runs when the stop is called; the call waits for it. -/
example : let s := step (run init [.start 1 .quiet, .go 1, .events, .tell 0]) (.stop 1 0)
    Running s 0 0 ∧ (run s [.go 1]).log = s.log ∧
      .stopReturned 1 0 ∈ (run s [.finish 0, .go 0, .go 1]).log := by unfold Running; decide +kernel

/-- **Violated.**  A search that is already being stopped can be stopped again, and this second call
does not wait: it returns although the handler is still running.  Here the handler stops its own
search while another thread does the same. -/
theorem second_stop_fails : ∃ ops : List Op, let s := run init ops
    ∃ t u h, t ≠ u ∧ .stopReturned t h ∈ s.log ∧ ¬ Running s t h ∧ Running s u h :=
  ⟨[.start 1 .quiet, .go 1, .events, .tell 0, .stop 0 0, .go 0, .stop 1 0],
    1, 0, 0, by unfold Running; decide +kernel⟩

/-- **Handles differ.**  No two calls of `StartFindService` give the same handle. -/
theorem handles_unique (ops : List Op) (t h : Nat) (m : Mode) (pre post : List Ev)
    (hl : (run init ops).log = post ++ .startCalled t h m :: pre) : ∀ u k, .startCalled u h k ∉ pre := by
  have g := (inv_run ops inv_init).good
  rw [hl] at g
  exact g.at_

example : (run init [.start 1 .quiet, .start 2 .quiet, .go 2, .stop 2 1, .go 2, .start 2 .known]).log =
    [.startCalled 2 2 .known, .stopReturned 2 1, .stopCalled 2 1, .startReturned 2 1 true,
      .startCalled 2 1 .quiet, .startCalled 1 0 .quiet] := by decide +kernel

/-- **What StartFindService returns.**  An error if and only if the file system cannot be searched. -/
theorem start_result (ops : List Op) (t h : Nat) (ok : Bool)
    (hr : .startReturned t h ok ∈ (run init ops).log) :
    ∃ m, .startCalled t h m ∈ (run init ops).log ∧ (ok = false ↔ m = .fails) :=
  (told_run ops inv_init told_init).ret t h ok hr

example : .startReturned 1 0 false ∈ (run init [.start 1 .fails, .go 1, .go 1]).log ∧
    .startReturned 1 0 true ∈ (run init [.start 1 .quiet, .go 1]).log := by decide +kernel

/-- **What is known is told at once.**  If something is known at the start, then the handler has been
called when `StartFindService` returns, unless somebody has called `StopFindService`. -/
theorem known_is_told (ops : List Op) (t u h : Nat)
    (hr : .startReturned t h true ∈ (run init ops).log)
    (hc : .startCalled u h .known ∈ (run init ops).log)
    (hs : ∀ v, .stopCalled v h ∉ (run init ops).log) : ∃ v, .called v h ∈ (run init ops).log := by
  rcases (told_run ops inv_init told_init).kn t u h hr hc with a | ⟨v, a⟩
  · exact a
  · exact absurd a (hs v)

example : let s := run init [.start 1 .known, .go 1, .finish 1, .go 1]
    .startReturned 1 0 true ∈ s.log ∧ .startCalled 1 0 .known ∈ s.log ∧ .called 1 0 ∈ s.log := by
  decide +kernel

/-- **Later news is told as well.**  As long as nobody has called `StopFindService`, a search that was
started with a name of the configuration is told the news of the service discovery: if its thread
has nothing else to do and nobody has the mutex, the handler is called. -/
theorem news_is_told (ops : List Op) (t u h : Nat) (m : Mode) (hm : m = .quiet ∨ m = .known)
    (hr : .startReturned t h true ∈ (run init ops).log)
    (hc : .startCalled u h m ∈ (run init ops).log)
    (hs : ∀ v, .stopCalled v h ∉ (run init ops).log)
    (hi : Idle (run init ops) 0) (ho : (run init ops).owner = none) :
    Running (run (run init ops) [.events, .tell h]) 0 h := by
  have i : Inv (run init ops) := inv_run ops inv_init
  have x : Told (run init ops) := told_run ops inv_init told_init
  have nf : ¬ FailSeen (run init ops).log h := by
    rintro ⟨v, a⟩
    have := i.startU u v h m .fails hc a
    subst this
    rcases hm with e | e <;> cases e
  have ns : ¬ StopSeen (run init ops).log h := fun ⟨v, a⟩ => hs v a
  have a1 : (run init ops).searches h = true := by
    rcases x.reg t u h m hr hc hm with a | a
    · exact a
    · exact absurd a ns
  have a2 : (run init ops).obsolete h = false := by
    cases e : (run init ops).obsolete h with
    | false => rfl
    | true => rcases x.obs h e with a | a
              · exact absurd a ns
              · exact absurd a nf
  have a3 : (run init ops).callbacks h = true := by
    cases e : (run init ops).callbacks h with
    | true => rfl
    | false => rcases x.gone h (i.startL u h m hc) e with a | a
               · exact absurd a ns
               · exact absurd a nf
  unfold Idle at hi
  unfold Running
  generalize run init ops = s at *
  simp [run, step, events, tell, callUser, lock, St.put, St.say, hi, ho, upd, a1, a2, a3]

example : let s := run init [.start 1 .quiet, .go 1, .start 2 .quiet, .go 2, .stop 2 1, .go 2]
    .startReturned 1 0 true ∈ s.log ∧ .startCalled 1 0 .quiet ∈ s.log ∧ Idle s 0 ∧ s.owner = none ∧
      Running (run s [.events, .tell 0]) 0 0 ∧ ¬ Running (run s [.events, .tell 1]) 0 1 := by
  unfold Idle Running; decide +kernel

/-- **Violated.**  One would expect that a name that is not in the configuration is an error, as it is
for `FindService`.  `StartFindService` returns a handle instead, and the handler is never called. -/
theorem unknown_name_fails (ops more : List Op) (t : Nat) (ht : t ≠ 0) (hi : Idle (run init ops) t) :
    let s := step (run init ops) (.start t .unresolved)
    let h := (run init ops).next
    s.log = .startReturned t h true :: .startCalled t h .unresolved :: (run init ops).log ∧
      ∀ v, .called v h ∉ (run s more).log := by
  intro s h
  have hs : s.log = .startReturned t h true :: .startCalled t h .unresolved :: (run init ops).log := by
    have hu : userRuns t ((run init ops).stacks t) = true := by
      unfold Idle at hi; rw [hi]; simp [userRuns, ht]
    show (start (run init ops) t .unresolved).log = _
    unfold start; rw [if_pos hu]; rfl
  refine ⟨hs, fun v a => ?_⟩
  have i0 : Inv s := inv_step (inv_run ops inv_init) _
  have i : Inv (run s more) := inv_run more i0
  obtain ⟨pre, post, e⟩ := List.append_of_mem a
  have g := i.good
  rw [e] at g
  obtain ⟨u, m, b, c⟩ := g.at_.2
  have keep : ∀ (l : List Op) (s' : St) (e' : Ev), e' ∈ s'.log → e' ∈ (run s' l).log := by
    intro l
    induction l with
    | nil => intro s' e' x; exact x
    | cons op l ih => intro s' e' x; exact ih _ _ (log_step x op)
  have d : Ev.startCalled t h .unresolved ∈ (run s more).log := keep more s _ (by rw [hs]; simp)
  have : m = .unresolved := i.startU u t h m .unresolved (by rw [e]; simp [b]) d
  subst this
  rcases c with c | c <;> cases c

example : Idle (run init [.start 1 .known, .go 1]) 2 := by unfold Idle; decide +kernel

/-- **Calls return.**  In every reachable state each thread can finish all it is doing, if the other
threads go on and handlers return: nothing waits for ever.  Handlers may start and stop searches,
also their own. -/
theorem calls_return (ops : List Op) (t : Nat) :
    ∃ more : List Op, (∀ op ∈ more, GoesOn op) ∧ Idle (run (run init ops) more) t :=
  ends (inv_run ops inv_init) t

/-- Thread 2 waits in `StopFindService` while a handler of thread 1 is starting another search. -/
example : let s := run init [.start 1 .known, .go 1, .start 1 .known, .start 2 .quiet, .stop 2 0]
    ¬ Idle s 1 ∧ ¬ Idle s 2 ∧ (run s [.go 2]).log = s.log := by unfold Idle; decide +kernel

end Verif.Props.C122
