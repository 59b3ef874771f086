import Verif.Proofs.EngineThread

/-!
# C124  The thread of a message passing engine

`run init ops` is the state after any interleaving of the constructor, the destructor, the thread of
the engine, its handlers, and the events that come.  The newest event is the first of the log.
-/
namespace Verif.Props.C124
open Verif.EngineThread

/-- **No call outside the life of the engine.**  A handler is called only after the constructor and
never after the destructor has returned.  Then no handler is running either, the thread has ended,
and the channel and the context are given back. -/
theorem no_call_after_destructor (ops : List Op) :
    (∀ n pre post, (run init ops).log = post ++ .called n :: pre → .built ∈ pre ∧ .destroyed ∉ pre) ∧
    (.destroyed ∈ (run init ops).log → (run init ops).th = .ended ∧ ¬ InHandler (run init ops) ∧
      (run init ops).chan = false ∧ (run init ops).ctx = false) := by
  have i : Inv (run init ops) := inv_run ops inv_init
  refine ⟨fun n pre post h => ?_, fun h => ?_⟩
  · have g := i.good
    rw [h] at g
    exact g.at_
  · have hp := i.dst.1 h
    have ht := i.late (by rw [hp]; trivial)
    refine ⟨ht, fun ⟨n, a⟩ => ?_, (i.off (.inr hp)).1, i.out hp⟩
    rw [ht] at a; cases a

/-- The constructor. -/
def build : List Op := [.go true, .go true, .go true, .go true, .go true]

/-- An event comes while the constructor is not finished, one while the destructor waits. -/
example : let s := run init ([.go true, .arrive 7, .go true, .go true, .thread true, .go true, .go true] ++
      [.thread true, .thread true, .thread true, .thread true, .destroy false, .arrive 8, .finish, .go true] ++
      [.thread true, .thread true, .thread true, .finish, .thread true, .thread true, .thread true,
       .thread true, .go true, .go true, .go true])
    s.log = [.destroyed, .returned 8, .called 8, .returned 7, .arrived 8, .destroyCalled, .called 7, .built,
      .arrived 7] := by decide +kernel

/-- **The thread is known.**  In every handler the engine knows the thread as its own
(`IsOnCallbackThread`), although the thread may run before the constructor has stored it. -/
theorem handlers_on_known_thread (ops : List Op) (h : InHandler (run init ops)) :
    (run init ops).known = true := by
  have i : Inv (run init ops) := inv_run ops inv_init
  obtain ⟨n, h⟩ := h
  exact (i.work (i.act (by rw [h]; trivial))).2.1

example : InHandler (run init (build ++ [.arrive 1, .thread true, .thread true, .thread true, .thread true])) :=
  ⟨1, by decide +kernel⟩

/-- **Nothing is used after its release, and no event is without a handler.**  Handlers are attached
before the thread runs, and the context is released after it has ended. -/
theorem nothing_bad (ops : List Op) :
    .badUse ∉ (run init ops).log ∧ ∀ n, .dropped n ∉ (run init ops).log :=
  let i : Inv (run init ops) := inv_run ops inv_init
  ⟨i.bad, i.drp⟩

/-- **In order.**  Handlers are called for the events that came, once each and in their order. -/
theorem in_order (ops : List Op) : calls (run init ops).log <+: arrivals (run init ops).log :=
  (inv_run ops inv_init : Inv (run init ops)).pre

example : let s := run init (build ++ [.arrive 1, .arrive 2, .thread true, .thread true, .thread true, .thread true])
    calls s.log = [1] ∧ arrivals s.log = [1, 2] := by decide +kernel

/-- **Every event is handled.**  As long as the destructor is not called, the thread alone can always
get to where a handler was called for every event that came, if handlers return. -/
theorem events_handled (ops : List Op) (h : Up (run init ops)) :
    ∃ more, (∀ op ∈ more, op = .thread true ∨ op = .finish) ∧
      calls (run init (ops ++ more)).log = arrivals (run init (ops ++ more)).log ∧
      arrivals (run init (ops ++ more)).log = arrivals (run init ops).log ∧
      ¬ InHandler (run init (ops ++ more)) := by
  have i : Inv (run init ops) := inv_run ops inv_init
  have hp := (up_pc i).1 h
  have hs : (run init ops).self = false := by
    cases e : (run init ops).self with
    | false => rfl
    | true => rcases (i.slf e).1 with a | a | a <;> rw [hp] at a <;> cases a
  obtain ⟨more, a, b, c⟩ := settle _ (Nat.le_refl _) i (.inl hp) hs
  have j := inv_run more i
  rw [← run_append] at b c j
  have hp' := b.pc.trans hp
  refine ⟨more, a, ?_, b.arr, ?_⟩
  · rcases c with c | ⟨c, d⟩
    · rcases j.snt (.inr (.inr (j.end_ c))) with e | e | e <;> rw [hp'] at e <;> cases e
    · have := j.ord (j.work (.inl hp')).2.2.2.1
      rw [c, d] at this
      simpa [pend, evs] using this.symm
  · rintro ⟨n, e⟩
    rcases c with c | ⟨c, -⟩ <;> rw [c] at e <;> cases e

example : Up (run init (build ++ [.arrive 1, .thread false, .arrive 2])) := by unfold Up; decide +kernel

/-- **The destructor returns.**  If no handler calls it and the system accepts the quit pulse, then
at every point of the destructor the rest of it can be reached, with no further event needed.
Missing: the two cases below. -/
theorem destructor_returns_partial (ops : List Op) (h : ∀ op ∈ ops, op ≠ .go false ∧ op ≠ .destroy true)
    (hc : .destroyCalled ∈ (run init ops).log) :
    ∃ more, (∀ op ∈ more, GoesOn op) ∧ .destroyed ∈ (run init (ops ++ more)).log := by
  have i : Inv (run init ops) := inv_run ops inv_init
  have c := calm_run ops inv_init calm_init h
  simp only [run_append]
  have hj : ∀ {s : St}, Inv s → Calm s → s.pc = .joining →
      ∃ more, (∀ op ∈ more, GoesOn op) ∧ Ev.destroyed ∈ (run s more).log :=
    fun i c hp => join_ends i hp c.self (c.sent hp)
  generalize run init ops = s at i c hc ⊢
  have hd := i.dcl.1 hc
  cases hp : s.pc with
  | joining => exact hj i c hp
  | quitting =>
    obtain ⟨more, a, b⟩ := hj (inv_step i (.go true)) (calm_step i c (by simp) (by simp))
      (by simp [step, go, hp])
    refine ⟨.go true :: more, fun op ho => ?_, b⟩
    rcases List.mem_cons.1 ho with e | e
    · exact .inl e
    · exact a op e
  | detach => exact ⟨[.go true, .go true], by simp [GoesOn], by simp [run, step, go, hp, St.say]⟩
  | free => exact ⟨[.go true], by simp [GoesOn], by simp [run, step, go, hp, St.say]⟩
  | gone => exact ⟨[], by simp, i.dst.2 hp⟩
  | dead =>
    have := i.dd hp
    rw [c.self] at this; cases this
  | _ => rw [hp] at hd; simp [Late] at hd

/-- The destructor waits for the thread, which has not yet begun. -/
example : let ops := build ++ [.arrive 1, .destroy false, .go true, .go true]
    (∀ op ∈ ops, op ≠ .go false ∧ op ≠ .destroy true) ∧ .destroyCalled ∈ (run init ops).log ∧
      .destroyed ∉ (run init ops).log := by decide +kernel

/-- **Violated.**  The result of sending the quit pulse is ignored.  If the system refuses it once, the
destructor never returns, whatever happens afterwards. -/
theorem lost_pulse_fails : ∃ ops, .destroy true ∉ ops ∧ .destroyCalled ∈ (run init ops).log ∧
    ∀ more, .destroyed ∉ (run init (ops ++ more)).log := by
  refine ⟨build ++ [.destroy false, .go false], by decide +kernel, by decide +kernel, fun more h => ?_⟩
  rw [run_append] at h
  have i : Inv (run init (build ++ [.destroy false, .go false])) := inv_run _ inv_init
  have l : Lost (run init (build ++ [.destroy false, .go false])) :=
    ⟨by decide +kernel, by decide +kernel, by decide +kernel, by decide +kernel, by decide +kernel⟩
  have hp := (inv_run more i).dst.1 h
  rw [(lost_run more i l).pc] at hp
  cases hp

/-- **Violated.**  A handler may give up its connection (`IClientConnection` allows it), and the
connection may be the last owner of the engine.  Whenever a handler destroys the engine, the process
is ended: the thread joins itself. -/
theorem own_thread_fails (ops : List Op) (hu : Up (run init ops)) (hh : InHandler (run init ops))
    (ok ok' : Bool) :
    .aborted ∈ (run init (ops ++ [.destroy true, .go ok, .go ok'])).log := by
  have i : Inv (run init ops) := inv_run ops inv_init
  have hp := (up_pc i).1 hu
  obtain ⟨n, ht⟩ := hh
  rw [run_append]
  generalize run init ops = s at hp ht
  simp [run, step, destroy, go, hp, ht, St.say]

example : let s := run init (build ++ [.arrive 1, .thread true, .thread true, .thread true, .thread true])
    Up s ∧ InHandler s := ⟨by unfold Up; decide +kernel, 1, by decide +kernel⟩

end Verif.Props.C124
