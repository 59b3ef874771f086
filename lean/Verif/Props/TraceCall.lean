import Verif.Proofs.TraceAsked

/-! C90 and C91: what the trace subsystem is told and how its failures are handled. -/
namespace Verif.Demo.C90
open Verif.TraceCall Verif.TraceCallSpec

def allOn : Point → Bool := fun _ => true
def p : Point := ⟨7, 1, 0⟩
def q : Point := ⟨7, 1, 1⟩
/-- Thread `t` goes on: a slot is there and the subsystem answers `a`. -/
def go (t : Nat) (a : Answer) : Op := .next t true a 0
/-- A whole trace without interruption. -/
def whole (t : Nat) (p : Point) (x : Nat) (a : Answer) : List Op :=
  [.trace t p (some x), go t a, go t a, go t a, go t a, go t a, go t a, go t a]
/-- An object with handle 5 that starts at 1000 is registered. -/
def reg : Op := .register 7 3 1000 5 .ok

end Verif.Demo.C90

namespace Verif.Props.C90
open Verif.TraceCall Verif.TraceCallSpec

/-- In every execution with any number of threads: if the subsystem is told about data in shared memory, then the
program passed this trace point with this address, and before that call an object was registered for this service
instance with the handle that is told, and the offset is the distance of the data from the start of that object. -/
theorem data_of_registered_object (on : Point → Bool) (ops : List Op) (l r : List Ev) (p : Point) (g o x : Nat)
    (loss : Bool) (a : Answer) (h : (run (start on) ops).log = l ++ .called p (.shm g o x) loss a :: r) :
    (∃ t, Op.trace t p (some x) ∈ ops) ∧
    ∃ st fd, Ev.registered p.inst g st ∈ l ∧ Op.register p.inst fd st g .ok ∈ ops ∧ o = x - st := by
  have hs := asked_run ops (objects_start on) (sourced_start on) (asked_start on)
  rw [List.nil_append] at hs
  obtain ⟨st, h1, h2⟩ := hs.before l p _ loss a r h
  obtain ⟨fd, h3⟩ := hs.evs (.registered p.inst g st) (by rw [h]; exact List.mem_append_left _ h1)
  exact ⟨hs.evs (.called p (.shm g o x) loss a) (by rw [h]; exact List.mem_append_right _ (List.mem_cons_self ..)), st, fd, h1, h3, h2⟩

/-- If the subsystem is told about local data then the program passed this trace point with local data. -/
theorem local_data (on : Point → Bool) (ops : List Op) (p : Point) (loss : Bool) (a : Answer)
    (h : Ev.called p .loc loss a ∈ (run (start on) ops).log) : ∃ t, Op.trace t p none ∈ ops := by
  have hs := asked_run ops (objects_start on) (sourced_start on) (asked_start on)
  rw [List.nil_append] at hs
  exact hs.evs (.called p .loc loss a) h

/-- Calls that do not overlap name the object that is registered at that time.
Missing: with overlapping calls the object may have been unregistered, see `unregistered_handle`. -/
theorem data_is_current_partial (on : Point → Bool) (ops : List Op) (ht : Turns (start on) ops) (l r : List Ev) (p : Point)
    (g o x : Nat) (loss : Bool) (a : Answer) (h : (run (start on) ops).log = l ++ .called p (.shm g o x) loss a :: r) :
    ∃ st, object p.inst l = some (g, st) ∧ o = x - st :=
  ((seq_run ops (objects_start on) (seq_start on) ht).told l p _ loss a r h).2

/-- A trace in progress may name a handle that was given back to the subsystem. -/
theorem unregistered_handle : ∃ (on : Point → Bool) (ops : List Op) (l : List Ev) (p : Point) (g o x : Nat) (loss : Bool),
    (run (start on) ops).log = l ++ [.called p (.shm g o x) loss .ok] ∧ object p.inst l = none :=
  ⟨fun _ => true, [.register 7 3 1000 5 .ok, .trace 0 ⟨7, 1, 0⟩ (some 1040), .next 0 true .ok 0, .unregister 7 .ok,
    .next 0 true .ok 0, .next 0 true .ok 0, .next 0 true .ok 0], [.registered 7 5 1000, .unregistered 7], ⟨7, 1, 0⟩, 5, 40, 1040,
    false, by decide +kernel, by decide +kernel⟩

/-- In every reachable state with tracing on: if a thread that makes no call passes a trace point that is on, an
object is registered for the instance and there is a slot, then the subsystem is called exactly once, with the
handle of this object and the offset of the data. -/
theorem trace_is_made (on : Point → Bool) (ops : List Op) (t : Nat) (p : Point) (g st x : Nat) (a : Answer)
    (a1 a2 a3 : Answer) (sl1 sl2 sl4 : Bool) (h1 h2 h3 h4 : Nat)
    (hd : (run (start on) ops).dead = false) (he : (run (start on) ops).enabled = true)
    (hi : (run (start on) ops).pc t = .idle) (hon : (run (start on) ops).on p = true)
    (ho : object p.inst (run (start on) ops).log = some (g, st)) :
    ∃ loss, (run (run (start on) ops) [.trace t p (some x), .next t sl1 a1 h1, .next t sl2 a2 h2, .next t true a3 h3,
      .next t sl4 a h4]).log = (run (start on) ops).log ++ [.called p (.shm g (x - st) x) loss a] := by
  have ob := objects_run ops (objects_start on)
  generalize run (start on) ops = s at *
  have hh : s.handles p.inst = some (g, st) := (ob.handles p.inst).trans ho
  refine ⟨s.flag, ?_⟩
  have e1 : s.op (.trace t p (some x)) = s.setPc t (.enter p (some x)) := by
    simp [St.op, hd, St.next', hi, hon]
  have e2 : (s.setPc t (.enter p (some x))).op (.next t sl1 a1 h1) =
      (s.setPc t (.enter p (some x))).setPc t (.info p (.shm g (x - st) x)) := by
    simp [St.op, hd, St.next', St.step, St.setPc, he, hh]
  simp only [run, List.foldl_cons, List.foldl_nil]
  rw [e1, e2]
  cases a <;> simp [St.op, hd, St.next', St.step, St.setPc, St.add, St.elemOff]

/-- The object of an instance is registered only by the program's registration: a registration that failed with a
recoverable error is not tried again, although the code says that the next trace does so. -/
theorem not_retried : ∃ (on : Point → Bool) (ops : List Op) (p : Point) (i : Nat), p.inst = i ∧
    Ev.registerFailed i ∈ (run (start on) ops).log ∧ Quiet (run (start on) ops) ∧ (run (start on) ops).on p = true ∧
    -- the next trace of this point, when the subsystem accepts everything, registers nothing and switches the point off
    ∀ x sl h, (run (run (start on) ops) [.trace 0 p (some x), .next 0 sl .ok h]).log =
        (run (start on) ops).log ++ [.missing p] ∧
      (run (run (start on) ops) [.trace 0 p (some x), .next 0 sl .ok h]).on p = false := by
  refine ⟨fun _ => true, [.register 7 3 1000 0 .recoverable], ⟨7, 1, 0⟩, 7, rfl, by decide +kernel, fun _ => rfl, rfl, ?_⟩
  intro x sl h
  constructor <;> rfl

-- a trace that is described by its object
example : (run (start Demo.C90.allOn) (Demo.C90.reg :: Demo.C90.whole 0 Demo.C90.p 1040 .ok)).log =
    [.registered 7 5 1000] ++ .called Demo.C90.p (.shm 5 40 1040) false .ok :: [] := by decide +kernel
-- local data
example : Ev.called Demo.C90.p .loc false .ok ∈ (run (start Demo.C90.allOn)
    [.trace 0 Demo.C90.p none, Demo.C90.go 0 .ok, Demo.C90.go 0 .ok, Demo.C90.go 0 .ok]).log := by decide +kernel
-- a state in which a trace is made
example : (run (start Demo.C90.allOn) [Demo.C90.reg]).dead = false ∧ (run (start Demo.C90.allOn) [Demo.C90.reg]).enabled = true ∧
    (run (start Demo.C90.allOn) [Demo.C90.reg]).pc 0 = .idle ∧ (run (start Demo.C90.allOn) [Demo.C90.reg]).on Demo.C90.p = true ∧
    object Demo.C90.p.inst (run (start Demo.C90.allOn) [Demo.C90.reg]).log = some (5, 1000) := by decide +kernel

end Verif.Props.C90

namespace Verif.Props.C91
open Verif.TraceCall Verif.TraceCallSpec

/-- Once tracing is off and all threads have returned, the subsystem is never called again, whatever the program
does, and tracing stays off. -/
theorem off_is_final (s : St) (he : s.enabled = false) (hq : Quiet s) (ops : List Op) :
    (run s ops).log = s.log ∧ (run s ops).enabled = false :=
  ⟨early_run ops he (fun t => Or.inl (hq t)), off_run ops he⟩

/-- If calls do not overlap and all threads have returned, then tracing is off exactly if the subsystem reported a
terminal error or the number of failed traces in a row reached its limit.
Missing: overlapping calls. -/
theorem off_iff_partial (on : Point → Bool) (ops : List Op) (ht : Turns (start on) ops) (hq : Quiet (run (start on) ops)) :
    (run (start on) ops).enabled = false ↔
      sawTerminal (run (start on) ops).log = true ∨ maxFailures ≤ failures (run (start on) ops).log := by
  have b := (seq_run ops (objects_start on) (seq_start on) ht).base hq
  constructor
  · exact b.off
  · intro h
    cases he : (run (start on) ops).enabled with
    | false => rfl
    | true =>
      obtain ⟨h1, h2⟩ := b.on he
      rcases h with h | h
      · rw [h1] at h; cases h
      · omega

/-- If calls do not overlap, then every trace says whether traces were lost since the last successful one.
Missing: overlapping calls, see `loss_not_reported`. -/
theorem loss_reported_partial (on : Point → Bool) (ops : List Op) (ht : Turns (start on) ops) (l r : List Ev) (p : Point)
    (d : Data) (loss : Bool) (a : Answer) (h : (run (start on) ops).log = l ++ .called p d loss a :: r) :
    loss = lossSince l :=
  ((seq_run ops (objects_start on) (seq_start on) ht).told l p d loss a r h).1

/-- With two threads a loss may never be reported: a trace fails while another one, which started before, is made.
All threads return, and the next trace, which is made after that, does not report the loss either. -/
theorem loss_not_reported : ∃ (on : Point → Bool) (ops ops' : List Op) (p : Point) (d : Data),
    Quiet (run (start on) ops) ∧
    (run (start on) ops).log = [.registered 7 5 1000, .called p d false .recoverable, .called p d false .ok] ∧
    (run (run (start on) ops) ops').log = (run (start on) ops).log ++ [.called p d false .ok] := by
  refine ⟨fun _ => true, [.register 7 3 1000 5 .ok, .trace 0 ⟨7, 1, 0⟩ (some 1040), .next 0 true .ok 0, .next 0 true .ok 0,
    .trace 1 ⟨7, 1, 0⟩ (some 1040), .next 1 true .ok 0, .next 1 true .ok 0, .next 1 true .ok 0, .next 1 true .recoverable 0,
    .next 1 true .ok 0, .next 1 true .ok 0, .next 1 true .ok 0,
    .next 0 true .ok 0, .next 0 true .ok 0, .next 0 true .ok 0, .next 0 true .ok 0],
    [.trace 0 ⟨7, 1, 0⟩ (some 1040), .next 0 true .ok 0, .next 0 true .ok 0, .next 0 true .ok 0, .next 0 true .ok 0],
    ⟨7, 1, 0⟩, .shm 5 40 1040, ?_, by decide +kernel, by decide +kernel⟩
  intro t
  match t with
  | 0 => decide +kernel
  | 1 => decide +kernel
  | t + 2 => simp [run, start, St.op, St.next', St.step, St.register, St.setHandle, St.setPc, St.add, maxFailures]

/-- In every execution: a trace point that was on is off only because the subsystem reported an error that is not
recoverable for this very point, because there was no object for it, or because tracing is off. -/
theorem only_for_a_reason (on : Point → Bool) (ops : List Op) (p : Point) (h1 : on p = true)
    (h2 : (run (start on) ops).on p = false) :
    (run (start on) ops).enabled = false ∨ Ev.missing p ∈ (run (start on) ops).log ∨
      ∃ d loss, Ev.called p d loss .nonRecoverable ∈ (run (start on) ops).log :=
  (reasons_run on ops (objects_start on)
    ⟨fun p h1 h2 => absurd (h1.symm.trans h2) (by simp), fun t p h => (by cases h)⟩).point p h1 h2

/-- In every execution, once all threads have returned: after an error that is not recoverable for a trace point the
point is off, so it is not traced again. -/
theorem point_is_off (on : Point → Bool) (ops : List Op) (hq : Quiet (run (start on) ops)) (p : Point) (d : Data) (loss : Bool)
    (h : Ev.called p d loss .nonRecoverable ∈ (run (start on) ops).log) : (run (start on) ops).on p = false := by
  rcases served_run ops (objects_start on) (served_start on) p (Or.inr ⟨d, loss, h⟩) with r | ⟨t, r⟩
  · exact r
  · rw [hq t] at r; cases r

/-- A trace point that is off when all threads have returned is never traced again, whatever the program does. -/
theorem off_point_is_not_traced (on : Point → Bool) (ops more : List Op) (hq : Quiet (run (start on) ops)) (p : Point)
    (h : (run (start on) ops).on p = false) :
    callsFor p (run (start on) (ops ++ more)).log = callsFor p (run (start on) ops).log := by
  rw [run_append]
  exact past_run more ⟨h, fun t x hx => by rw [hq t] at hx; cases hx⟩

-- a point that is off is passed without a call
example : (run (start Demo.C90.allOn) (Demo.C90.reg :: Demo.C90.whole 0 Demo.C90.p 1040 .nonRecoverable ++
      Demo.C90.whole 0 Demo.C90.p 1048 .ok ++ Demo.C90.whole 0 Demo.C90.q 1056 .ok)).log =
    [.registered 7 5 1000, .called Demo.C90.p (.shm 5 40 1040) false .nonRecoverable,
      .called Demo.C90.q (.shm 5 56 1056) true .ok] := by decide +kernel

-- tracing that is off
example : (run (start Demo.C90.allOn) (Demo.C90.reg :: Demo.C90.whole 0 Demo.C90.p 1040 .terminal)).enabled = false ∧
    (run (start Demo.C90.allOn) (Demo.C90.reg :: Demo.C90.whole 0 Demo.C90.p 1040 .terminal)).on Demo.C90.p = false := by
  decide +kernel

-- calls that do not overlap, with a loss that is reported
example : Turns (start Demo.C90.allOn) (Demo.C90.reg :: Demo.C90.whole 0 Demo.C90.p 1040 .recoverable ++
    [.trace 0 Demo.C90.q (some 1048), Demo.C90.go 0 .ok, Demo.C90.go 0 .ok, Demo.C90.go 0 .ok, Demo.C90.go 0 .ok]) := by
  refine ⟨fun _ => rfl, fun _ => rfl, trivial, trivial, trivial, trivial, trivial, trivial, trivial, ?_, trivial, trivial, trivial, trivial, trivial⟩
  intro t
  match t with
  | 0 => decide +kernel
  | t + 1 => simp [start, Demo.C90.reg, Demo.C90.go, Demo.C90.p, St.op, St.next', St.step, St.register, St.setHandle, St.setPc, St.add, maxFailures, Demo.C90.allOn]
example : (run (start Demo.C90.allOn) (Demo.C90.reg :: Demo.C90.whole 0 Demo.C90.p 1040 .recoverable ++
    [.trace 0 Demo.C90.q (some 1048), Demo.C90.go 0 .ok, Demo.C90.go 0 .ok, Demo.C90.go 0 .ok, Demo.C90.go 0 .ok])).log =
    [.registered 7 5 1000, .called Demo.C90.p (.shm 5 40 1040) false .recoverable] ++
      .called Demo.C90.q (.shm 5 48 1048) true .ok :: [] := by decide +kernel

end Verif.Props.C91
