import Verif.Proofs.RemoteReg
/-! C57: local receive handlers; C60: registration at remote providers. -/
namespace Verif.Demo.C57
open Verif.EventNotif

/-- Own pid 1; two events; handlers come and go. -/
def ops : List Op :=
  [.register 3 50 1, .register 3 51 9, .register 4 52 9, .register 3 53 9, .unregister 3 1 9 true, .unregister 3 77 9 true,
    .reregister 3 10]

/-- Six handlers for one event. -/
def six : List Op := (List.range 6).map (fun i => .register 3 (50 + i) 1)

/-- `k` times: registering and unregistering a handler. -/
def rounds : Nat → List Op
  | 0 => []
  | k + 1 => rounds k ++ [.register 3 50 1, .unregister 3 k 1 true]

theorem rounds_book (k : Nat) : (Book.empty.run (rounds k)).count = k ∧ (Book.empty.run (rounds k)).regs 3 = [] := by
  induction k with
  | zero => exact ⟨rfl, rfl⟩
  | succ k ih =>
    obtain ⟨h1, h2⟩ := ih
    unfold rounds
    rw [book_run_append]
    simp [Book.run, Book.step, h1, h2]

theorem after_rounds (k : Nat) (hk : k < 2 ^ 32) :
    ((run 1 init (rounds k)).handlers 3).getD [] = [] ∧ (run 1 init (rounds k)).nextNo = k := by
  obtain ⟨h1, h2⟩ := rounds_book k
  have h := agrees_run (self := 1) agrees_init (by rw [h1]; exact Nat.le_of_lt hk : (Book.empty.run (rounds k)).count ≤ noMod)
  refine ⟨by rw [h.regs, h2], ?_⟩
  rw [h.next, h1]
  exact Nat.mod_eq_of_lt hk

end Verif.Demo.C57

namespace Verif.Props.C57
open Verif.EventNotif

/-- PARTIAL (no more than five handlers for the event; fewer than 2^32 registrations in the life of the process): an update calls
exactly the handlers registered for the event that are still alive, in the order of registration, once per registration. -/
theorem calls_all_partial (self : Nat) (ops : List Op) (hno : (Book.empty.run ops).count ≤ 2 ^ 32) (e : Nat)
    (h5 : (registered ops e).length ≤ 5) (live : Nat → Bool) :
    notifyLocally (run self init ops) e live = ((registered ops e).map (·.h)).filter live := by
  have h := agrees_run (self := self) agrees_init hno
  unfold notifyLocally registered at *
  rw [h.regs e, List.take_of_length_le (by simpa [maxHandlers] using h5)]

example : (Book.empty.run Demo.C57.ops).count ≤ 2 ^ 32 ∧ registered Demo.C57.ops 3 = [{ no := 0, h := 50 }, { no := 3, h := 53 }] ∧
    notifyLocally (run 1 init Demo.C57.ops) 3 (fun _ => true) = [50, 53] ∧
    notifyLocally (run 1 init Demo.C57.ops) 3 (fun h => h != 50) = [53] := by decide +kernel

/-- In general the five handlers registered first are called, if they are still alive. -/
theorem calls_first_five (self : Nat) (ops : List Op) (hno : (Book.empty.run ops).count ≤ 2 ^ 32) (e : Nat) (live : Nat → Bool) :
    notifyLocally (run self init ops) e live = (((registered ops e).take 5).map (·.h)).filter live := by
  have h := agrees_run (self := self) agrees_init hno
  unfold notifyLocally registered at *
  rw [h.regs e]
  rfl

/-- The property does not hold in general: of six registered handlers the last one is never called. -/
theorem sixth_handler_not_called : ∃ ops : List Op, (registered ops 3).map (·.h) = [50, 51, 52, 53, 54, 55] ∧
    55 ∉ notifyLocally (run 1 init ops) 3 (fun _ => true) :=
  ⟨Demo.C57.six, by decide +kernel, by decide +kernel⟩

/-- A handler is called only if it is registered. -/
theorem called_only_if_registered (self : Nat) (ops : List Op) (hno : (Book.empty.run ops).count ≤ 2 ^ 32) (e h : Nat)
    (live : Nat → Bool) (hc : h ∈ notifyLocally (run self init ops) e live) :
    live h = true ∧ ∃ r ∈ registered ops e, r.h = h := by
  rw [calls_first_five self ops hno, List.mem_filter] at hc
  obtain ⟨hc, hl⟩ := hc
  obtain ⟨r, hr, rfl⟩ := List.mem_map.mp hc
  exact ⟨hl, r, List.mem_of_mem_take hr, rfl⟩

/-- After an unregistration the handler with that number is not called for the event any more (unless it has been registered
a second time). -/
theorem unregistered_not_called (self : Nat) (ops : List Op) (hno : (Book.empty.run ops).count ≤ 2 ^ 32) (e no n : Nat)
    (ready : Bool) (h : Nat) (live : Nat → Bool) (honce : ∀ r ∈ registered ops e, r.h = h → r.no = no) :
    h ∉ notifyLocally (run self init (ops ++ [.unregister e no n ready])) e live := by
  intro hc
  have hcount : (Book.empty.run (ops ++ [.unregister e no n ready])).count ≤ 2 ^ 32 := by
    rw [book_run_append]; exact hno
  obtain ⟨_, r, hr, rfl⟩ := called_only_if_registered self _ hcount e h live hc
  unfold registered at hr
  rw [book_run_append] at hr
  simp only [Book.run, Book.step, upd_self, List.mem_filter] at hr
  have := honce r hr.1 rfl
  simp [this] at hr

example : (∀ r ∈ registered Demo.C57.ops 3, r.h = 53 → r.no = 3) ∧
    53 ∈ notifyLocally (run 1 init Demo.C57.ops) 3 (fun _ => true) := by decide +kernel

/-- Registration numbers are 32-bit numbers. After 2^32 registrations they start again at 0, the list of handlers is no longer
ordered by number, and the search of a handler to unregister can miss it: the handler keeps being called. -/
theorem number_wrap_breaks_unregister : ∃ (ops : List Op) (no : Nat),
    (run 1 init ops).handlers 3 = some [{ no, h := 60 }, { no := 0, h := 61 }] ∧
    60 ∈ notifyLocally (run 1 init (ops ++ [.unregister 3 no 1 true])) 3 (fun _ => true) := by
  obtain ⟨base, h1, h2⟩ : ∃ base, ((run 1 init base).handlers 3).getD [] = [] ∧ (run 1 init base).nextNo = 2 ^ 32 - 1 :=
    ⟨_, Demo.C57.after_rounds _ (by decide)⟩
  have hst : (run 1 init (base ++ [.register 3 60 1, .register 3 61 1])).handlers 3 =
      some [{ no := 2 ^ 32 - 1, h := 60 }, { no := 0, h := 61 }] := by
    rw [run_append]
    simp only [run, step, register_handlers, register_nextNo, upd_self, Option.getD_some, h1, h2]
    rfl
  refine ⟨base ++ [.register 3 60 1, .register 3 61 1], 2 ^ 32 - 1, hst, ?_⟩
  rw [run_append]
  simp only [run, step, unregister, hst]
  have he : eraseNo [{ no := 2 ^ 32 - 1, h := 60 }, { no := 0, h := 61 }] (2 ^ 32 - 1) = none := by decide +kernel
  rw [he]
  dsimp only
  unfold notifyLocally
  rw [hst]
  decide

end Verif.Props.C57

namespace Verif.Demo.C60
open Verif.EventNotif

/-- Four proxies for event 3, the others for event 4; the own pid is 1; the provider of event 3 is process 10. -/
def ev (p : Nat) : Nat := if p < 4 then 3 else 4
def pid0 (e : Nat) : Nat := if e = 3 then 10 else 20

def w (ops : List WOp) : World := wrun 1 ev (World.init ev pid0) ops

/-- Two proxies set handlers, one replaces it; the provider is restarted as process 11; both proxies notice it; one of them unsets
its handler. -/
def orderly : List WOp :=
  [.set 0 50 true, .set 1 51 true, .set 0 52 true, .restart 3 11, .reoffer 0 none true, .reoffer 1 none true, .unset 0 true]

end Verif.Demo.C60

namespace Verif.Props.C60
open Verif.EventNotif

/-- PARTIAL (orderly histories, see `Orderly`; fewer than 2^32 operations): for every event and every process that provides or has
provided it, the messages to start and to stop notifying alternate, beginning with start; and the present provider process has been
told to notify, and not to stop since, exactly if a proxy that knows this process has a handler for the event. -/
theorem told_exactly_partial (self : Nat) (ev pid0 : Nat → Nat) (hself : ∀ e, pid0 e ≠ self) (ops : List WOp)
    (ho : OrderlyRun self ev (World.init ev pid0) ops) (hlen : ops.length < 2 ^ 32) :
    let w := wrun self ev (World.init ev pid0) ops
    w.inst.aborted = false ∧ (∀ e n, Alternates (talk w.inst.msgs e n)) ∧
      ∀ e, Told w.inst.msgs e (w.cur e) ↔ ∃ p, ev p = e ∧ w.HasHandler p ∧ (w.mgr p).pid = w.cur e := by
  intro w
  obtain ⟨h, _⟩ := inv_wrun (winv_init hself) strong_init ho (by
    have : (World.init ev pid0).inst.nextNo = 0 := rfl
    rw [this, Nat.zero_add]; exact hlen)
  exact ⟨h.alive, h.alt, told_iff h⟩

example : (∀ e, Demo.C60.pid0 e ≠ 1) ∧ OrderlyRun 1 Demo.C60.ev (World.init Demo.C60.ev Demo.C60.pid0) Demo.C60.orderly ∧
    Demo.C60.orderly.length < 2 ^ 32 ∧ talk (Demo.C60.w Demo.C60.orderly).inst.msgs 3 11 = [true] ∧
    (Demo.C60.w Demo.C60.orderly).mgr 1 = { pid := 11, reg := some 1 } := by
  refine ⟨?_, ?_, by decide, by decide +kernel, by decide +kernel⟩
  · intro e; unfold Demo.C60.pid0; split <;> decide
  · refine ⟨⟨by decide, rfl⟩, ⟨by decide, rfl⟩, ⟨by decide, rfl⟩, ?_, ?_, ?_, ⟨by decide, ?_⟩, trivial⟩
    · unfold Orderly; decide +kernel
    · exact ⟨by decide, by decide +kernel, .inl rfl⟩
    · exact ⟨by decide, by decide +kernel, .inl rfl⟩
    · rintro (_ | _ | q) _ hq
      · rfl
      · decide +kernel
      · exact absurd rfl hq

/-- PARTIAL (fewer than 2^32 operations, at most 65535 proxies, and the provider process does not change): whenever handlers are
only set, replaced and unset, by any proxies in any order, the provider has been told to notify exactly if some handler is registered
for the event, and starts and stops alternate. -/
theorem told_iff_handler_partial (self : Nat) (ev pid0 : Nat → Nat) (hself : ∀ e, pid0 e ≠ self) (ops : List WOp)
    (hops : ∀ o ∈ ops, (∃ p h ready, o = .set p h ready ∧ p < 65535) ∨ (∃ p ready, o = .unset p ready ∧ p < 65535))
    (hlen : ops.length < 2 ^ 32) (e : Nat) :
    let w := wrun self ev (World.init ev pid0) ops
    Alternates (talk w.inst.msgs e (pid0 e)) ∧ (Told w.inst.msgs e (pid0 e) ↔ ∃ p, ev p = e ∧ w.HasHandler p) := by
  intro w
  obtain ⟨ho, hpid, hcur⟩ := orderly_of_steady (self := self) (ev := ev) (pid0 := pid0) (w := World.init ev pid0) ops
    (fun _ => rfl) rfl hops
  obtain ⟨_, h2, h3⟩ := told_exactly_partial self ev pid0 hself ops ho hlen
  refine ⟨h2 e _, ?_⟩
  have h3e := h3 e
  rw [hcur] at h3e
  rw [show Told w.inst.msgs e (pid0 e) ↔ _ from h3e]
  constructor
  · rintro ⟨p, h4, h5, _⟩; exact ⟨p, h4, h5⟩
  · rintro ⟨p, h4, h5⟩; exact ⟨p, h4, h5, by rw [hpid p, h4]⟩

example : talk (Demo.C60.w [.set 0 50 true, .set 1 51 true, .unset 0 true, .set 1 52 true, .unset 1 true, .set 0 50 true]).inst.msgs
    3 10 = [true, false, true, false, true] := by decide +kernel

/-- The property does not hold in general. (1) A service is stopped and offered again by the same process. The proxy re-registers,
and its one handler is counted twice: when it is unset, the provider is not told to stop, and never will be. -/
theorem same_process_offers_again : ∃ ops : List WOp, (∀ p, ¬ (Demo.C60.w ops).HasHandler p) ∧
    Told (Demo.C60.w ops).inst.msgs 3 10 := by
  refine ⟨[.set 0 50 true, .reoffer 0 none true, .unset 0 true], ?_, by unfold Told; decide +kernel⟩
  rintro (_ | p) hp
  · revert hp; unfold World.HasHandler; decide +kernel
  · exact hp rfl

/-- (2) Two proxies have handlers; the provider is restarted; one of the applications replaces its handler before the service is
offered again. The re-registrations are counted as one. When the other proxy unsets its handler, the provider is told to stop although a
handler is registered: its proxy gets no more notifications. -/
theorem replaced_handler_is_not_counted : ∃ ops : List WOp, (Demo.C60.w ops).HasHandler 1 ∧
    ((Demo.C60.w ops).mgr 1).pid = (Demo.C60.w ops).cur 3 ∧ ¬ Told (Demo.C60.w ops).inst.msgs 3 ((Demo.C60.w ops).cur 3) :=
  ⟨[.set 0 50 true, .set 1 51 true, .restart 3 11, .reoffer 0 none true, .reoffer 1 (some 52) true, .unset 0 true],
    by unfold World.HasHandler; decide +kernel, by decide +kernel, by unfold Told; decide +kernel⟩

/-- (3) Two proxies have handlers; the provider is restarted; one proxy re-registers and unsets its handler before the other one
re-registers. That re-registration is dropped. -/
theorem reregistration_is_dropped : ∃ ops : List WOp, (Demo.C60.w ops).HasHandler 1 ∧
    ((Demo.C60.w ops).mgr 1).pid = (Demo.C60.w ops).cur 3 ∧ ¬ Told (Demo.C60.w ops).inst.msgs 3 ((Demo.C60.w ops).cur 3) :=
  ⟨[.set 0 50 true, .set 1 51 true, .restart 3 11, .reoffer 0 none true, .unset 0 true, .reoffer 1 none true],
    by unfold World.HasHandler; decide +kernel, by decide +kernel, by unfold Told; decide +kernel⟩

/-- (4) A proxy that has not yet noticed the restart replaces its handler: the registration of the others at the new process is
forgotten. -/
theorem late_proxy_takes_registration_away : ∃ ops : List WOp, (Demo.C60.w ops).HasHandler 1 ∧
    ((Demo.C60.w ops).mgr 1).pid = (Demo.C60.w ops).cur 3 ∧ ¬ Told (Demo.C60.w ops).inst.msgs 3 ((Demo.C60.w ops).cur 3) :=
  ⟨[.set 0 50 true, .set 1 51 true, .restart 3 11, .reoffer 0 none true, .set 1 52 true, .reoffer 1 none true, .unset 0 true],
    by unfold World.HasHandler; decide +kernel, by decide +kernel, by unfold Told; decide +kernel⟩

/-- (5) The message is sent after the table has been released. One thread unregisters the last handler while another one registers a
new one; the messages are sent in the other order: the provider has been told to stop although a handler is counted. -/
theorem messages_out_of_order : ∃ ops : List TOp,
    (trun { st := EventNotif.init, due := fun _ => none } ops).st.remote 3 = some (10, 1) ∧
    (∀ t, (trun { st := EventNotif.init, due := fun _ => none } ops).due t = none) ∧
    talk (trun { st := EventNotif.init, due := fun _ => none } ops).st.msgs 3 10 = [false, true, true] := by
  refine ⟨[.reg 0 3 10, .send 0, .unreg 0 3 10, .reg 1 3 10, .send 1, .send 0], by decide +kernel, ?_, by decide +kernel⟩
  rintro (_ | _ | t)
  · decide +kernel
  · decide +kernel
  · rfl

end Verif.Props.C60
