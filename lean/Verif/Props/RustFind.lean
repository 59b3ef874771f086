import Verif.Proofs.RustFind

/-!
# C120  Looking for services with the asynchronous Rust API

`run init ops` is the state after any interleaving of the call, the polls, the callbacks of the
service discovery and a drop of the future.
-/
namespace Verif.Props.C120
open Verif.RustFind

/-- **No lost wake-up.**  If the future has returned `Pending`, a callback has brought handles and
no callback is on its way to waking, then the task is woken.  A future that was not polled yet
counts as woken. -/
theorem no_lost_wakeup (ops : List Op) :
    let s := run init ops
    (Waiting s → s.slot ≠ none → s.toWake = 0 → s.woken = true) ∧ (s.pc = .fresh → s.woken = true) := by
  intro s
  have h : Inv s := inv_run ops inv_init
  constructor
  · intro hw hs ht
    rcases h.u hw hs with h | h
    · exact h
    · omega
  · intro hp
    cases hw : s.woken with
    | true => rfl
    | false => exact (h.r hw hp).elim

/-- The callback comes between the registration of the waker and the end of the poll. -/
example : let s := run init [.call (.ok none), .poll, .go, .poll, .wake, .go, .notify [4], .wake]
    s.pc = .waiting ∧ s.slot = some [4] ∧ s.toWake = 0 ∧ s.woken = true := by decide +kernel

/-- **A poll.**  The first poll returns the error if the specifier was not valid or the search could
not be started.  Otherwise a poll returns the handles that the last callback brought, and the
search is stopped then; without a callback so far it waits, and the search goes on. -/
theorem poll_result (ops : List Op) :
    let s := run init ops
    let s' := run s onePoll
    (s.pc = .fresh → ∀ e, s.err = some e → s'.out = some (.err e) ∧ Over s' ∧ s'.stops = 0) ∧
    (s.pc = .waiting ∨ (s.pc = .fresh ∧ s.err = none) →
      (∀ hs, s.seen.getLast? = some hs → s'.out = some (.found hs) ∧ Over s' ∧ s'.active = false ∧ s'.stops = 1) ∧
      (s.seen = [] → Waiting s' ∧ s'.out = none ∧ s'.active = true ∧ s'.stops = 0)) := by
  intro s s'
  have h : Inv s := inv_run ops inv_init
  constructor
  · intro hp e he
    have h0 := (h.f (by rw [hp]; simp)).1
    have : s' = { s with pc := .gone, woken := false, polled := true, out := some (.err e) } := by
      show run s onePoll = _
      simp [run, onePoll, step, poll, go, hp, he]
    rw [this]
    exact ⟨rfl, rfl, h0⟩
  · intro hp
    have hg : s.pc ≠ .gone := by rcases hp with h | ⟨h, _⟩ <;> rw [h] <;> simp
    have herr : s.err = none := by
      rcases hp with h' | ⟨_, h'⟩
      · exact (h.p (.inl h')).2
      · exact h'
    have h0 := h.f hg
    have hl := h.l (.inl hg)
    have hst : s.started = true := h.d.2 ⟨by rcases hp with h | ⟨h, _⟩ <;> rw [h] <;> simp, herr⟩
    have hact : s.active = true := h.a.2 ⟨hst, h0.1⟩
    constructor
    · intro hs hse
      rw [hse] at hl
      have : s'.out = some (.found hs) ∧ s'.pc = .gone ∧ s'.active = false ∧ s'.stops = s.stops + 1 := by
        show (run s onePoll).out = _ ∧ (run s onePoll).pc = _ ∧ (run s onePoll).active = _ ∧ (run s onePoll).stops = _
        rcases hp with h' | ⟨h', _⟩ <;> simp [run, onePoll, step, poll, go, stop, h', herr, hl]
      exact ⟨this.1, this.2.1, this.2.2.1, by rw [this.2.2.2, h0.1]⟩
    · intro hse
      rw [hse] at hl
      have hl : s.slot = none := hl
      have : s'.out = s.out ∧ s'.pc = .waiting ∧ s'.active = s.active ∧ s'.stops = s.stops := by
        show (run s onePoll).out = _ ∧ (run s onePoll).pc = _ ∧ (run s onePoll).active = _ ∧ (run s onePoll).stops = _
        rcases hp with h' | ⟨h', _⟩ <;> simp [run, onePoll, step, poll, go, h', herr, hl]
      exact ⟨this.2.1, this.1.trans h0.2, this.2.2.1.trans hact, this.2.2.2.trans h0.1⟩

example : let s := run init [.call (.ok (some [1])), .notify [1, 2], .wake]
    s.pc = .fresh ∧ s.err = none ∧ s.seen.getLast? = some [1, 2] ∧ (run s onePoll).out = some (.found [1, 2]) := by decide +kernel

example : (run init ([.call .failed] ++ onePoll)).out = some (.err .notStarted) ∧
    (run init ([.call .invalid] ++ onePoll)).out = some (.err .invalid) ∧
    Waiting (run init ([.call (.ok none)] ++ onePoll)) := by
  refine ⟨by decide +kernel, by decide +kernel, ?_⟩
  show _ = _
  decide +kernel

/-- **The result stays right.**  The handles that were returned are those of the last callback, for
ever: no callback comes after the future has returned. -/
theorem result_is_latest (ops ops' : List Op) (hs : List Nat) (h : (run init ops).out = some (.found hs)) :
    let s := run (run init ops) ops'
    s.out = some (.found hs) ∧ s.seen.getLast? = some hs ∧ s.active = false := by
  have i : Inv (run init ops) := inv_run ops inv_init
  have hg : (run init ops).pc = .gone := by
    by_cases hp : (run init ops).pc = .gone
    · exact hp
    · have := (i.f hp).2; rw [this] at h; cases h
  have ha : (run init ops).active = false := by
    cases ha : (run init ops).active with
    | false => rfl
    | true =>
      have h1 := (i.a.1 ha).2
      have h2 := (i.o hs h).2
      omega
  obtain ⟨_, b, _, d⟩ := over_run ops' hg
  exact ⟨b.trans h, by rw [(d ha).2]; exact (i.o hs h).1, (d ha).1⟩

example : (run init ([.call (.ok none), .notify [3], .wake] ++ onePoll ++ [.notify [4], .wake])).out = some (.found [3]) := by decide +kernel

/-- **The search is stopped (partial).**  `stop_find_service` is called at most once, and only for a
search that was started.  Once a future that was polled has returned or was dropped, the search is
stopped; a search goes on as long as its future waits.  For futures that are never polled see
`not_polled_fails`. -/
theorem stopped_partial (ops : List Op) :
    let s := run init ops
    s.stops ≤ 1 ∧ (s.stops = 1 → s.started = true ∧ Over s) ∧ (Over s → s.polled = true → s.active = false) ∧
      (Over s → s.polled = true → s.started = true → s.stops = 1) ∧ (Waiting s → s.active = true) := by
  intro s
  have h : Inv s := inv_run ops inv_init
  refine ⟨h.b, fun h1 => ⟨(h.c h1).1, (h.c h1).2.1⟩, fun ho hp => ?_, h.e, fun hw => ?_⟩
  · cases ha : s.active with
    | false => rfl
    | true =>
      obtain ⟨h1, h2⟩ := h.a.1 ha
      have := h.e ho hp h1
      omega
  · have hw : s.pc = .waiting := hw
    exact h.a.2 ⟨h.d.2 ⟨by rw [hw]; simp, (h.p (.inl hw)).2⟩, (h.f (by rw [hw]; simp)).1⟩

example : let s := run init ([.call (.ok none)] ++ onePoll ++ [.drop])
    s.polled = true ∧ s.started = true ∧ s.stops = 1 ∧ s.active = false := by decide +kernel

/-- Errors are returned only if the search was not started, and results only if it was. -/
theorem error_means_not_started (ops : List Op) :
    let s := run init ops
    (∀ e, s.out = some (.err e) → s.started = false) ∧ (∀ hs, s.out = some (.found hs) → s.started = true) := by
  intro s
  have h : Inv s := inv_run ops inv_init
  refine ⟨fun e he => ?_, fun hs he => (h.c (h.o hs he).2).1⟩
  cases hst : s.started with
  | false => rfl
  | true =>
    have := (h.d.1 hst).2
    rw [h.oe e he] at this
    cases this

example : (run init ([.call .failed] ++ onePoll)).started = false ∧ (run init ([.call (.ok (some []))] ++ onePoll)).out = some (.found []) := by
  decide +kernel

/-- **Violated.**  The documentation promises that the search is stopped when the future is dropped.
A future that is dropped before its first poll leaves the search active for ever, whatever happens
afterwards. -/
theorem not_polled_fails (ops : List Op) :
    let s := run (run init [.call (.ok none), .drop]) ops
    Over s ∧ s.active = true ∧ s.stops = 0 := by
  intro s
  have h : Inv s := inv_run ops (inv_run _ inv_init)
  obtain ⟨a, _, c, _⟩ := over_run ops (s := run init [.call (.ok none), .drop]) rfl
  have hst : ∀ (ops : List Op) (s : St), s.started = true → (run s ops).started = true := by
    intro ops
    induction ops with
    | nil => exact fun _ h => h
    | cons op ops ih =>
      intro s h
      refine ih (step s op) ?_
      cases op <;> simp only [step, call, notify, wake, poll, go, stop, drop] <;> (repeat' split) <;> simp_all
  have hc : s.stops = 0 := c
  exact ⟨a, h.a.2 ⟨hst ops _ rfl, hc⟩, hc⟩

/-- **Violated.**  The memory of the callback is never released: when everything is over it is still
allocated, also if the search was never started. -/
theorem closure_leaks_fails (ops : List Op) (h : Over (run init ops)) : (run init ops).boxes = 1 := by
  have hp : (run init ops).pc = .gone := h
  exact (inv_run ops inv_init).x (by rw [hp]; simp)

example : Over (run init ([.call (.ok (some [1]))] ++ onePoll)) := by
  show _ = _
  decide +kernel

end Verif.Props.C120
