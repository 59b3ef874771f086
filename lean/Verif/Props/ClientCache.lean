import Verif.Proofs.ClientCache

/-!
# C92: connections to other processes are shared

Threads of a process ask for the connection to another process; one connection is shared by all of them and replaced
when it is broken.  `run start ops` ranges over all schedules of any number of threads, of the callback thread
(thread 0) and of all outcomes of connection attempts.
-/
namespace Verif.Demo.C92
open Verif.ClientCache

/-- Thread 1 connects to process 7. -/
def connected : List Op := [.get 1 7, .connect 0 .connected, .go]

/-- The connection is lost. -/
def broken : List Op := connected ++ [.lost 0]

end Verif.Demo.C92

namespace Verif.Props.C92
open Verif.ClientCache Verif.ClientCacheSpec

/-- There is at most one open connection to a process. -/
theorem one_connection (ops : List Op) (c c' : Nat) (h : Open (run start ops) c) (h' : Open (run start ops) c')
    (hn : ((run start ops).conn c).node = ((run start ops).conn c').node) : c = c' := by
  have hi := inv_run ops inv_start
  rcases hi.opened c h with r | r <;> rcases hi.opened c' h' with r' | r'
  · rw [hn, r'] at r; exact (Option.some.inj r).symm
  · rw [hn, (hi.waiting _ _ r').2.2] at r; cases r
  · rw [← hn, (hi.waiting _ _ r).2.2] at r'; cases r'
  · obtain ⟨_, _, _, _, _, w⟩ := r
    obtain ⟨_, _, _, _, _, w'⟩ := r'
    rw [w] at w'
    simp only [Option.some.injEq, Job.waiting.injEq] at w'
    exact w'.2.2.1

example : Open (run start Demo.C92.connected) 0 := ⟨by decide +kernel, by decide +kernel⟩

/-- A connection that is handed out is one to the process that was asked for. -/
theorem right_process (ops : List Op) (t n c : Nat) (st : State)
    (h : .returned t n c st ∈ (run start ops).log ∨ .found t n (some c) ∈ (run start ops).log) :
    c < (run start ops).count ∧ ((run start ops).conn c).node = n := by
  rcases h with h | h
  · exact (inv_run ops inv_start).log (.returned t n c st) h
  · exact (inv_run ops inv_start).log (.found t n (some c)) h

example : Ev.returned 1 7 0 .ready ∈ (run start Demo.C92.connected).log := by decide +kernel

/-- Who looks for a connection finds the one handed out last, unless it was removed since. -/
theorem found_is_current (ops : List Op) (t n : Nat) (ha : (run start ops).dead = false)
    (hm : (run start ops).mayCall t = true) :
    ((run start ops).op (.cached t n)).log = (run start ops).log ++ [.found t n (current n (run start ops).log)] := by
  have hi := inv_run ops inv_start
  generalize run start ops = s at *
  rw [← hi.hist n (no_wait (job_of_mayCall hm).1 n)]
  simp [St.op, ha, St.next, hm, St.add]

example : current 7 (run start Demo.C92.connected).log = some 0 := by decide +kernel

/-- A connection that is ready is reused: it is returned at once and no connection is created. -/
theorem ready_is_reused (ops : List Op) (t n c : Nat) (ha : (run start ops).dead = false)
    (hm : (run start ops).mayCall t = true) (hc : current n (run start ops).log = some c)
    (hr : ((run start ops).conn c).st = .ready) :
    (run start (ops ++ [.get t n])).log = (run start ops).log ++ [.returned t n c .ready] ∧
    (run start (ops ++ [.get t n])).count = (run start ops).count := by
  have hi := inv_run ops inv_start
  rw [run_append]
  generalize run start ops = s at *
  have hcc : s.cache n = some c := (hi.hist n (no_wait (job_of_mayCall hm).1 n)).trans hc
  have : s.op (.get t n) = s.add (.returned t n c .ready) := by simp [St.op, ha, St.next, hm, St.get, hcc, hr]
  show (s.op (.get t n)).log = _ ∧ (s.op (.get t n)).count = _
  rw [this]; exact ⟨rfl, rfl⟩

example : (run start Demo.C92.connected).mayCall 2 = true ∧ ((run start Demo.C92.connected).conn 0).st = .ready := by
  decide +kernel

/-- Without a connection that is ready a new one is created for the process, and the old one is not open any more. -/
theorem broken_is_replaced (ops : List Op) (t n : Nat) (ha : (run start ops).dead = false)
    (hm : (run start ops).mayCall t = true)
    (hc : ∀ c, current n (run start ops).log = some c → ((run start ops).conn c).st ≠ .ready) :
    (run start (ops ++ [.get t n])).count = (run start ops).count + 1 ∧
    Open (run start (ops ++ [.get t n])) (run start ops).count ∧
    ((run start (ops ++ [.get t n])).conn (run start ops).count).node = n ∧
    ∀ c, current n (run start ops).log = some c → ¬ Open (run start (ops ++ [.get t n])) c := by
  have hi := inv_run ops inv_start
  rw [run_append]
  generalize run start ops = s at *
  show (s.op (.get t n)).count = _ ∧ Open (s.op (.get t n)) _ ∧ ((s.op (.get t n)).conn _).node = n ∧
    ∀ c, _ → ¬ Open (s.op (.get t n)) c
  have hh := hi.hist n (no_wait (job_of_mayCall hm).1 n)
  rw [← hh] at hc ⊢
  cases hcc : s.cache n with
  | none =>
    have : s.op (.get t n) = s.create t n := by simp [St.op, ha, St.next, hm, St.get, hcc]
    rw [this]
    exact ⟨rfl, ⟨Nat.lt_succ_self _, by simp [St.create, St.setConn]⟩, by simp [St.create, St.setConn], fun c h => (by cases h)⟩
  | some c =>
    have hl := (hi.cached n c hcc).1
    have : s.op (.get t n) = ((s.setConn c ((s.conn c).stop t)).setCache n none).create t n := by
      simp [St.op, ha, St.next, hm, St.get, hcc, hc c hcc]
    rw [this]
    refine ⟨rfl, ⟨Nat.lt_succ_self _, by simp [St.create, St.setConn, St.setCache]⟩,
      by simp [St.create, St.setConn, St.setCache], fun c' h => ?_⟩
    cases h
    intro ho
    have := ho.2
    simp [St.create, St.setConn, St.setCache, Nat.ne_of_lt hl] at this

example : (run start Demo.C92.broken).mayCall 2 = true ∧ current 7 (run start Demo.C92.broken).log = some 0 ∧
    ((run start Demo.C92.broken).conn 0).st ≠ .ready := by decide +kernel

/-- A thread gets a connection that is ready if the peer accepts it, unless the callback thread is in a handler. -/
theorem user_is_connected (ops : List Op) (t n : Nat) (ha : (run start ops).dead = false)
    (hm : (run start ops).mayCall t = true) (hh : (run start ops).inHandler = false)
    (hc : ∀ c, current n (run start ops).log = some c → ((run start ops).conn c).st ≠ .ready) :
    (run start (ops ++ [.get t n, .connect (run start ops).count .connected, .go])).log =
      (run start ops).log ++ [.returned t n (run start ops).count .ready] := by
  have hi := inv_run ops inv_start
  rw [run_append]
  generalize run start ops = s at *
  have h' := hi.hist n (no_wait (job_of_mayCall hm).1 n)
  rw [← h'] at hc
  have key : ∀ s1 : St, s1.dead = false → s1.inHandler = false → s1.cache n = none → s1.now = s.now → s1.log = s.log →
      s1.count = s.count → (((s1.create t n).op (.connect s.count .connected)).op .go).log =
        s.log ++ [.returned t n s.count .ready] := by
    intro s1 h1 h2 h3 h4 h5 h6
    simp [St.op, St.next, St.create, St.setConn, St.setCache, h1, h2, h3, h4, h5, h6, Conn.attempt, St.look, St.finish, St.add]
  show (((s.op (.get t n)).op (.connect s.count .connected)).op .go).log = _
  cases hcc : s.cache n with
  | none =>
    have : s.op (.get t n) = s.create t n := by simp [St.op, ha, St.next, hm, St.get, hcc]
    rw [this]; exact key s ha hh hcc rfl rfl rfl
  | some c =>
    have : s.op (.get t n) = ((s.setConn c ((s.conn c).stop t)).setCache n none).create t n := by
      simp [St.op, ha, St.next, hm, St.get, hcc, hc c hcc]
    rw [this]; exact key _ ha hh (by simp [St.setCache]) rfl rfl rfl

/-- If the peer refuses, the thread does not wait for the timeout: it is told at its next look that the connection is stopped. -/
theorem user_is_refused (ops : List Op) (t n : Nat) (ha : (run start ops).dead = false)
    (hm : (run start ops).mayCall t = true) (hh : (run start ops).inHandler = false)
    (hc : ∀ c, current n (run start ops).log = some c → ((run start ops).conn c).st ≠ .ready) :
    (run start (ops ++ [.get t n, .connect (run start ops).count .failed, .go])).log =
      (run start ops).log ++ [.returned t n (run start ops).count .stopped] := by
  have hi := inv_run ops inv_start
  rw [run_append]
  generalize run start ops = s at *
  have h' := hi.hist n (no_wait (job_of_mayCall hm).1 n)
  rw [← h'] at hc
  have key : ∀ s1 : St, s1.dead = false → s1.inHandler = false → s1.cache n = none → s1.now = s.now → s1.log = s.log →
      s1.count = s.count → (((s1.create t n).op (.connect s.count .failed)).op .go).log =
        s.log ++ [.returned t n s.count .stopped] := by
    intro s1 h1 h2 h3 h4 h5 h6
    simp [St.op, St.next, St.create, St.setConn, St.setCache, h1, h2, h3, h4, h5, h6, Conn.attempt, Conn.fail, St.look, St.finish, St.add]
  show (((s.op (.get t n)).op (.connect s.count .failed)).op .go).log = _
  cases hcc : s.cache n with
  | none =>
    have : s.op (.get t n) = s.create t n := by simp [St.op, ha, St.next, hm, St.get, hcc]
    rw [this]; exact key s ha hh hcc rfl rfl rfl
  | some c =>
    have : s.op (.get t n) = ((s.setConn c ((s.conn c).stop t)).setCache n none).create t n := by
      simp [St.op, ha, St.next, hm, St.get, hcc, hc c hcc]
    rw [this]; exact key _ ha hh (by simp [St.setCache]) rfl rfl rfl

example : (run start Demo.C92.broken).inHandler = false ∧ (run start Demo.C92.broken).dead = false := by decide +kernel

/-- A call for a connection returns, whatever the peer and the other threads do: when it is still waiting 550 ms
(in microseconds) after it began, it returns as soon as its thread runs. -/
theorem call_returns (ops ops' : List Op) (t n : Nat) (ha : (run start ops).dead = false)
    (hm : (run start ops).mayCall t = true)
    (ht : (run start (ops ++ .get t n :: ops')).now ≥ (run start ops).now + 550000) :
    ∃ r c st, (run start (ops ++ .get t n :: ops' ++ [.go])).log = (run start ops).log ++ r ∧ .returned t n c st ∈ r := by
  have hi := inv_run (ops ++ .get t n :: ops') inv_start
  have hti := timed_run (ops ++ .get t n :: ops') timed_start
  have hp : Pending t n (run start ops).now (run start ops).log (run start (ops ++ .get t n :: ops')) := by
    rw [run_append]
    exact pending_run ops' (inv_op (inv_run ops inv_start) _) (pending_get ha hm n)
  rw [run_append (ops := ops ++ .get t n :: ops')]
  generalize run start (ops ++ .get t n :: ops') = s at *
  show ∃ r c st, (s.op .go).log = _ ∧ _
  rcases hp with ⟨r, c, st, h1, h2⟩ | ⟨hd, hl, c, d, w, k, hj⟩
  · obtain ⟨l', h'⟩ := log_op s .go
    exact ⟨r ++ l', c, st, by rw [h', h1, List.append_assoc], List.mem_append_left _ h2⟩
  · obtain ⟨-, -, h3, -, -⟩ := hti _ _ _ _ _ _ _ hj
    have hc := (hi.waiting n c ⟨_, _, _, _, _, hj⟩).2.2
    have hw : ¬ s.now < w := by omega
    have hf : s.look t n c d (run start ops).now k = s.finish t n c := by
      have : s.now ≥ (run start ops).now + timeout := by unfold timeout; omega
      unfold St.look
      rw [if_pos this]; split <;> (try split) <;> rfl
    have : s.op .go = s.finish t n c := by
      simp [St.op, hd, St.next, hj, hw, hf]
    rw [this]
    unfold St.finish
    rw [hc]
    exact ⟨[.returned t n c (s.conn c).st], c, _, congrArg (· ++ _) hl, List.mem_singleton_self _⟩

example : (run start ([] ++ .get 1 7 :: [.go, .tick 550000])).now ≥ (run start []).now + 550000 := by decide +kernel

/-- Such a call looks at most twenty times: it sleeps at most 19 times. -/
theorem looks_bounded (ops : List Op) (t n c d w b k : Nat)
    (h : (run start ops).job = some (.waiting t n c d w b k)) : k ≤ 19 :=
  (timed_run ops timed_start t n c d w b k h).2.2.2.1

example : ∃ c d w b, (run start [.get 1 7, .go, .tick 50, .go]).job = some (.waiting 1 7 c d w b 2) :=
  ⟨0, 200, 150, 0, by decide +kernel⟩

/-- The process does not end in the cache, if connections are removed by the callback thread only. -/
theorem process_lives (ops : List Op) (h : RemovedByCallback ops) : (run start ops).dead = false :=
  alive_run ops settled_start inv_start rfl h

example : RemovedByCallback (Demo.C92.connected ++ [.enter, .remove 0 7, .go]) ∧
    (run start (Demo.C92.connected ++ [.enter, .remove 0 7, .go])).log.getLast? = some (.removed 0 7) :=
  ⟨fun t n h => by simp [Demo.C92.connected] at h; exact h.1, by decide +kernel⟩

/-- When a removal returns, the connection handed out last is stopped and nothing is found for the process. -/
theorem removed_is_stopped (ops : List Op) (o : Op) (t n : Nat)
    (h : (run start (ops ++ [o])).log = (run start ops).log ++ [.removed t n]) :
    (∀ c, current n (run start ops).log = some c → ((run start (ops ++ [o])).conn c).st = .stopped) ∧
    current n (run start (ops ++ [o])).log = none := by
  have hi := inv_run ops inv_start
  refine ⟨fun c hc => ?_, by rw [h, current_append]; simp⟩
  rw [run_append] at h ⊢
  generalize run start ops = s at *
  change (s.op o).log = _ at h
  show ((s.op o).conn c).st = _
  exact stopped_of_removed hi h hc

example : (run start (Demo.C92.connected ++ [.enter, .remove 0 7] ++ [.go])).log =
    (run start (Demo.C92.connected ++ [.enter, .remove 0 7])).log ++ [.removed 0 7] ∧
    current 7 (run start (Demo.C92.connected ++ [.enter, .remove 0 7])).log = some 0 := by decide +kernel

/-- The callback thread does not wait when it removes a connection. -/
theorem removed_at_once (ops : List Op) (n : Nat) (h : RemovedByCallback ops) (hm : (run start ops).mayCall 0 = true) :
    (run start (ops ++ [.remove 0 n, .go])).log = (run start ops).log ++ [.removed 0 n] := by
  have hs := settled_run ops settled_start inv_start h
  have ha := alive_run ops settled_start inv_start rfl h
  rw [run_append]
  generalize run start ops = s at *
  show ((s.op (.remove 0 n)).op .go).log = _
  exact remove_zero hs ha hm n

example : RemovedByCallback (Demo.C92.connected ++ [.enter]) ∧ (run start (Demo.C92.connected ++ [.enter])).mayCall 0 = true :=
  ⟨fun t n h => by simp [Demo.C92.connected] at h, by decide +kernel⟩

/-- The condition is needed: a thread that removes a connection while the callback thread is in a handler ends the
process after 450 ms. -/
theorem remove_elsewhere_ends : ∃ ops, (run start ops).dead = true ∧
    ∀ t n, Op.remove t n ∈ ops → t = 1 :=
  ⟨Demo.C92.connected ++ [.enter, .remove 1 7] ++ (List.replicate 10 [.tick 50000, .go]).flatten,
   by decide +kernel, fun t n h => by simp [Demo.C92.connected, List.replicate] at h; exact h.1⟩

/-- Finding: a handler on the callback thread that asks for a connection which does not exist yet never gets one that is
ready.  The call waits for at least 500 ms, in which no connection makes progress, and returns one that is still starting. -/
theorem handler_waits_in_vain (ops : List Op) (n c d w b k : Nat) (e : Ev)
    (hj : (run start ops).job = some (.waiting 0 n c d w b k))
    (he : ((run start ops).op .go).log = (run start ops).log ++ [e]) :
    e = .returned 0 n c .starting ∧ (run start ops).now ≥ b + 500000 := by
  have hv := vain_run ops vain_start
  generalize run start ops = s at *
  have hst := hv.waiting n c d w b k hj
  have hd := does_op s .go
  generalize s.op .go = s' at hd he
  have nil : s.log = s.log ++ [e] → False := fun h => by
    have := congrArg List.length h; simp at this
  cases hd with
  | same => exact (nil he).elim
  | finish t' n' c' delay wake began sleeps hj' hw hc hs =>
    rw [hj] at hj'; cases hj'
    have h1 : s.log ++ [.returned 0 n c (s.conn c).st] = s.log ++ [e] := he
    have h2 := List.append_cancel_left h1
    cases h2
    rw [hst]
    refine ⟨rfl, ?_⟩
    rcases hs with h | h
    · exact absurd hst h
    · exact h
  | clash t' n' c' c'' delay wake began sleeps hj' hc => exact (nil he).elim
  | sleep t' n' c' delay wake began sleeps hj' hw hs ht => exact (nil he).elim
  | closed t' n' c' tries wake hj' hs => rw [hj] at hj'; cases hj'
  | ended t' n' c' tries wake hj' hs => exact (nil he).elim
  | retry t' n' c' tries wake hj' hs => exact (nil he).elim

example : ((run start [.enter, .get 0 7, .tick 500000]).op .go).log = [.returned 0 7 0 .starting] := by decide +kernel

end Verif.Props.C92
