import Verif.Proofs.EngineClean4

namespace Verif.Demo.C118
open Verif.EngineClean

/-- A command that is due at 5 and a command that runs; its callback registers an endpoint; a
second thread cleans up the owner 7 meanwhile. -/
def before : List Op := [.enqueue 5 7, .enqueue 0 7, .begin 1, .turn, .register 7]

/-- The rest of the clean-up that thread 3 asked for. -/
def rest : List Op := [.finish, .turn, .enqueue 9 7, .finish]

/-- Two threads clean up the same owner. -/
def two : List Op := [.call 1 7, .call 2 7, .begin 0, .turn, .finish, .resume 1]

/-- A callback of owner 5 cleans up owner 7 while thread 1 does. -/
def meanwhile : List Op := [.enqueue 0 5, .begin 0, .turn, .call 1 7, .cleanHere 7]

/-- A callback of a server cleans up owner 7 while a callback of owner 7 runs. -/
def server : List Op := [.enqueue 0 7, .begin 0, .turn, .serverClean 7]

theorem rests_idle (qnx : Bool) : ∀ (n : Nat) (s : St), s.queue.length ≤ n → s.busy = .idle →
    ∃ ops, (∀ op ∈ ops, Engine op) ∧ (run qnx s ops).busy = .idle ∧ (run qnx s ops).now = none
  | n, s, hl, hb => by
    cases hn : s.now with
    | none => exact ⟨[], by simp, hb, hn⟩
    | some m =>
      cases hq : s.queue with
      | nil => exact ⟨[.turn], by simp [Engine], by simp [run, step, turn, hb, hn, hq], by simp [run, step, turn, hb, hn, hq]⟩
      | cons c q =>
        by_cases hd : c.due > m
        · exact ⟨[.turn], by simp [Engine], by simp [run, step, turn, hb, hn, hq, hd], by simp [run, step, turn, hb, hn, hq, hd]⟩
        · cases n with
          | zero => rw [hq] at hl; simp at hl
          | succ n =>
            have h2 : (run qnx s [.turn, .finish]).busy = .idle ∧ (run qnx s [.turn, .finish]).queue.length ≤ n := by
              have hl' : q.length ≤ n := by rw [hq] at hl; simpa using hl
              cases hw : c.waiter with
              | none => simp [run, step, turn, finish, hb, hn, hq, hd, hw, hl']
              | some t =>
                simp only [run, step, turn, finish, hb, hn, hq, hd, hw, processCleanup, List.foldl, if_false]
                exact ⟨trivial, Nat.le_trans (List.length_filter_le _ _) hl'⟩
            obtain ⟨ops, ho, r1, r2⟩ := rests_idle qnx n _ h2.2 h2.1
            refine ⟨.turn :: .finish :: ops, ?_, r1, r2⟩
            intro op hop
            rcases List.mem_cons.1 hop with rfl | hop
            · trivial
            rcases List.mem_cons.1 hop with rfl | hop
            · trivial
            exact ho op hop

theorem rests (qnx : Bool) (s : St) : ∃ ops, (∀ op ∈ ops, Engine op) ∧ (run qnx s ops).busy = .idle ∧ (run qnx s ops).now = none := by
  have hb : (run qnx s [.finish]).busy = .idle := by
    simp only [run, step, finish, List.foldl]; split <;> simp_all
  obtain ⟨ops, ho, r1, r2⟩ := rests_idle qnx _ _ (Nat.le_refl _) hb
  refine ⟨.finish :: ops, ?_, r1, r2⟩
  intro op hop
  rcases List.mem_cons.1 hop with rfl | hop
  · trivial
  exact ho op hop

theorem gone_run {qnx : Bool} {o k : Nat} : ∀ (ops : List Op) {s : St}, Gone o k s → k ≤ s.next → Gone o k (run qnx s ops)
  | [], _, g, _ => g
  | op :: ops, _, g, hk => gone_run ops (gone_step g hk op) (Nat.le_trans hk (next_step op))

theorem made_run {qnx : Bool} {p : Nat × Nat} : ∀ (ops : List Op) {s : St}, p ∈ s.made → p ∈ (run qnx s ops).made
  | [], _, h => h
  | op :: ops, _, h => made_run ops (made_step op h)

theorem next_run {qnx : Bool} : ∀ (ops : List Op) {s : St}, s.next ≤ (run qnx s ops).next
  | [], _ => Nat.le_refl _
  | op :: ops, _ => Nat.le_trans (next_step op) (next_run ops)

end Verif.Demo.C118

namespace Verif.Props.C118
open Verif.EngineClean Verif.Demo.C118

/-- **C118 (nothing of the owner after the call).** A thread calls `CleanUpOwner(o)` and the call returns.  Whatever `o`
had registered before the call, as a command or as an endpoint, is not running when the call returns, is not registered
any more, and is never called again, whatever happens in between and afterwards. -/
theorem nothing_after (qnx : Bool) (before during after : List Op) (t o id : Nat)
    (hfree : ¬ Blocked (run qnx init before) t) (ho : o ≠ 0) (hreg : Registered (run qnx init before) id o)
    (hin : .resume t ∉ during)
    (hret : ¬ Blocked (step qnx (run qnx (run qnx init before) (.call t o :: during)) (.resume t)) t) :
    let s := step qnx (run qnx (run qnx init before) (.call t o :: during)) (.resume t)
    ¬ Running s id ∧ (∀ e ∈ s.eps, e.id ≠ id) ∧ (∀ c ∈ s.queue, c.waiter = none → c.id ≠ id) ∧
      ¬ Running (run qnx s after) id ∧ calls (run qnx s after) id = calls s id := by
  have h0 : Inv (run qnx init before) := inv_run _ inv_init
  have hw0 : (run qnx init before).wait t = none := Classical.byContradiction hfree
  have hlt := h0.fresh id o hreg
  generalize hs0 : run qnx init before = s0 at h0 hw0 hlt hreg hret ⊢
  have h1 : Inv (run qnx s0 (.call t o :: during)) := inv_run _ h0
  have hw1 : (run qnx s0 (.call t o :: during)).wait t = some (o, s0.next) := by
    refine wait_run during (s := step qnx s0 (.call t o)) ?_ hin
    simp only [step, call, if_neg ho, hw0]
    exact upd_same _ _ _
  have hm1 : (id, o) ∈ (run qnx s0 (.call t o :: during)).made := made_run _ hreg
  have hn1 : s0.next ≤ (run qnx s0 (.call t o :: during)).next := next_run _
  generalize run qnx s0 (.call t o :: during) = s1 at h1 hw1 hm1 hn1 hret ⊢
  intro s
  have hr : s1.ready t = true := by
    cases h : s1.ready t with
    | true => rfl
    | false =>
      refine absurd ?_ hret
      simp only [step, resume, h, Blocked, hw1]
      simp [hw1]
  obtain ⟨o', k, hk, g⟩ := h1.r t hr
  rw [hw1] at hk
  injection hk with hk
  injection hk with hk1 hk2
  subst hk1 hk2
  have g2 : Gone o s0.next s := gone_step g hn1 (.resume t)
  have h2 : Inv s := inv_step h1 _
  have hm2 : (id, o) ∈ s.made := made_step _ hm1
  have hn2 : s0.next ≤ s.next := Nat.le_trans hn1 (next_step _)
  have run_no : ∀ s' : St, Inv s' → Gone o s0.next s' → (id, o) ∈ s'.made → ¬ Running s' id := by
    rintro s' hi g' hm ⟨o2, hb⟩
    have := hi.uniq id o o2 hm (hi.b id o2 hb)
    subst this
    have := g'.b id hb
    omega
  refine ⟨run_no s h2 g2 hm2, fun e he hi => ?_, fun c hc hw hi => ?_,
    run_no _ (inv_run _ h2) (gone_run _ g2 hn2) (made_run _ hm2), calls_run after h2 g2.toQ hn2 hm2 hlt⟩
  · have hx := h2.e e he
    rw [hi] at hx
    have := g2.e e he (h2.uniq id _ _ hx hm2)
    omega
  · have hx := h2.q c hc hw
    rw [hi] at hx
    have := g2.q c hc hw (h2.uniq id _ _ hx hm2)
    omega

example : ¬ Blocked (run false init before) 3 ∧ Registered (run false init before) 0 7 ∧ Registered (run false init before) 2 7 ∧
    Running (run false init before) 1 ∧ .resume 3 ∉ rest ∧
    ¬ Blocked (step false (run false (run false init before) (.call 3 7 :: rest)) (.resume 3)) 3 := by
  refine ⟨?_, ?_, ?_, ⟨7, ?_⟩, ?_, ?_⟩ <;> try unfold Blocked
  all_goals try unfold Registered
  all_goals decide +kernel

/-- **C118 (nothing of the owner after the call, in a callback).** After `CleanUpOwner(o)` in a callback (on QNX also in a
callback of a server), what `o` had registered before is not registered any more and is never called again. -/
theorem nothing_after_here (qnx : Bool) (before after : List Op) (op : Op) (o id : Nat) (ho : o ≠ 0)
    (hreg : Registered (run qnx init before) id o)
    (hop : (op = .cleanHere o ∧ ∃ i, Running (run qnx init before) i) ∨ (op = .serverClean o ∧ qnx = true)) :
    let s := step qnx (run qnx init before) op
    (∀ e ∈ s.eps, e.id ≠ id) ∧ (∀ c ∈ s.queue, c.waiter = none → c.id ≠ id) ∧
      calls (run qnx s after) id = calls (run qnx init before) id := by
  intro s
  have h0 : Inv (run qnx init before) := inv_run _ inv_init
  have hlt := h0.fresh id o hreg
  have hs : s = processCleanup (run qnx init before) o := by
    rcases hop with ⟨rfl, i, a, hb⟩ | ⟨rfl, rfl⟩
    · simp only [s, step, cleanHere, if_neg ho, hb]
    · simp [s, step, serverClean, ho]
  generalize run qnx init before = s0 at h0 hlt hreg hs
  have h2 : Inv s := hs ▸ inv_clean h0 o
  have g2 : GoneQ o s0.next s := hs ▸ goneQ_of_clean o s0.next s0
  have hm2 : (id, o) ∈ s.made := by rw [hs]; exact hreg
  have hn2 : s0.next ≤ s.next := by rw [hs]; exact Nat.le_refl _
  refine ⟨fun e he hi => ?_, fun c hc hw hi => ?_, ?_⟩
  · have hx := h2.e e he
    rw [hi] at hx
    have := g2.e e he (h2.uniq id _ _ hx hm2)
    omega
  · have hx := h2.q c hc hw
    rw [hi] at hx
    have := g2.q c hc hw (h2.uniq id _ _ hx hm2)
    omega
  · rw [calls_run after h2 g2 hn2 hm2 hlt, hs, calls_clean]

example : Registered (run false init before) 0 7 ∧ ∃ i, Running (run false init before) i := by
  refine ⟨?_, 1, 7, ?_⟩ <;> try unfold Registered
  all_goals decide +kernel

/-- **C118 (the call returns), partial.** `CleanUpOwner(o)` on a thread returns if no other clean-up of `o` is asked for
meanwhile: at each moment before it returns, the engine's thread gets there by itself.
What is missing: it need not return if there is another one (`both_wait_fails`, `callback_cleans_fails`). -/
theorem returns_partial (qnx : Bool) (before during : List Op) (t o : Nat) (ho : o ≠ 0)
    (hfree : ¬ Blocked (run qnx init before) t) (hone : ¬ Cleaning (run qnx init before) o)
    (hno : ∀ op ∈ during, ¬ Cleans o op) (hin : .resume t ∉ during) :
    Blocked (run qnx (run qnx init before) (.call t o :: during)) t ∧
    ∃ ops, (∀ op ∈ ops, Engine op) ∧
      ¬ Blocked (step qnx (run qnx (run qnx init before) (.call t o :: (during ++ ops))) (.resume t)) t := by
  have h0 : Inv (run qnx init before) := inv_run _ inv_init
  have h1 : Inv (step qnx (run qnx init before) (.call t o)) := inv_step h0 _
  have a1 : Alone t o (step qnx (run qnx init before) (.call t o)) := alone_call ho hfree hone
  have h2 := inv_run (qnx := qnx) during h1
  have a2 := alone_run (qnx := qnx) during h1 a1 hno hin
  refine ⟨?_, ?_⟩
  · obtain ⟨k, hk⟩ := a2.wt
    intro hn
    have : (run qnx (step qnx (run qnx init before) (.call t o)) during).wait t = none := hn
    rw [hk] at this
    cases this
  · obtain ⟨ops, hops, hr⟩ := alone_done qnx h2 a2
    refine ⟨ops, hops, ?_⟩
    have : run qnx (run qnx init before) (.call t o :: (during ++ ops)) =
        run qnx (run qnx (step qnx (run qnx init before) (.call t o)) during) ops := run_append _ _ _ _
    rw [this]
    intro hb
    apply hb
    generalize run qnx (run qnx (step qnx (run qnx init before) (.call t o)) during) ops = s' at hr
    simp only [step, resume]
    rw [if_pos hr]
    exact upd_same _ _ _

example : ¬ Blocked (run false init before) 3 ∧ ¬ Cleaning (run false init before) 7 ∧ (∀ op ∈ rest, ¬ Cleans 7 op) ∧ .resume 3 ∉ rest := by
  refine ⟨?_, ?_, ?_, ?_⟩
  · simp only [Blocked]; decide +kernel
  · rintro ⟨t, c, h⟩; cases h
  · simp [rest, Cleans]
  · decide +kernel

/-- **C118. Violated.** Two threads call `CleanUpOwner` with the same owner.  The clean-up for the first one removes the
command of the second one, which never returns. -/
theorem both_wait_fails (qnx : Bool) (ops : List Op) :
    ¬ Blocked (run qnx init two) 1 ∧ Blocked (run qnx (run qnx init two) ops) 2 := by
  refine ⟨?_, (lost_run ops (s := run qnx init two) ⟨?_, ?_, ?_, ?_⟩).w⟩ <;> try unfold Blocked
  all_goals cases qnx <;> decide +kernel

/-- **C118. Violated.** So does a callback that cleans up the owner while a thread waits for the same. -/
theorem callback_cleans_fails (qnx : Bool) (ops : List Op) : Blocked (run qnx (run qnx init meanwhile) ops) 1 := by
  refine (lost_run ops (s := run qnx init meanwhile) ⟨?_, ?_, ?_, ?_⟩).w <;> cases qnx <;> decide +kernel

/-- **C118. Violated.** On QNX `CleanUpOwner` in a callback of a server (a callback that is not of the owner) returns while
a callback of the owner is running, and that callback ends later. -/
theorem server_thread_fails :
    Registered (run true init server) 0 7 ∧ Running (run true init server) 0 ∧ (run true init server).log = [.started 0] ∧
      (run true init (server ++ [.finish])).log = [.started 0, .ended 0] := by
  refine ⟨?_, ⟨7, ?_⟩, ?_, ?_⟩ <;> try unfold Registered
  all_goals decide +kernel

/-- **C118 (endpoints are told once).** An endpoint is registered.  At each moment afterwards, it is registered and was
not told, or it is not registered and was told exactly once that it is disconnected. -/
theorem told_once (qnx : Bool) (before after : List Op) (o : Nat) (hcb : ∃ i, Running (run qnx init before) i) :
    let id := (run qnx init before).next
    let s := run qnx (step qnx (run qnx init before) (.register o)) after
    (tells s id = 0 ∧ ⟨id, o⟩ ∈ s.eps) ∨ (tells s id = 1 ∧ ∀ e ∈ s.eps, e.id ≠ id) := by
  obtain ⟨i, a, hb⟩ := hcb
  intro id s
  have w : Told id o s := told_run after (told_register (fresh_run before fresh_init) o hb)
  have sum := w.sum
  cases hr : regs id s.eps with
  | zero =>
    refine Or.inr ⟨by omega, fun e he hi => ?_⟩
    have := List.countP_eq_zero.1 hr e he
    simp [hi] at this
  | succ n =>
    refine Or.inl ⟨by omega, ?_⟩
    obtain ⟨e, he, hi⟩ := List.countP_pos_iff.1 (show 0 < regs id s.eps by omega)
    have hi : e.id = id := by simpa using hi
    have ho := w.own e he hi
    cases e
    simp only at hi ho
    subst hi ho
    exact he

example : (∃ i, Running (run false init [.enqueue 0 7, .begin 1, .turn]) i) ∧
    tells (run false init ([.enqueue 0 7, .begin 1, .turn] ++ [.register 7] ++ [.finish, .turn, .fire 1, .finish])) 1 = 0 ∧
    tells (run false init ([.enqueue 0 7, .begin 1, .turn] ++ [.register 7] ++ [.finish, .call 3 7, .turn])) 1 = 1 := by
  refine ⟨⟨0, 7, ?_⟩, ?_, ?_⟩ <;> try unfold tells
  all_goals decide +kernel

/-- **C118 (endpoints stay).** An endpoint that is registered stays registered, and its callback is called when it has
something to read, until it is unregistered or its owner is cleaned up; the clean-up of other owners does not matter. -/
theorem endpoint_kept (qnx : Bool) (before after : List Op) (o : Nat) (hcb : ∃ i, Running (run qnx init before) i)
    (hone : ¬ Cleaning (run qnx init before) o)
    (hno : ∀ op ∈ after, ¬ Cleans o op ∧ op ≠ .unregister (run qnx init before).next) :
    let id := (run qnx init before).next
    let s := run qnx (step qnx (run qnx init before) (.register o)) after
    ⟨id, o⟩ ∈ s.eps ∧ tells s id = 0 ∧
      (s.busy = .idle → s.now = none → Running (step qnx s (.fire id)) id ∧ calls (step qnx s (.fire id)) id = calls s id + 1) := by
  obtain ⟨i, a, hb⟩ := hcb
  intro id s
  have w : Told id o s := told_run after (told_register (fresh_run before fresh_init) o hb)
  have st : Stays id o s := by
    refine stays_run after (inv_step (inv_run _ inv_init) _) ⟨?_, ?_⟩ hno
    · simp [step, register, hb, id]
    · intro t k hk
      refine hone ⟨t, k, ?_⟩
      simpa [step, register, hb] using hk
  have hpos : 0 < regs id s.eps := List.countP_pos_iff.2 ⟨_, st.e, by simp⟩
  refine ⟨st.e, by have := w.sum; omega, fun hi hn => ?_⟩
  have hf : ∃ e, s.eps.find? (fun e => e.id == id) = some e ∧ e.id = id := by
    cases hfe : s.eps.find? (fun e => e.id == id) with
    | none => have := List.find?_eq_none.1 hfe _ st.e; simp at this
    | some e => exact ⟨e, rfl, by simpa using List.find?_some hfe⟩
  obtain ⟨e, hf, he⟩ := hf
  simp only [step, fire, hi, hn, hf, he]
  exact ⟨⟨_, rfl⟩, by simp [calls, List.count_append]⟩

example : (∃ i, Running (run false init [.enqueue 0 7, .begin 1, .turn]) i) ∧ ¬ Cleaning (run false init [.enqueue 0 7, .begin 1, .turn]) 7 ∧
    ∀ op ∈ [Op.finish, .turn, .call 3 8, .begin 0, .turn, .finish], ¬ Cleans 7 op ∧ op ≠ .unregister (run false init [.enqueue 0 7, .begin 1, .turn]).next := by
  refine ⟨⟨0, 7, ?_⟩, ?_, ?_⟩
  · decide +kernel
  · rintro ⟨t, c, h⟩; cases h
  · simp [Cleans]

/-- **C118 (the engine's thread goes on).** Under the conditions of `endpoint_kept` the engine's thread gets by itself
to where it can call the callback of the endpoint, whatever commands and clean-ups are waiting. -/
theorem endpoint_called (qnx : Bool) (before after : List Op) (o : Nat) (hcb : ∃ i, Running (run qnx init before) i)
    (hone : ¬ Cleaning (run qnx init before) o)
    (hno : ∀ op ∈ after, ¬ Cleans o op ∧ op ≠ .unregister (run qnx init before).next) :
    let id := (run qnx init before).next
    let s := run qnx (step qnx (run qnx init before) (.register o)) after
    ∃ ops, (∀ op ∈ ops, Engine op) ∧ Running (step qnx (run qnx s ops) (.fire id)) id := by
  intro id s
  obtain ⟨ops, hops, hi, hn⟩ := rests qnx s
  refine ⟨ops, hops, ?_⟩
  have h := endpoint_kept qnx before (after ++ ops) o hcb hone (fun op hop => by
    rcases List.mem_append.1 hop with h | h
    · exact hno op h
    · have := hops op h
      cases op <;> simp_all [Engine, Cleans])
  dsimp only at h
  rw [run_append] at h
  exact (h.2.2 hi hn).1

/-- The thread is in a callback, with a command and a clean-up of another owner in the queue. -/
example : (∃ i, Running (run false init [.enqueue 0 7, .begin 1, .turn]) i) ∧ ¬ Cleaning (run false init [.enqueue 0 7, .begin 1, .turn]) 7 ∧
    (∀ op ∈ [Op.enqueue 0 9, .call 3 8], ¬ Cleans 7 op ∧ op ≠ .unregister (run false init [.enqueue 0 7, .begin 1, .turn]).next) ∧
    (run false (step false (run false init [.enqueue 0 7, .begin 1, .turn]) (.register 7)) [.enqueue 0 9, .call 3 8]).queue.length = 2 := by
  refine ⟨⟨0, 7, ?_⟩, ?_, ?_, ?_⟩
  · decide +kernel
  · rintro ⟨t, c, h⟩; cases h
  · simp [Cleans]
  · decide +kernel

/-- **C118 (commands run at most once).** A command that is registered runs at most once, whatever is cleaned up. -/
theorem at_most_once (qnx : Bool) (before after : List Op) (due o : Nat) :
    calls (run qnx (step qnx (run qnx init before) (.enqueue due o)) after) (run qnx init before).next ≤ 1 := by
  have := (once_run (qnx := qnx) after (once_enqueue (fresh_run (qnx := qnx) before fresh_init) due o)).one
  exact Nat.le_trans (Nat.le_add_right _ _) this

/-- **C118 (commands are not lost).** A command whose owner is not cleaned up has run, or the engine's thread gets there
by itself; the clean-up of other owners does not matter.  With `at_most_once`: it runs exactly once. -/
theorem command_kept (qnx : Bool) (before after : List Op) (due o : Nat) (hone : ¬ Cleaning (run qnx init before) o)
    (hno : ∀ op ∈ after, ¬ Cleans o op) :
    let s := run qnx (step qnx (run qnx init before) (.enqueue due o)) after
    ∃ ops, (∀ op ∈ ops, Engine op) ∧ calls (run qnx s ops) (run qnx init before).next = 1 := by
  intro s
  have h0 : Inv (run qnx init before) := inv_run _ inv_init
  have h1 : Inv (step qnx (run qnx init before) (.enqueue due o)) := inv_step h0 _
  have k1 : Kept (run qnx init before).next o (step qnx (run qnx init before) (.enqueue due o)) :=
    ⟨Or.inr ⟨_, mem_insert.2 (Or.inl rfl), rfl, rfl, rfl⟩, fun t k hk => hone ⟨t, k, hk⟩⟩
  obtain ⟨ops, hops, hr⟩ := kept_done qnx (inv_run (qnx := qnx) after h1) (kept_run (qnx := qnx) after h1 k1 hno)
  refine ⟨ops, hops, ?_⟩
  have := at_most_once qnx before (after ++ ops) due o
  rw [run_append] at this
  exact Nat.le_antisymm this hr

example : ¬ Cleaning (run false init before) 7 ∧ ∀ op ∈ [Op.call 2 8, .finish, .turn, .finish, .resume 2], ¬ Cleans 7 op := by
  refine ⟨?_, by simp [Cleans]⟩
  rintro ⟨t, c, h⟩; cases h

/-- **C118 (null pointer).** `CleanUpOwner(nullptr)` does nothing, on whatever thread. -/
theorem null_owner (qnx : Bool) (s : St) (t : Nat) :
    step qnx s (.call t 0) = s ∧ step qnx s (.cleanHere 0) = s ∧ step qnx s (.serverClean 0) = s := by
  refine ⟨rfl, rfl, ?_⟩
  cases qnx <;> rfl

end Verif.Props.C118
