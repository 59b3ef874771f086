import Verif.Spec.QnxConn

namespace Verif.QnxConnProofs
open Verif.QnxConn Verif.QnxConnSpec

/-! ### Lists of items -/

theorem msgs_append (a b : List Item) : msgs (a ++ b) = msgs a ++ msgs b := by
  simp [msgs, List.filterMap_append]

@[simp] theorem msgs_msg (m : Msg) : msgs [.msg m] = [m] := rfl
@[simp] theorem msgs_ping : msgs [.ping] = [] := rfl

theorem pings_append (a b : List Item) : pings (a ++ b) = pings a + pings b := by
  simp [pings, List.countP_append]

@[simp] theorem pings_msg (m : Msg) : pings [.msg m] = 0 := by simp [pings]
@[simp] theorem pings_ping : pings [.ping] = 1 := by simp [pings]

/-- Pulses of a kind. -/
def sel (l : List Pulse) : Nat := l.countP (· == .select)
def pin (l : List Pulse) : Nat := l.countP (· == .ping)

theorem run_append (s : State) (a b : List Op) : run s (a ++ b) = run (run s a) b := by
  simp [run, List.foldl_append]

theorem run_cons (s : State) (o : Op) (b : List Op) : run s (o :: b) = run (step s o) b := rfl

theorem run_snoc (s : State) (a : List Op) (o : Op) : run s (a ++ [o]) = step (run s a) o := by
  simp [run, List.foldl_append]

/-! ### What holds of every connection -/

structure Inv (s : State) : Prop where
  order : s.stopped = false → msgs s.sent = msgs s.got ++ s.queue
  pre : ∃ l, msgs s.sent = msgs s.got ++ l
  pool : s.pool + s.queue.countP (! ·.reply) = s.cfg.queued
  off : s.selected = false → s.pulses = [] ∧ s.reading = false ∧ s.checked = false
  pings : pings s.sent = pings s.got + pin s.pulses
  one : s.queue.countP (·.reply) ≤ 1
  still : s.stopped = true → s.reading = false

theorem inv_start (c : Cfg) : Inv (start c) :=
  ⟨fun _ => rfl, ⟨[], rfl⟩, by simp [start], fun _ => ⟨rfl, rfl, rfl⟩, rfl, by simp [start], fun _ => rfl⟩

theorem inv_reply {s : State} (h : Inv s) (b : List UInt8) : Inv (reply s b).1 := by
  unfold reply
  split
  · exact h
  split
  · exact ⟨h.order, h.pre, h.pool, h.off, h.pings, h.one, h.still⟩
  · rename_i hno
    have hz : s.queue.countP (·.reply) = 0 := by
      rw [List.countP_eq_zero]; intro m hm hr
      exact hno (List.any_eq_true.2 ⟨m, hm, hr⟩)
    obtain ⟨l, hl⟩ := h.pre
    unfold pulse
    dsimp only
    by_cases hs : s.selected = true
    · rw [if_pos hs]
      refine ⟨fun hst => ?_, ⟨l ++ [⟨true, b⟩], ?_⟩, ?_, fun hc => ?_, ?_, ?_, h.still⟩
      · simp [msgs_append, h.order hst]
      · simp [msgs_append, hl]
      · have := h.pool; simp [List.countP_append] at *; exact this
      · simp [hs] at hc
      · have := h.pings; simp [pings_append, pin, List.countP_append] at *; exact this
      · simp [List.countP_append] at *; omega
    · rw [if_neg hs]
      refine ⟨fun hst => ?_, ⟨l ++ [⟨true, b⟩], ?_⟩, ?_, h.off, ?_, ?_, h.still⟩
      · simp [msgs_append, h.order hst]
      · simp [msgs_append, hl]
      · have := h.pool; simp [List.countP_append] at *; exact this
      · have := h.pings; simp [pings_append] at *; exact this
      · simp [List.countP_append] at *; omega

theorem inv_notify {s : State} (h : Inv s) (b : List UInt8) : Inv (notify s b).1 := by
  unfold notify
  split
  · exact h
  obtain ⟨l, hl⟩ := h.pre
  split
  · rename_i hp
    unfold pulse
    dsimp only
    rw [if_pos hp.2]
    refine ⟨fun hst => ?_, ⟨l, ?_⟩, h.pool, fun hc => ?_, ?_, h.one, h.still⟩
    · simp [msgs_append, h.order hst]
    · simp [msgs_append, hl]
    · simp [hp.2] at hc
    · have := h.pings; simp [pings_append, pin, List.countP_append] at *; omega
  split
  · exact h
  · rename_i hz
    unfold pulse
    dsimp only
    have hpool := h.pool
    have hping := h.pings
    by_cases hs : s.selected = true
    · rw [if_pos hs]
      refine ⟨fun hst => ?_, ⟨l ++ [⟨false, b⟩], ?_⟩, ?_, fun hc => ?_, ?_, ?_, h.still⟩
      · simp [msgs_append, h.order hst]
      · simp [msgs_append, hl]
      · simp [List.countP_append] at *; omega
      · simp [hs] at hc
      · simp [pings_append, pin, List.countP_append] at *; exact hping
      · have := h.one; simp [List.countP_append] at *; exact this
    · rw [if_neg hs]
      refine ⟨fun hst => ?_, ⟨l ++ [⟨false, b⟩], ?_⟩, ?_, h.off, ?_, ?_, h.still⟩
      · simp [msgs_append, h.order hst]
      · simp [msgs_append, hl]
      · simp [List.countP_append] at *; omega
      · simp [pings_append] at *; exact hping
      · have := h.one; simp [List.countP_append] at *; exact this

theorem inv_select {s : State} (h : Inv s) : Inv (select s) := by
  unfold select
  split
  · exact h
  · exact ⟨h.order, h.pre, h.pool, fun hc => by simp at hc, h.pings, h.one, h.still⟩

theorem inv_check {s : State} (h : Inv s) : Inv (check s) := by
  unfold check
  split
  · rename_i hs
    dsimp only
    split
    · exact ⟨h.order, h.pre, h.pool, fun hc => absurd (hc.symm.trans hs.1) (by simp), h.pings, h.one, h.still⟩
    · unfold pulse
      dsimp only
      rw [if_pos hs.1]
      refine ⟨h.order, h.pre, h.pool, fun hc => absurd (hc.symm.trans hs.1) (by simp), ?_, h.one, h.still⟩
      have := h.pings
      simp [pin, List.countP_append] at *; exact this
  · exact h

theorem inv_take {s : State} (h : Inv s) : Inv (take s) := by
  unfold take
  split
  · exact h
  rename_i hrs
  have hns : s.stopped = false := by cases h1 : s.stopped <;> simp [h1] at hrs ⊢
  obtain ⟨l, hl⟩ := h.pre
  split
  · exact h
  · rename_i ps hps
    refine ⟨fun hst => ?_, ⟨l, ?_⟩, h.pool, fun hc => ?_, ?_, h.one, h.still⟩
    · simp [msgs_append, h.order hst]
    · simp [msgs_append, hl]
    · exact absurd (h.off hc).1 (by simp [hps])
    · have := h.pings; simp [hps, pings_append, pin] at *; omega
  · rename_i ps hps
    refine ⟨h.order, h.pre, h.pool, fun hc => absurd (h.off hc).1 (by simp [hps]), ?_, h.one, fun hc => absurd (hns.symm.trans hc) (by simp)⟩
    have := h.pings; simp [hps, pin] at *; exact this

theorem inv_read {s : State} (h : Inv s) : Inv (readMsg s) := by
  unfold readMsg
  split
  · exact h
  rename_i hr
  have hsel : s.selected = true := by
    cases hs : s.selected
    · exact absurd (h.off hs).2.1 (by simpa using hr)
    · rfl
  have hoff : ∀ {p : Prop}, s.selected = false → p := fun hc => absurd (hc.symm.trans hsel) (by simp)
  have hns : s.stopped = false := by
    cases h1 : s.stopped
    · rfl
    · exact absurd (h.still h1) (by simpa using hr)
  obtain ⟨l, hl⟩ := h.pre
  dsimp only
  split
  · exact ⟨h.order, h.pre, h.pool, fun hc => hoff hc, h.pings, h.one, fun _ => rfl⟩
  rename_i m q hq
  have hord := h.order
  have hpool := h.pool
  have hone := h.one
  have hping := h.pings
  rw [hq] at hord hpool hone
  cases hm : m.reply
  · simp only [hm, Bool.false_eq_true, if_false]
    refine ⟨fun hst => ?_, ?_, ?_, fun hc => hoff hc, ?_, ?_, fun _ => rfl⟩
    · simp [msgs_append, hord hst]
    · exact ⟨q, by simp [msgs_append, hord hns]⟩
    · simp [hm] at *; omega
    · simp [pings_append] at *; exact hping
    · simp [hm] at *; exact hone
  · simp only [hm, if_true]
    split
    · refine ⟨fun hst => ?_, ?_, ?_, fun hc => hoff hc, ?_, ?_, fun _ => rfl⟩
      · simp [msgs_append, hord hst]
      · exact ⟨q, by simp [msgs_append, hord hns]⟩
      · simp [hm] at *; exact hpool
      · simp [pings_append] at *; exact hping
      · simp [hm] at *; simp [List.countP_eq_zero.2 (fun a ha => by simpa using hone a ha)]
    · refine ⟨fun hst => by simp at hst, ⟨l, hl⟩, ?_, fun hc => hoff hc, hping, ?_, fun _ => rfl⟩
      · simp [hm] at *; exact hpool
      · simp [hm] at *; simp [List.countP_eq_zero.2 (fun a ha => by simpa using hone a ha)]

theorem inv_step {s : State} (h : Inv s) (o : Op) : Inv (step s o) := by
  unfold step
  split
  · exact h
  cases o with
  | reply b => exact inv_reply h b
  | notify b => exact inv_notify h b
  | select => exact inv_select h
  | check => exact inv_check h
  | take => exact inv_take h
  | read => exact inv_read h
  | request =>
    dsimp only [request]
    split
    · exact h
    · exact ⟨h.order, h.pre, h.pool, h.off, h.pings, h.one, h.still⟩

theorem inv_run {s : State} (h : Inv s) (ops : List Op) : Inv (run s ops) := by
  induction ops generalizing s with
  | nil => exact h
  | cons o ops ih => exact ih (inv_step h o)

theorem inv_all (c : Cfg) (ops : List Op) : Inv (run (start c) ops) := inv_run (inv_start c) ops

/-! ### Nothing changes the configuration -/

theorem cfg_pulse (s : State) (p : Pulse) : (pulse s p).cfg = s.cfg := by
  unfold pulse; split <;> rfl

theorem cfg_step (s : State) (o : Op) : (step s o).cfg = s.cfg := by
  unfold step
  split
  · rfl
  cases o with
  | reply b => dsimp only [reply]; repeat' split
               all_goals (first | rfl | exact cfg_pulse _ _)
  | notify b => dsimp only [notify]; repeat' split
                all_goals (first | rfl | exact cfg_pulse _ _)
  | select => dsimp only [select]; split <;> rfl
  | check =>
    dsimp only [check]; repeat' split
    all_goals (first | rfl | exact cfg_pulse _ _)
  | take => dsimp only [take]; repeat' split
            all_goals rfl
  | read => dsimp only [readMsg]; repeat' split
            all_goals rfl
  | request => dsimp only [request]; split <;> rfl

theorem cfg_run (s : State) (ops : List Op) : (run s ops).cfg = s.cfg := by
  induction ops generalizing s with
  | nil => rfl
  | cons o ops ih => exact (ih (step s o)).trans (cfg_step s o)

/-! ### Requests and replies -/

theorem replies_append (a b : List Item) : replies (a ++ b) = replies a + replies b := by
  simp [replies, msgs_append, List.countP_append]

theorem notes_append (a b : List Item) : notes (a ++ b) = notes a + notes b := by
  simp [notes, msgs_append, List.countP_append]

/-- With a server that replies to requests only. -/
structure Fair (s : State) : Prop where
  ok : s.corrupt = false
  go : s.stopped = false
  some : s.waiting = true → s.asked = replies s.got + 1
  none : s.waiting = false → s.asked = replies s.got
  few : replies s.sent ≤ s.asked

theorem sent_eq {s : State} (h : Inv s) (f : Fair s) :
    replies s.sent = replies s.got + s.queue.countP (·.reply) := by
  unfold replies
  rw [h.order f.go, List.countP_append]

theorem fair_step {s : State} (h : Inv s) (f : Fair s) (o : Op)
    (ho : ∀ b, o = .reply b → replies s.sent < s.asked) : Fair (step s o) := by
  have hse := sent_eq h f
  unfold step
  rw [if_neg (by simp [f.ok])]
  cases o with
  | reply b =>
    have hlt := ho b rfl
    have hask : s.asked ≤ replies s.got + 1 := by
      cases hw : s.waiting
      · have := f.none hw; omega
      · have := f.some hw; omega
    have hz : s.queue.countP (·.reply) = 0 := by omega
    dsimp only [reply]
    split
    · exact f
    split
    · rename_i hany
      obtain ⟨m, hm, hr⟩ := List.any_eq_true.1 hany
      exact absurd hr (List.countP_eq_zero.1 hz m hm)
    · have e : replies [Item.msg ⟨true, b⟩] = 1 := rfl
      unfold pulse
      dsimp only
      split
      · exact ⟨f.ok, f.go, f.some, f.none, by simp only [replies_append, e]; omega⟩
      · exact ⟨f.ok, f.go, f.some, f.none, by simp only [replies_append, e]; omega⟩
  | notify b =>
    have few := f.few
    have e1 : replies [Item.ping] = 0 := rfl
    have e2 : replies [Item.msg ⟨false, b⟩] = 0 := rfl
    dsimp only [notify]
    split
    · exact f
    split
    · unfold pulse; dsimp only
      split <;> exact ⟨f.ok, f.go, f.some, f.none, by simp only [replies_append, e1]; omega⟩
    split
    · exact f
    · unfold pulse; dsimp only
      split <;> exact ⟨f.ok, f.go, f.some, f.none, by simp only [replies_append, e2]; omega⟩
  | select =>
    dsimp only [select]
    split
    · exact f
    · exact ⟨f.ok, f.go, f.some, f.none, f.few⟩
  | check =>
    dsimp only [check, pulse]
    repeat' split
    all_goals (first | exact f | exact ⟨f.ok, f.go, f.some, f.none, f.few⟩)
  | take =>
    dsimp only [take]
    have e1 : replies [Item.ping] = 0 := rfl
    repeat' split
    · exact f
    · exact f
    · exact ⟨f.ok, f.go, fun hw => by simpa only [replies_append, e1] using f.some hw,
        fun hw => by simpa only [replies_append, e1, Nat.add_zero] using f.none hw, f.few⟩
    · exact ⟨f.ok, f.go, f.some, f.none, f.few⟩
  | read =>
    dsimp only [readMsg]
    split
    · exact f
    split
    · exact ⟨f.ok, f.go, f.some, f.none, f.few⟩
    rename_i m q hq
    cases hm : m.reply
    · have e : replies [Item.msg m] = 0 := by simp [replies, hm]
      simp only [Bool.false_eq_true, if_false]
      exact ⟨f.ok, f.go, fun hw => by simpa only [replies_append, e] using f.some hw,
        fun hw => by simpa only [replies_append, e, Nat.add_zero] using f.none hw, f.few⟩
    · have e : replies [Item.msg m] = 1 := by simp [replies, hm]
      have few := f.few
      simp [hq, hm] at hse
      simp only [if_true]
      split
      · rename_i hw
        refine ⟨f.ok, f.go, fun hw' => by simp at hw', fun _ => ?_, f.few⟩
        simp only [replies_append, e]; exact f.some hw
      · rename_i hw
        have := f.none (by simpa using hw)
        omega
  | request =>
    dsimp only [request]
    split
    · exact f
    · rename_i hw
      have hw' : s.waiting = false := by cases h1 : s.waiting <;> simp [h1] at hw ⊢
      have := f.none hw'
      have few := f.few
      exact ⟨f.ok, f.go, fun _ => by simp [this], fun hc => by simp at hc, by simp; omega⟩

theorem answers_prefix {c : Cfg} {a b : List Op} (h : Answers c (a ++ b)) : Answers c a :=
  fun x y body e => h x (y ++ b) body (by rw [e]; simp)

theorem fair_run (c : Cfg) {ops : List Op} (h : Answers c ops) : Fair (run (start c) ops) := by
  have key : ∀ n : Nat, n ≤ ops.length → Fair (run (start c) (ops.take n)) := by
    intro n
    induction n with
    | zero => intro _; exact ⟨rfl, rfl, fun hc => by simp [run, start] at hc, fun _ => rfl, Nat.le_refl _⟩
    | succ n ih =>
      intro hn
      have ht : ops.take (n+1) = ops.take n ++ [ops[n]] := by simp
      rw [ht, run_snoc]
      refine fair_step (inv_all c _) (ih (by omega)) _ fun b e => ?_
      refine h (ops.take n) (ops.drop (n+1)) b ?_
      rw [← e]
      simp
  have := key ops.length (Nat.le_refl _)
  rwa [List.take_length] at this

/-! ### How far the client is behind -/

/-- What is under way to make the client read. -/
def pend (s : State) : Nat := sel s.pulses + s.reading.toNat

/-- `k` messages were queued when the client announced its pulses. -/
structure Lag (k : Nat) (s : State) : Prop where
  on : s.selected = true
  early : s.checked = false → s.queue.length = k + pend s
  some : s.checked = true → 1 ≤ k → s.queue.length + 1 = k + pend s
  none : s.checked = true → k = 0 → s.queue.length = pend s ∨ s.queue.length + 1 = pend s

theorem sel_snoc_select (l : List Pulse) : sel (l ++ [.select]) = sel l + 1 := by
  simp [sel, List.countP_append]
theorem sel_snoc_ping (l : List Pulse) : sel (l ++ [.ping]) = sel l := by
  simp [sel, List.countP_append]

theorem lag_push {k : Nat} {s s' : State} (h : Lag k s) (hs : s'.selected = s.selected)
    (hc : s'.checked = s.checked) (hq : s'.queue.length = s.queue.length + 1)
    (hp : pend s' = pend s + 1) : Lag k s' :=
  ⟨hs.trans h.on, fun e => by have := h.early (hc ▸ e); omega,
   fun e hk => by have := h.some (hc ▸ e) hk; omega,
   fun e hk => by have := h.none (hc ▸ e) hk; omega⟩

theorem lag_same {k : Nat} {s s' : State} (h : Lag k s) (hs : s'.selected = s.selected)
    (hc : s'.checked = s.checked) (hq : s'.queue.length = s.queue.length)
    (hp : pend s' = pend s) : Lag k s' :=
  ⟨hs.trans h.on, fun e => by have := h.early (hc ▸ e); omega,
   fun e hk => by have := h.some (hc ▸ e) hk; omega,
   fun e hk => by have := h.none (hc ▸ e) hk; omega⟩

theorem lag_pop {k : Nat} {s s' : State} (h : Lag k s) (hs : s'.selected = s.selected)
    (hc : s'.checked = s.checked) (hq : s'.queue.length + 1 = s.queue.length)
    (hp : pend s' + 1 = pend s) : Lag k s' :=
  ⟨hs.trans h.on, fun e => by have := h.early (hc ▸ e); omega,
   fun e hk => by have := h.some (hc ▸ e) hk; omega,
   fun e hk => by have := h.none (hc ▸ e) hk; omega⟩

theorem lag_step {k : Nat} {s : State} (h : Lag k s) (o : Op) : Lag k (step s o) := by
  have hon := h.on
  unfold step
  split
  · exact h
  cases o with
  | reply b =>
    dsimp only [reply]
    split
    · exact h
    split
    · exact lag_same h rfl rfl rfl rfl
    · dsimp only [pulse]
      rw [if_pos hon]
      exact lag_push h rfl rfl (by simp) (by simp [pend, sel_snoc_select]; omega)
  | notify b =>
    dsimp only [notify]
    split
    · exact h
    split
    · dsimp only [pulse]
      rw [if_pos hon]
      exact lag_same h rfl rfl rfl (by simp [pend, sel_snoc_ping])
    split
    · exact h
    · dsimp only [pulse]
      rw [if_pos hon]
      exact lag_push h rfl rfl (by simp) (by simp [pend, sel_snoc_select]; omega)
  | select => dsimp only [select]; rw [if_pos hon]; exact h
  | check =>
    dsimp only [check]
    split
    · rename_i hc
      have hcf : s.checked = false := by simpa using hc.2
      have he := h.early hcf
      split
      · rename_i hq
        have hl : s.queue.length = 0 := by simpa using hq
        exact ⟨hon, fun e => by simp at e, fun _ hk => by omega, fun _ hk => .inl (by
          have : pend s = 0 := by omega
          simpa [hl, pend] using this.symm)⟩
      · rename_i hq
        have hl : s.queue.length ≠ 0 := by simpa using hq
        dsimp only [pulse]
        rw [if_pos hon]
        refine ⟨hon, fun e => by simp at e, fun _ hk => ?_, fun _ hk => .inr ?_⟩
        · simp only [pend, sel_snoc_select] at he ⊢; omega
        · simp only [pend, sel_snoc_select] at he ⊢; omega
    · exact h
  | take =>
    dsimp only [take]
    split
    · exact h
    rename_i hr
    have hr' : s.reading = false := by cases h1 : s.reading <;> simp [h1] at hr ⊢
    split
    · exact h
    · rename_i ps hps
      exact lag_same h rfl rfl rfl (by simp [pend, hps, sel])
    · rename_i ps hps
      exact lag_same h rfl rfl rfl (by simp [pend, hps, sel, hr'])
  | read =>
    dsimp only [readMsg]
    split
    · exact h
    rename_i hr
    have hr' : s.reading = true := by simpa using hr
    split
    · rename_i hq
      have hl : s.queue.length = 0 := by simp [hq]
      have hp : pend s = sel s.pulses + 1 := by simp [pend, hr']
      refine ⟨hon, fun e => ?_, fun e hk => ?_, fun e hk => .inl ?_⟩
      · have := h.early e; omega
      · have := h.some e hk; omega
      · have := h.none e hk
        simp only [pend, hl, Bool.toNat_false]; omega
    · rename_i m q hq
      have hl : q.length + 1 = s.queue.length := by simp [hq]
      have hp : sel s.pulses + 1 = pend s := by simp [pend, hr']
      cases hm : m.reply
      · simp only [Bool.false_eq_true, if_false]
        exact lag_pop h rfl rfl hl (by simpa [pend] using hp)
      · simp only [if_true]
        split
        · exact lag_pop h rfl rfl hl (by simpa [pend] using hp)
        · exact lag_pop h rfl rfl hl (by simpa [pend] using hp)
  | request =>
    dsimp only [request]
    split
    · exact h
    · exact lag_same h rfl rfl rfl rfl

theorem lag_run {k : Nat} {s : State} (h : Lag k s) (ops : List Op) : Lag k (run s ops) := by
  induction ops generalizing s with
  | nil => exact h
  | cons o ops ih => exact ih (lag_step h o)

theorem lag_select (c : Cfg) (a : List Op) (hn : (run (start c) a).selected = false)
    (hc : (run (start c) a).corrupt = false) :
    Lag (run (start c) a).queue.length (step (run (start c) a) .select) := by
  obtain ⟨h1, h2, h3⟩ := (inv_all c a).off hn
  dsimp only [step, select]
  rw [if_neg (by simp [hc]), if_neg (by simp [hn])]
  exact ⟨rfl, fun _ => by simp [pend, h1, h2, sel], fun e => by simp [h3] at e, fun e => by simp [h3] at e⟩

/-! ### The order of messages and pings -/

/-- What the client gets when it handles the pulses. -/
def weave : List Pulse → List Msg → List Item
  | [], _ => []
  | .ping :: ps, q => .ping :: weave ps q
  | .select :: ps, [] => weave ps []
  | .select :: ps, m :: q => .msg m :: weave ps q

theorem weave_ping {ps : List Pulse} {q : List Msg} : weave (ps ++ [.ping]) q = weave ps q ++ [.ping] := by
  induction ps generalizing q with
  | nil => rfl
  | cons p ps ih =>
    cases p with
    | ping => simp [weave, ih]
    | select => cases q <;> simp [weave, ih]

theorem weave_select {ps : List Pulse} {q : List Msg} (m : Msg) (h : q.length = sel ps) :
    weave (ps ++ [.select]) (q ++ [m]) = weave ps q ++ [.msg m] := by
  induction ps generalizing q with
  | nil =>
    have : q = [] := by simpa [sel] using h
    subst this; rfl
  | cons p ps ih =>
    cases p with
    | ping =>
      have := ih (q := q) (by simpa [sel] using h)
      simp [weave, this]
    | select =>
      cases q with
      | nil => simp [sel] at h
      | cons a q =>
        have := ih (q := q) (by simpa [sel] using h)
        simp [weave, this]

/-- The pulses with the one the client is handling. -/
def due (s : State) : List Pulse := if s.reading then .select :: s.pulses else s.pulses

structure Ord (s : State) : Prop where
  on : s.selected = true
  done : s.checked = true
  eq : s.queue.length = sel (due s)
  seq : s.sent = s.got ++ weave (due s) s.queue

theorem due_snoc (s : State) (p : Pulse) :
    due { s with pulses := s.pulses ++ [p] } = due s ++ [p] := by
  unfold due; dsimp only; split <;> simp

theorem ord_step {s : State} (f : Fair s) (f' : Fair (step s o)) (h : Ord s) : Ord (step s o) := by
  have hon := h.on
  have hseq := h.seq
  have heq := h.eq
  revert f'
  unfold step
  rw [if_neg (by simp [f.ok])]
  cases o with
  | reply b =>
    intro f'
    dsimp only [reply] at f' ⊢
    split
    · exact h
    split
    · exact ⟨h.on, h.done, h.eq, h.seq⟩
    · dsimp only [pulse]
      rw [if_pos hon]
      have hd := due_snoc { s with queue := s.queue ++ [⟨true, b⟩], sent := s.sent ++ [.msg ⟨true, b⟩] } .select
      refine ⟨h.on, h.done, ?_, ?_⟩
      · rw [hd, sel_snoc_select]; simpa [due] using heq
      · rw [hd]
        have := weave_select (ps := due s) (q := s.queue) ⟨true, b⟩ heq
        simp only [due] at this hseq ⊢
        rw [this, hseq]; simp
  | notify b =>
    intro f'
    dsimp only [notify] at f' ⊢
    split
    · exact h
    split
    · dsimp only [pulse]
      rw [if_pos hon]
      have hd := due_snoc { s with sent := s.sent ++ [.ping] } .ping
      refine ⟨h.on, h.done, ?_, ?_⟩
      · rw [hd, sel_snoc_ping]; exact heq
      · rw [hd, weave_ping]
        simp only [due] at hseq ⊢
        rw [hseq]; simp
    split
    · exact h
    · dsimp only [pulse]
      rw [if_pos hon]
      have hd := due_snoc { s with pool := s.pool - 1, queue := s.queue ++ [⟨false, b⟩], sent := s.sent ++ [.msg ⟨false, b⟩] } .select
      refine ⟨h.on, h.done, ?_, ?_⟩
      · rw [hd, sel_snoc_select]; simpa [due] using heq
      · rw [hd]
        have := weave_select (ps := due s) (q := s.queue) ⟨false, b⟩ heq
        simp only [due] at this hseq ⊢
        rw [this, hseq]; simp
  | select => intro _; dsimp only [select]; rw [if_pos hon]; exact h
  | check =>
    intro _
    dsimp only [check]
    rw [if_neg (by simp [h.done])]; exact h
  | take =>
    intro _
    dsimp only [take]
    split
    · exact h
    rename_i hr
    have hr' : s.reading = false := by cases h1 : s.reading <;> simp [h1] at hr ⊢
    split
    · exact h
    · rename_i ps hps
      simp [due, hr', hps, weave, sel] at hseq heq
      exact ⟨h.on, h.done, by simp [due, hr', sel, heq], by simp [due, hr', hseq]⟩
    · rename_i ps hps
      simp only [due, hr', hps, Bool.false_eq_true, if_false] at hseq heq
      exact ⟨h.on, h.done, by simpa [due] using heq, by simpa [due] using hseq⟩
  | read =>
    dsimp only [readMsg]
    intro f'
    split at f'
    · rename_i hr; rw [if_pos hr]; exact h
    rename_i hr
    rw [if_neg hr]
    have hr' : s.reading = true := by simpa using hr
    cases hq : s.queue with
    | nil => simp [due, hr', hq, sel] at heq
    | cons m q =>
      simp [due, hr', hq, weave, sel] at hseq heq
      have hx : q.length = sel (due { s with reading := false }) := by simp [due, sel, heq]
      simp only [hq] at f'
      cases hm : m.reply
      · simp only [hm, Bool.false_eq_true, if_false]
        exact ⟨h.on, h.done, by simpa [due] using hx, by simp [due, hseq]⟩
      · simp only [hm, if_true] at f' ⊢
        split at f'
        · rename_i hw
          rw [if_pos hw]
          exact ⟨h.on, h.done, by simpa [due] using hx, by simp [due, hseq]⟩
        · exact absurd f'.go (by simp)
  | request =>
    intro _
    dsimp only [request]
    split
    · exact h
    · exact ⟨h.on, h.done, h.eq, h.seq⟩

/-- Before the client has announced its pulses it gets nothing. -/
theorem before_step {s : State} (i : Inv s) (h : s.selected = false → s.got = [] ∧ s.sent = s.queue.map .msg) (o : Op)
    (hn : (step s o).selected = false) :
    (step s o).got = [] ∧ (step s o).sent = (step s o).queue.map .msg := by
  revert hn
  unfold step
  split
  · exact h
  cases o with
  | reply b =>
    dsimp only [reply]
    split
    · exact h
    split
    · exact h
    · dsimp only [pulse]
      split
      · rename_i hs; intro hn; exact absurd (hn.symm.trans hs) (by simp)
      · intro hn
        obtain ⟨h1, h2⟩ := h hn
        exact ⟨h1, by simp [h2]⟩
  | notify b =>
    dsimp only [notify]
    split
    · exact h
    split
    · rename_i hs
      dsimp only [pulse]
      rw [if_pos hs.2]
      intro hn; exact absurd (hn.symm.trans hs.2) (by simp)
    split
    · exact h
    · dsimp only [pulse]
      split
      · rename_i hs; intro hn; exact absurd (hn.symm.trans hs) (by simp)
      · intro hn
        obtain ⟨h1, h2⟩ := h hn
        exact ⟨h1, by simp [h2]⟩
  | select =>
    dsimp only [select]
    split
    · exact h
    · intro hn; simp at hn
  | check =>
    dsimp only [check]
    split
    · rename_i hs
      dsimp only [pulse]
      split
      · intro hn; exact absurd (hn.symm.trans hs.1) (by simp)
      · rw [if_pos hs.1]; intro hn; exact absurd (hn.symm.trans hs.1) (by simp)
    · exact h
  | take =>
    dsimp only [take]
    split
    · exact h
    split
    · exact h
    · rename_i hp; intro hn; exact absurd (i.off hn).1 (by simp [hp])
    · rename_i hp; intro hn; exact absurd (i.off hn).1 (by simp [hp])
  | read =>
    dsimp only [readMsg]
    split
    · exact h
    rename_i hr
    have hoff : s.selected = false → False := fun hn => absurd (i.off hn).2.1 (by simpa using hr)
    intro hn
    refine (hoff ?_).elim
    revert hn
    repeat' split
    all_goals exact id
  | request =>
    dsimp only [request]
    split
    · exact h
    · exact h

theorem before (c : Cfg) (ops : List Op) : (run (start c) ops).selected = false →
    (run (start c) ops).got = [] ∧ (run (start c) ops).sent = (run (start c) ops).queue.map .msg := by
  have : ∀ (ops : List Op) (s : State), Inv s → (s.selected = false → s.got = [] ∧ s.sent = s.queue.map .msg) →
      ((run s ops).selected = false → (run s ops).got = [] ∧ (run s ops).sent = (run s ops).queue.map .msg) := by
    intro ops
    induction ops with
    | nil => intro s _ h; exact h
    | cons o ops ih => intro s i h; exact ih _ (inv_step i o) (before_step i h o)
  exact this ops (start c) (inv_start c) (fun _ => ⟨rfl, rfl⟩)

theorem ord_start (c : Cfg) (a : List Op) (f : Fair (run (start c) a)) (hn : (run (start c) a).selected = false)
    (hk : (run (start c) a).queue.length ≤ 1) : Ord (run (start c) (a ++ [.select, .check])) := by
  obtain ⟨h1, h2, h3⟩ := (inv_all c a).off hn
  obtain ⟨hg, hs⟩ := before c a hn
  rw [run_append]
  generalize run (start c) a = s at *
  simp only [run, List.foldl_cons, List.foldl_nil, step, select, check, f.ok, hn, h3, pulse]
  cases hq : s.queue with
  | nil => simp [hq, f.ok]; exact ⟨rfl, rfl, by simp [due, h1, h2, sel], by simp [hs, hg, due, h1, h2, weave, hq]⟩
  | cons m q =>
    have : q = [] := by simp [hq] at hk; exact hk
    subst this
    simp [f.ok]
    exact ⟨rfl, rfl, by simp [due, h1, h2, sel], by simp [hs, hg, due, h1, h2, weave, hq]⟩

theorem ord_run (c : Cfg) (a b : List Op) (hans : Answers c (a ++ b)) (h : Ord (run (start c) a)) :
    Ord (run (start c) (a ++ b)) := by
  induction b generalizing a with
  | nil => simpa using h
  | cons o b ih =>
    have e : a ++ o :: b = (a ++ [o]) ++ b := by simp
    rw [e] at hans ⊢
    refine ih _ hans ?_
    have f' := fair_run c (answers_prefix hans)
    rw [run_snoc] at f' ⊢
    have hans2 : Answers c (a ++ ([o] ++ b)) := by simpa using hans
    exact ord_step (fair_run c (answers_prefix hans2)) f' h

/-! ### The client handles its pulses -/

theorem answers_silent {c : Cfg} {ops : List Op} (h : Answers c ops) (more : List Op) (hm : Silent more) :
    Answers c (ops ++ more) := by
  intro a b body e
  rcases List.append_eq_append_iff.1 e with ⟨x, h1, h2⟩ | ⟨x, h1, h2⟩
  · exact absurd rfl (hm (.reply body) (by rw [h2]; simp) body).1
  · cases x with
    | nil =>
      simp at h2
      exact absurd rfl (hm (.reply body) (by rw [← h2]; simp) body).1
    | cons y x =>
      simp at h2
      obtain ⟨h3, h4⟩ := h2
      exact h a x body (by rw [h1, h3])

theorem silent_handle (n : Nat) : Silent (handle n) := by
  intro o ho body
  have : o = .read ∨ o = .take := by
    simp [handle] at ho
    rcases ho with h | h
    · exact .inl h
    · obtain ⟨l, ⟨_, rfl⟩, h⟩ := h
      simp at h
      exact h.symm
  rcases this with h | h <;> subst h <;> simp

/-- What the client does changes nothing at the server but the queue. -/
structure Same (s s' : State) : Prop where
  sent : s'.sent = s.sent
  sel : s'.selected = s.selected
  chk : s'.checked = s.checked

theorem same_read (s : State) : Same s (step s .read) ∧ (step s .read).pulses = s.pulses ∧
    (s.corrupt = false → (step s .read).reading = false) := by
  dsimp only [step, readMsg]
  by_cases hc : s.corrupt = true
  · rw [if_pos hc]; exact ⟨⟨rfl, rfl, rfl⟩, rfl, fun h => by simp [h] at hc⟩
  rw [if_neg hc]
  by_cases hr : s.reading = true
  · rw [if_neg (by simp [hr])]
    cases hq : s.queue with
    | nil => exact ⟨⟨rfl, rfl, rfl⟩, rfl, fun _ => rfl⟩
    | cons m q =>
      dsimp only
      repeat' split
      all_goals exact ⟨⟨rfl, rfl, rfl⟩, rfl, fun _ => rfl⟩
  · rw [if_pos hr]; exact ⟨⟨rfl, rfl, rfl⟩, rfl, fun _ => by simpa using hr⟩

theorem same_take (s : State) : Same s (step s .take) := by
  dsimp only [step, take]
  repeat' split
  all_goals exact ⟨rfl, rfl, rfl⟩

theorem take_len {s : State} (f : Fair s) (hr : s.reading = false) :
    (step s .take).pulses = s.pulses.tail := by
  simp only [step, take, f.ok, hr, f.go]
  cases hp : s.pulses with
  | nil => simp [hp]
  | cons p ps => cases p <;> simp

theorem Same.trans {a b c : State} (h : Same a b) (g : Same b c) : Same a c :=
  ⟨g.sent.trans h.sent, g.sel.trans h.sel, g.chk.trans h.chk⟩

theorem handled (c : Cfg) (ops : List Op) (h : Answers c ops) (n : Nat) :
    Same (run (start c) ops) (run (start c) (ops ++ handle n)) ∧
    (run (start c) (ops ++ handle n)).pulses = (run (start c) ops).pulses.drop n ∧
    (run (start c) (ops ++ handle n)).reading = false := by
  induction n with
  | zero =>
    have e : ops ++ handle 0 = ops ++ [.read] := by simp [handle]
    rw [e, run_snoc]
    obtain ⟨h1, h2, h3⟩ := same_read (run (start c) ops)
    exact ⟨h1, by simpa using h2, h3 (fair_run c h).ok⟩
  | succ n ih =>
    obtain ⟨h1, h2, h3⟩ := ih
    have e : ops ++ handle (n+1) = (ops ++ handle n) ++ [.take, .read] := by
      simp [handle, List.replicate_succ', List.flatten_append]
    have e2 : (ops ++ handle n) ++ [.take, .read] = ((ops ++ handle n) ++ [.take]) ++ [.read] := by simp
    have hans : Answers c (ops ++ handle n) := answers_silent h _ (silent_handle n)
    have hans2 : Answers c ((ops ++ handle n) ++ [.take]) :=
      answers_silent hans _ (fun o ho body => by simp at ho; subst ho; simp)
    rw [e, e2, run_snoc]
    have ht := take_len (fair_run c hans) h3
    have hs := same_take (run (start c) (ops ++ handle n))
    rw [← run_snoc] at ht hs
    obtain ⟨g1, g2, g3⟩ := same_read (run (start c) ((ops ++ handle n) ++ [.take]))
    refine ⟨(h1.trans hs).trans g1, ?_, g3 (fair_run c hans2).ok⟩
    rw [g2, ht, h2, List.tail_drop]

end Verif.QnxConnProofs
