import Verif.Proofs.QnxServerRun

namespace Verif.Demo.C113
open Verif.QnxServer Verif.QnxServerSpec

def ann : Client := ⟨100, 1, 1⟩
def bob : Client := ⟨200, 2, 2⟩

/-- Two clients: the first one gets a handler of its own. -/
def two : List Op := [.startListening true, .opens 0 ann true true (some (.handler 7)) true, .opens 0 bob true true (some .other) true]

/-- The first one writes both kinds of messages, the second one is refused once, and the first one closes. -/
def day : List Op := two ++ [.writes 0 (proper 0 [1, 2]) true, .opens 0 bob true true none true, .writes 1 (proper 1 [3]) true,
  .reply 1, .writes 0 (proper 1 []) true, .closes 0]

/-- `Once`, step by step. -/
def onceB : St → List Op → Bool
  | _, [] => true
  | s, o :: ops => (match o with | .startListening _ => s.mgr.isNone | _ => true) && onceB (step s o) ops

theorem once_of {s : St} {ops : List Op} (h : onceB s ops = true) : Once s ops := by
  induction ops generalizing s with
  | nil => intro pre ok post e; cases pre <;> cases e
  | cons o ops ih =>
    unfold onceB at h
    rw [Bool.and_eq_true] at h
    intro pre ok post e
    cases pre with
    | nil => cases e; show s.mgr = none; simpa using h.1
    | cons x pre => cases e; exact ih h.2 pre ok post rfl

end Verif.Demo.C113

namespace Verif.Props.C113
open Verif.QnxServer Verif.QnxServerSpec Verif.Demo.C113

/-- **C113.** Whatever happens, the callbacks of every session come in order: the connect callback; if it accepts,
messages, and at the end at most one disconnect callback.  They go to the handler that the connect callback gave,
or to the callbacks of the server. -/
theorem orderly (cap : Nat) (ops : List Op) (id : Nat) : Orderly id (seen (run (start cap) ops).log id) :=
  (inv_run (inv_start cap) ops).ord id

example : seen (run (start 8) day).log 0 =
    [.connect 0 ann 1 (some (.handler 7)), .sent 0 (.handler 7) [1, 2], .request 0 (.handler 7) [], .disconnect 0 (.handler 7)] ∧
    seen (run (start 8) day).log 1 = [.connect 1 bob 1 (some .other), .request 1 (.server 1) [3], .reply 1] ∧
    seen (run (start 8) day).log 2 = [.connect 2 bob 1 none] := by decide +kernel

/-- **C113.** A client that opens the path of a server is offered to the connect callback with the identity that the
operating system gives.  The client gets the connection exactly if the callback accepts and the operating system
attaches the session; if the callback refuses, the client is told so. -/
theorem offered (cap : Nat) (ops : List Op) (a : Nat) (ha : a ∈ (run (start cap) ops).atts)
    (hal : (run (start cap) ops).alive = true) (c : Client) (answer : Option User) (attach : Bool) :
    ∃ id, ¬ Open (run (start cap) ops) id ∧ seen (run (start cap) ops).log id = [] ∧
      (run (start cap) (ops ++ [.opens a c true true answer attach])).log =
        (run (start cap) ops).log ++ [.connect id c (run (start cap) ops).gen answer] ∧
      (Open (run (start cap) (ops ++ [.opens a c true true answer attach])) id ↔ answer.isSome = true ∧ attach = true) ∧
      ((ioOpen (run (start cap) ops) a c true true answer attach).2 = .ok ↔ answer.isSome = true ∧ attach = true) ∧
      ((ioOpen (run (start cap) ops) a c true true answer attach).2 = .eacces ↔ answer = none) := by
  have hi := inv_run (inv_start cap) ops
  rw [run_append]
  generalize run (start cap) ops = s at *
  have hno : ¬ Open s s.nextId := by
    rintro ⟨d, hd, e⟩
    have := (hi.bnd d hd).1
    omega
  have e : run s [.opens a c true true answer attach] = (ioOpen s a c true true answer attach).1 := by
    show step s (.opens a c true true answer attach) = _
    unfold step; dsimp only; rw [if_pos ha]
  refine ⟨s.nextId, hno, seen_none (fun e he => Nat.ne_of_lt (hi.fresh e he)), ?_⟩
  rw [e]
  unfold ioOpen
  rw [if_neg (by rw [hal]; intro e; cases e), if_neg (by simp), if_neg (by simp)]
  dsimp only
  cases answer with
  | none =>
    refine ⟨rfl, ?_, by simp, by simp⟩
    simp only [Option.isSome_none, Bool.false_eq_true, false_and, iff_false]
    exact hno
  | some u =>
    cases attach with
    | false =>
      refine ⟨rfl, ?_, by simp, by simp⟩
      simp only [Bool.false_eq_true, and_false, iff_false]
      exact hno
    | true =>
      refine ⟨rfl, ?_, by simp, by simp⟩
      simp only [Option.isSome_some, and_self, iff_true]
      exact ⟨⟨s.nextId, a, u⟩, List.mem_append_right _ (by simp), rfl⟩

example : 0 ∈ (run (start 8) two).atts ∧ (run (start 8) two).alive = true ∧ (run (start 8) two).gen = 1 := by decide +kernel

/-- **C113.** A message that fits into the message buffer is given exactly once and unaltered to the callback for its
kind, and the client is told that it was sent.  Other sessions stay as they are.  _partial: longer messages are lost
(`long_message_fails`). -/
theorem delivered_partial (cap : Nat) (hcap : cap < 2 ^ 64) (ops : List Op) (id : Nat) (hid : Open (run (start cap) ops) id)
    (hal : (run (start cap) ops).alive = true) (m : List UInt8) (hm : m.length < cap) (reply : Bool) :
    ∃ c ∈ (run (start cap) ops).conns, c.id = id ∧
      (ioWrite (run (start cap) ops) c (proper (if reply then 1 else 0) m) true).2 = .ok ∧
      (∃ t, (run (start cap) (ops ++ [.writes id (proper (if reply then 1 else 0) m) true])).log =
        (run (start cap) ops).log ++ [if reply then .request id t m else .sent id t m]) ∧
      (run (start cap) (ops ++ [.writes id (proper (if reply then 1 else 0) m) true])).conns = (run (start cap) ops).conns := by
  have hb : (run (start cap) ops).buf.length = cap := by rw [buf_run]; simp [start]
  rw [run_append]
  generalize run (start cap) ops = s at *
  have hf : ∃ c, s.conns.find? (·.id == id) = some c := by
    obtain ⟨d, hd, e⟩ := hid
    cases hc : s.conns.find? (·.id == id) with
    | some c => exact ⟨c, rfl⟩
    | none => exact absurd (by simpa using e) (List.find?_eq_none.1 hc d hd)
  obtain ⟨c, hf⟩ := hf
  obtain ⟨hc, e⟩ := find_mem hf
  have hw := proper_write (s := s) (c := c) (code := if reply then 1 else 0) (m := m) hal (by omega) (by omega)
  have hr : run s [.writes id (proper (if reply then 1 else 0) m) true] =
      processInput (filled s (proper (if reply then 1 else 0) m)) c (if reply then 1 else 0) m := by
    show step s (.writes id (proper (if reply then 1 else 0) m) true) = _
    unfold step; dsimp only; rw [hf]; dsimp only; rw [hw]
  refine ⟨c, hc, e, by rw [hw], ⟨whom s c.user, ?_⟩, ?_⟩
  · rw [hr, input_log]
    show s.log ++ _ = _
    cases reply
    · simp [e]; rfl
    · simp [e]; rfl
  · rw [hr, input_rest]; rfl

example : Open (run (start 2072) two) 1 ∧ (run (start 2072) two).alive = true :=
  ⟨⟨⟨1, 0, .other⟩, by decide +kernel, rfl⟩, by decide +kernel⟩

/-- **C113.** What is given to message callbacks was written by the client of that session: of a write with a complete
header, at most one callback, with as many bytes as announced behind the code.  _partial: of a write whose header is
cut off, other bytes are given to the callback (`stale_bytes_fails`). -/
theorem only_what_was_written_partial (cap : Nat) (ops : List Op) (o : Op) (hal : (run (start cap) ops).alive = true)
    (ho : Complete o) (e : Event) (he : e ∈ (run (start cap) (ops ++ [o])).log.drop (run (start cap) ops).log.length)
    (hm : (∃ id t b, e = .sent id t b) ∨ ∃ id t b, e = .request id t b) :
    ∃ id r t code body, o = .writes id r true ∧ r.plain = true ∧ code :: body = r.body.take r.nbytes ∧ body.length + 1 = r.nbytes ∧
      (run (start cap) (ops ++ [o])).log = (run (start cap) ops).log ++ [e] ∧
      ((code = 0 ∧ e = .sent id t body) ∨ (code = 1 ∧ e = .request id t body)) := by
  rw [run_append] at he ⊢
  generalize run (start cap) ops = s at *
  change e ∈ (step s o).log.drop s.log.length at he
  show ∃ id r t code body, _ ∧ _ ∧ _ ∧ _ ∧ (step s o).log = s.log ++ [e] ∧ _
  have hmsg : isMsg e = true := by
    rcases hm with ⟨_, _, _, rfl⟩ | ⟨_, _, _, rfl⟩ <;> rfl
  obtain ⟨l, h1, h2, h3⟩ := step_log s o
  rw [h1, List.drop_left] at he
  cases o with
  | writes id r v =>
    have hstep : (step s (.writes id r v)) = match s.conns.find? (·.id == id) with | some c => (ioWrite s c r v).1 | none => s := rfl
    rw [hstep] at h1 ⊢
    cases hf : s.conns.find? (·.id == id) with
    | none =>
      rw [hf] at h1
      have : l = [] := by simpa using h1
      rw [this] at he; cases he
    | some c =>
      rw [hf] at h1
      dsimp only at h1 ⊢
      rcases write_complete (c := c) (v := v) hal ho.1 ho.2 with ⟨hw, _⟩ | ⟨code, body, rfl, hp, hc, hb, _, hw⟩
      · rw [hw] at h1
        have : l = [] := by
          have : s.log = s.log ++ l := h1
          simpa using this
        rw [this] at he; cases he
      · rw [hw] at h1 ⊢
        dsimp only at h1 ⊢
        rw [input_log] at h1 ⊢
        have hl : s.log ++ _ = s.log ++ l := h1
        rw [List.append_cancel_left_eq] at hl
        have hid := (find_mem hf).2
        refine ⟨id, r, whom (filled s r) c.user, code, body, rfl, hp, hc, hb, ?_⟩
        rw [hid] at hl ⊢
        show s.log ++ _ = _ ∧ _
        by_cases c1 : code = 1
        · rw [if_pos c1] at hl ⊢
          rw [← hl, List.mem_singleton] at he
          exact ⟨by rw [he], Or.inr ⟨c1, he⟩⟩
        · rw [if_neg c1] at hl ⊢
          by_cases c0 : code = 0
          · rw [if_pos c0] at hl ⊢
            rw [← hl, List.mem_singleton] at he
            exact ⟨by rw [he], Or.inl ⟨c0, he⟩⟩
          · rw [if_neg c0] at hl
            rw [← hl] at he; cases he
  | startListening ok => rw [h2 (by intro _ _ _ e; cases e) e he] at hmsg; cases hmsg
  | stopListening => rw [h2 (by intro _ _ _ e; cases e) e he] at hmsg; cases hmsg
  | destroy => rw [h2 (by intro _ _ _ e; cases e) e he] at hmsg; cases hmsg
  | opens a c o i an at' => rw [h2 (by intro _ _ _ e; cases e) e he] at hmsg; cases hmsg
  | closes id => rw [h2 (by intro _ _ _ e; cases e) e he] at hmsg; cases hmsg
  | reply id => rw [h2 (by intro _ _ _ e; cases e) e he] at hmsg; cases hmsg

/-- A client announces less than it writes, and uses a code that does not exist. -/
example : Complete (.writes 1 ⟨16, 2, true, [0, 5, 6]⟩ true) ∧
    (run (start 8) (two ++ [.writes 1 ⟨16, 2, true, [0, 5, 6]⟩ true])).log.drop (run (start 8) two).log.length = [.sent 1 (.server 1) [5]] ∧
    (run (start 8) (two ++ [.writes 1 ⟨16, 2, true, [9, 5, 6]⟩ true])).log.drop (run (start 8) two).log.length = [] :=
  ⟨⟨rfl, by simp⟩, by decide +kernel, by decide +kernel⟩

/-- **C113.** A session ends only when the client closes it, or in `StopListening` or the destructor; and when it has
ended, the user has been told. -/
theorem ends_for_a_reason (cap : Nat) (a b : List Op) (id : Nat) (h : Open (run (start cap) a) id)
    (hn : ¬ Open (run (start cap) (a ++ b)) id) :
    Told (run (start cap) (a ++ b)) id ∧ ∃ o ∈ b, o = .closes id ∨ o = .stopListening ∨ o = .destroy := by
  rw [run_append] at hn ⊢
  generalize run (start cap) a = s at *
  refine ⟨(open_run h b).resolve_left hn, ?_⟩
  induction b generalizing s with
  | nil => exact absurd h hn
  | cons o b ih =>
    rcases open_step h o with h | ⟨_, he⟩
    · obtain ⟨x, hx, h'⟩ := ih _ h hn
      exact ⟨x, List.mem_cons_of_mem _ hx, h'⟩
    · exact ⟨o, List.mem_cons_self, he⟩

example : Open (run (start 8) two) 0 ∧ ¬ Open (run (start 8) day) 0 ∧ Open (run (start 8) day) 1 :=
  ⟨⟨⟨0, 0, .handler 7⟩, by decide +kernel, rfl⟩, (by
    rintro ⟨c, hc, e⟩
    have : c = ⟨1, 0, .other⟩ := by
      have h : (run (start 8) day).conns = [⟨1, 0, .other⟩] := by decide +kernel
      rw [h, List.mem_singleton] at hc; exact hc
    rw [this] at e; cases e), ⟨⟨1, 0, .other⟩, by decide +kernel, rfl⟩⟩

/-- **C113.** A client that closes ends its session, and no other. -/
theorem close_ends (cap : Nat) (ops : List Op) (id : Nat) (h : Open (run (start cap) ops) id)
    (hal : (run (start cap) ops).alive = true) :
    Told (run (start cap) (ops ++ [.closes id])) id ∧
      ∀ id', Open (run (start cap) (ops ++ [.closes id])) id' ↔ Open (run (start cap) ops) id' ∧ id' ≠ id := by
  rw [run_append]
  generalize run (start cap) ops = s at *
  show Told (step s (.closes id)) id ∧ ∀ id', Open (step s (.closes id)) id' ↔ _
  have hf : ∃ c, s.conns.find? (·.id == id) = some c := by
    obtain ⟨d, hd, e⟩ := h
    cases hc : s.conns.find? (·.id == id) with
    | some c => exact ⟨c, rfl⟩
    | none => exact absurd (by simpa using e) (List.find?_eq_none.1 hc d hd)
  obtain ⟨c, hf⟩ := hf
  obtain ⟨hc, e⟩ := find_mem hf
  have hs : step s (.closes id) = { s with conns := s.conns.filter (·.id != c.id), log := s.log ++ [.disconnect c.id (whom s c.user)] } := by
    unfold step; dsimp only; rw [hf]; dsimp only; unfold ioClose; rw [if_neg (by rw [hal]; intro e; cases e)]
  rw [hs]
  refine ⟨⟨whom s c.user, List.mem_append_right _ (by rw [e]; simp)⟩, fun id' => ?_⟩
  constructor
  · rintro ⟨d, hd, rfl⟩
    obtain ⟨h1, h2⟩ := List.mem_filter.1 hd
    exact ⟨⟨d, h1, rfl⟩, by rw [e] at h2; simpa using h2⟩
  · rintro ⟨⟨d, hd, rfl⟩, hne⟩
    exact ⟨d, List.mem_filter.2 ⟨hd, by rw [e]; simpa using hne⟩, rfl⟩

example : Open (run (start 8) two) 0 ∧ (run (start 8) two).alive = true := ⟨⟨⟨0, 0, .handler 7⟩, by decide +kernel, rfl⟩, by decide +kernel⟩

/-- **C113.** When `StopListening` or the destructor has returned, every session has ended, its user has been told, and
nothing is called any more until the server is started again.  _partial: `StartListening` must not be called while the
server listens (`second_start_fails`). -/
theorem stop_ends_all_partial (cap : Nat) (a b : List Op) (o : Op) (ho : o = .stopListening ∨ o = .destroy)
    (h : Once (start cap) a) (hal : (run (start cap) a).alive = true) (hb : ∀ ok, Op.startListening ok ∉ b) :
    (∀ id, ¬ Open (run (start cap) (a ++ [o])) id) ∧
    (∀ id, Open (run (start cap) a) id → Told (run (start cap) (a ++ [o])) id) ∧
    (run (start cap) (a ++ o :: b)).log = (run (start cap) (a ++ [o])).log := by
  have hi := inv_run (inv_start cap) a
  have hs := single_run (single_start cap) a h
  rw [show a ++ o :: b = (a ++ [o]) ++ b by simp, run_append _ (a ++ [o]), run_append]
  generalize run (start cap) a = s at *
  show (∀ id, ¬ Open (step s o) id) ∧ (∀ id, Open s id → Told (step s o) id) ∧ (run (step s o) b).log = (step s o).log
  have hi' := inv_step hi o
  have hq : (step s o).mgr = none ∧ (step s o).atts = [] := by
    have := single_stop hs
    rcases ho with rfl | rfl
    · unfold step; dsimp only; rw [if_pos hal]; exact this
    · unfold step; dsimp only; rw [if_pos hal]; exact this
  have hc := conns_nil hi' hq.2
  have hno : ∀ id, ¬ Open (step s o) id := by
    rintro id ⟨c, hm, _⟩
    rw [hc] at hm; cases hm
  refine ⟨hno, fun id hid => ?_, silent_run hq.2 hc hq.1 b hb⟩
  rcases open_step hid o with h | ⟨h, _⟩
  · exact absurd h (hno id)
  · exact h

example : Once (start 8) day ∧ (run (start 8) (day ++ [.stopListening])).log.getLast? = some (.disconnect 1 (.server 1)) ∧
    (run (start 8) (day ++ [.stopListening, .startListening true, .opens 1 ann true true none true])).log.getLast? =
      some (.connect 3 ann 2 none) := ⟨once_of (by decide +kernel), by decide +kernel, by decide +kernel⟩

/-- **C113.** A server that listens can be opened by clients. -/
theorem listening (cap : Nat) (ops : List Op) (hal : (run (start cap) ops).alive = true) :
    ∃ a, (run (start cap) (ops ++ [.startListening true])).atts = a :: (run (start cap) ops).atts ∧
      (run (start cap) (ops ++ [.startListening true])).alive = true ∧
      (startListening (run (start cap) ops) true).2 = true ∧ (startListening (run (start cap) ops) false).2 = false := by
  rw [run_append]
  generalize run (start cap) ops = s at *
  refine ⟨s.nextAtt, ?_⟩
  show (step s (.startListening true)).atts = _ ∧ (step s (.startListening true)).alive = true ∧ _
  unfold step; dsimp only; rw [if_pos hal]
  exact ⟨rfl, hal, rfl, rfl⟩

example : (run (start 8) day).alive = true := by decide +kernel

/-- **C113.** Nothing undefined happens.  _partial: the headers of writes must be complete (`out_of_buffer_fails`), and
`StartListening` must not be called while the server listens (`second_start_fails`). -/
theorem defined_partial (cap : Nat) (ops : List Op) (hc : ∀ o ∈ ops, Complete o) (ho : Once (start cap) ops) :
    (run (start cap) ops).ub = false :=
  fine_run (inv_start cap) (single_start cap) rfl ops hc ho

example : (∀ o ∈ day, Complete o) ∧ Once (start 8) day := by
  refine ⟨?_, once_of (by decide +kernel)⟩
  intro o ho
  simp only [day, two, List.cons_append, List.nil_append, List.mem_cons, List.not_mem_nil, or_false] at ho
  rcases ho with rfl | rfl | rfl | rfl | rfl | rfl | rfl | rfl | rfl <;> simp [Complete, proper]

/-- **C113. Violated.** The message buffer has room for 2072 bytes behind the header of a write.  Every message of 2072
bytes or more is refused, at any time and whatever size the server is configured for. -/
theorem long_message_fails (ops : List Op) (hal : (run (start cap) ops).alive = true) (id : Nat) (m : List UInt8)
    (h : 2072 ≤ m.length) (hb : m.length + 1 < 2 ^ 64) :
    (run (start cap) (ops ++ [.writes id (proper 0 m) true])).log = (run (start cap) ops).log ∧
    ∀ c, (ioWrite (run (start cap) ops) c (proper 0 m) true).2 = .emsgsize := by
  have hl : (run (start cap) ops).buf.length = 2072 := by rw [buf_run]; exact List.length_replicate
  rw [run_append]
  generalize run (start cap) ops = s at *
  have hw : ∀ c, _ := fun c => long_write (s := s) (c := c) (code := 0) (m := m) hal (by omega) hb
  refine ⟨?_, fun c => by rw [hw]⟩
  show (step s (.writes id (proper 0 m) true)).log = _
  unfold step; dsimp only
  split
  · rw [hw]; rfl
  · rfl

example : (run (start cap) two).alive = true ∧ Open (run (start cap) two) 1 ∧
    ∃ m : List UInt8, 2072 ≤ m.length ∧ m.length + 1 < 2 ^ 64 := by
  refine ⟨by decide +kernel, ⟨⟨1, 0, .other⟩, by decide +kernel, rfl⟩, List.replicate 2072 0, ?_, ?_⟩ <;>
    rw [List.length_replicate] <;> omega

/-- **C113. Violated.** A client writes only 12 bytes of a header that announces four bytes.  The server gives the
callback bytes that another client had written before. -/
theorem stale_bytes_fails :
    (run (start 8) (two ++ [.writes 0 (proper 0 [11, 22, 33]) true, .writes 1 ⟨12, 4, true, []⟩ true])).log =
      (run (start 8) two).log ++ [.sent 0 (.handler 7) [11, 22, 33], .sent 1 (.server 1) [11, 22, 33]] := by decide +kernel

/-- **C113. Violated.** In the same way a client makes the server read behind its message buffer. -/
theorem out_of_buffer_fails : (run (start cap) (two ++ [.writes 1 ⟨12, 5000, true, []⟩ true])).ub = true := by decide +kernel

/-- **C113. Violated.** `StartListening` succeeds while the server listens.  After `StopListening` clients still open
sessions and get callbacks, and when the server has been destroyed they make it use freed memory. -/
theorem second_start_fails :
    (run (start 8) (two ++ [.startListening true, .stopListening, .opens 0 bob true true (some .other) true,
        .writes 2 (proper 0 [5]) true])).log.drop 2 = [.connect 2 bob 2 (some .other), .sent 2 (.server 2) [5]] ∧
    (run (start 8) (two ++ [.startListening true, .stopListening])).conns.length = 2 ∧
    (run (start 8) (two ++ [.startListening true, .destroy, .opens 0 bob true true none true])).ub = true := by decide +kernel

/-- **C113. Violated.** `StartListening` fails while the server listens, but the callbacks of the sessions are
replaced. -/
theorem failed_start_fails :
    (startListening (run (start 8) two) false).2 = false ∧
    (run (start 8) (two ++ [.startListening false, .writes 1 (proper 0 [5]) true])).log.drop 2 = [.sent 1 (.server 2) [5]] := by
  decide +kernel

/-- **C113. Violated.** The connect callback accepts, but the operating system does not attach the session: the user
is never told that it has ended. -/
theorem accepted_but_gone_fails (ops : List Op) (hs : ∀ o ∈ ops, (∃ r v, o = .writes 0 r v) ∨ o = .closes 0 ∨ o = .stopListening) :
    seen (run (start 8) ([.startListening true, .opens 0 ann true true (some .other) false] ++ ops)).log 0 =
      [.connect 0 ann 1 (some .other)] := by
  have key : ∀ (ops : List Op) (s : St), s.conns = [] → (∀ o ∈ ops, (∃ r v, o = .writes 0 r v) ∨ o = .closes 0 ∨ o = .stopListening) →
      (run s ops).log = s.log := by
    intro ops
    induction ops with
    | nil => exact fun _ _ _ => rfl
    | cons o ops ih =>
      intro s hc hs
      have h1 : (step s o).conns = [] ∧ (step s o).log = s.log := by
        rcases hs o List.mem_cons_self with ⟨r, v, rfl⟩ | rfl | rfl
        · unfold step; dsimp only; rw [hc]; exact ⟨hc, rfl⟩
        · unfold step; dsimp only; rw [hc]; exact ⟨hc, rfl⟩
        · unfold step; dsimp only
          split
          · unfold stopListening
            split
            · exact ⟨hc, rfl⟩
            · unfold detach; dsimp only; rw [hc]; simp
          · exact ⟨hc, rfl⟩
      rw [run_cons, ih _ h1.1 (fun x hx => hs x (List.mem_cons_of_mem _ hx)), h1.2]
  rw [run_append, key ops _ (by decide +kernel) hs]
  decide +kernel

example : ∀ o ∈ [Op.writes 0 (proper 0 [1]) true, .closes 0, .stopListening], (∃ r v, o = .writes 0 r v) ∨ o = .closes 0 ∨ o = .stopListening := by
  simp

/-- **C113. Violated.** The documentation says that a session does not process a second request before the first one has
been replied to.  It does: a client that writes two of them gets two callbacks. -/
theorem second_request_fails :
    (run (start 8) (two ++ [.writes 1 (proper 1 [1]) true, .writes 1 (proper 1 [2]) true])).log.drop 2 =
      [.request 1 (.server 1) [1], .request 1 (.server 1) [2]] := by decide +kernel

end Verif.Props.C113
