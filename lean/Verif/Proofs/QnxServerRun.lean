import Verif.Proofs.QnxServer

namespace Verif.QnxServer
open Verif.QnxServerSpec

/-- Messages, in contrast to what comes from opening, closing and replying. -/
def isMsg : Event → Bool
  | .sent .. | .request .. => true
  | _ => false

/-! ## One write -/

/-- The buffer after a write was received. -/
def filled (s : St) (r : Raw) : St := { s with buf := received s r ++ s.buf.drop (received s r).length }

theorem received_le (s : St) (r : Raw) : (received s r).length ≤ s.buf.length := by
  unfold received; split
  · exact Nat.zero_le _
  · rw [List.length_take]; omega

theorem filled_len (s : St) (r : Raw) : (filled s r).buf.length = s.buf.length := by
  have := received_le s r
  unfold filled; simp; omega

theorem toSize_nat (n : Nat) (h : n < 2 ^ 64) : toSize (n : Int) = n := by
  unfold toSize; omega

/-- A write with a complete header. -/
theorem write_complete {s : St} {c : Conn} {r : Raw} {v : Bool} (hal : s.alive = true) (hh : r.header = 16) (hb : r.body.length < 2 ^ 64) :
    ((ioWrite s c r v) = (filled s r, (ioWrite s c r v).2) ∧ (ioWrite s c r v).2 ≠ .ok) ∨
    ∃ code body, v = true ∧ r.plain = true ∧ code :: body = r.body.take r.nbytes ∧ body.length + 1 = r.nbytes ∧
      r.nbytes ≤ s.buf.length ∧ ioWrite s c r v = (processInput (filled s r) c code body, .ok) := by
  have hrec : received s r = r.body.take s.buf.length := by unfold received; rw [hh]; rfl
  have hlen : msglen s r = 16 + (r.body.take s.buf.length).length := by unfold msglen; rw [hrec, hh]; rfl
  have hsz : toSize ((msglen s r : Int) - 0 - 16) = (r.body.take s.buf.length).length := by
    rw [hlen]
    have : ((16 + (r.body.take s.buf.length).length : Nat) : Int) - 0 - 16 = ((r.body.take s.buf.length).length : Nat) := by omega
    rw [this]
    refine toSize_nat _ ?_
    rw [List.length_take]; omega
  unfold ioWrite
  dsimp only
  rw [if_neg (by rw [hal]; intro e; cases e)]
  split
  · exact Or.inl ⟨rfl, by simp⟩
  · rename_i hv
    split
    · exact Or.inl ⟨rfl, by simp⟩
    · rename_i hp
      split
      · exact Or.inl ⟨rfl, by simp⟩
      · rename_i hn
        split
        · exact Or.inl ⟨rfl, by simp⟩
        · rename_i hs
          rw [hsz, List.length_take] at hs
          have hbl : (filled s r).buf.length = s.buf.length := filled_len s r
          rw [if_neg (by show ¬ (filled s r).buf.length < _; omega)]
          have htake : (filled s r).buf.take r.nbytes = r.body.take r.nbytes := by
            show (received s r ++ _).take r.nbytes = _
            rw [List.take_append_of_le_length (by rw [hrec, List.length_take]; omega), hrec, List.take_take]
            congr 1; omega
          have hl : (r.body.take r.nbytes).length = r.nbytes := by rw [List.length_take]; omega
          show _ ∨ ∃ code body, _ ∧ _ ∧ _ ∧ _ ∧ _ ∧ (match (filled s r).buf.take r.nbytes with
            | [] => (filled s r, Err.ok) | code :: body => (processInput (filled s r) c code body, Err.ok)) = _
          rw [htake]
          cases hc : r.body.take r.nbytes with
          | nil => rw [hc] at hl; simp at hl; omega
          | cons code body =>
            rw [hc] at hl
            exact Or.inr ⟨code, body, by simpa using hv, by simpa using hp, rfl, by simpa using hl, by omega, rfl⟩

theorem proper_write {s : St} {c : Conn} {code : UInt8} {m : List UInt8} (hal : s.alive = true) (hl : m.length + 1 ≤ s.buf.length)
    (hb : m.length + 1 < 2 ^ 64) : ioWrite s c (proper code m) true = (processInput (filled s (proper code m)) c code m, .ok) := by
  have hrec : received s (proper code m) = code :: m := by
    unfold received proper; dsimp only; rw [if_neg (by omega)]
    exact List.take_of_length_le (by simpa using hl)
  have hsz : toSize ((msglen s (proper code m) : Int) - 0 - 16) = m.length + 1 := by
    unfold msglen; rw [hrec]
    have : ((min (proper code m).header 16 + (code :: m).length : Nat) : Int) - 0 - 16 = ((m.length + 1 : Nat) : Int) := by
      show ((min 16 16 + (m.length + 1) : Nat) : Int) - 0 - 16 = _
      omega
    rw [this]; exact toSize_nat _ hb
  unfold ioWrite
  dsimp only
  rw [if_neg (by rw [hal]; intro e; cases e), if_neg (by intro e; cases e), if_neg (by intro e; cases e),
    if_neg (by show ¬ m.length + 1 < 1; omega), if_neg (by rw [hsz]; exact Nat.lt_irrefl _)]
  have hbl : (filled s (proper code m)).buf.length = s.buf.length := filled_len s _
  rw [if_neg (by show ¬ (filled s (proper code m)).buf.length < m.length + 1; omega)]
  show (match (filled s (proper code m)).buf.take (m.length + 1) with
            | [] => (filled s (proper code m), Err.ok) | code' :: body => (processInput (filled s (proper code m)) c code' body, Err.ok)) = _
  have : (filled s (proper code m)).buf.take (m.length + 1) = code :: m := by
    show (received s (proper code m) ++ _).take (m.length + 1) = _
    rw [hrec, List.take_append_of_le_length (by simp)]
    exact List.take_of_length_le (by simp)
  rw [this]

theorem long_write {s : St} {c : Conn} {code : UInt8} {m : List UInt8} (hal : s.alive = true) (hl : s.buf.length ≤ m.length)
    (hb : m.length + 1 < 2 ^ 64) : ioWrite s c (proper code m) true = (filled s (proper code m), .emsgsize) := by
  have hrec : (received s (proper code m)).length = s.buf.length := by
    unfold received proper; dsimp only; rw [if_neg (by omega), List.length_take]
    simp only [List.length_cons]; omega
  have hsz : toSize ((msglen s (proper code m) : Int) - 0 - 16) = s.buf.length := by
    unfold msglen; rw [hrec]
    have : ((min (proper code m).header 16 + s.buf.length : Nat) : Int) - 0 - 16 = (s.buf.length : Int) := by
      show ((min 16 16 + s.buf.length : Nat) : Int) - 0 - 16 = _
      omega
    rw [this]; exact toSize_nat _ (by omega)
  unfold ioWrite
  dsimp only
  rw [if_neg (by rw [hal]; intro e; cases e), if_neg (by intro e; cases e), if_neg (by intro e; cases e),
    if_neg (by show ¬ m.length + 1 < 1; omega), if_pos (by rw [hsz]; show s.buf.length < m.length + 1; omega)]
  rfl

theorem input_log (s : St) (c : Conn) (code : UInt8) (body : List UInt8) :
    (processInput s c code body).log = s.log ++
      (if code = 1 then [.request c.id (whom s c.user) body] else if code = 0 then [.sent c.id (whom s c.user) body] else []) := by
  unfold processInput
  split
  · rfl
  · split
    · rfl
    · simp

/-- Only the log changes. -/
theorem input_rest (s : St) (c : Conn) (code : UInt8) (body : List UInt8) :
    (processInput s c code body) = { s with log := (processInput s c code body).log } := by
  unfold processInput
  split
  · rfl
  · split <;> rfl

/-! ## Steps -/

/-- What every step does, in coarse terms. -/
theorem step_log (s : St) (o : Op) : ∃ l, (step s o).log = s.log ++ l ∧
    ((∀ id r v, o ≠ .writes id r v) → ∀ e ∈ l, isMsg e = false) ∧
    (∀ id r v, o = .writes id r v → ∀ e ∈ l, isMsg e = true ∧ session e = id) := by
  have none : ∀ o, ∃ l, s.log = s.log ++ l ∧ ((∀ id r v, o ≠ Op.writes id r v) → ∀ e ∈ l, isMsg e = false) ∧
    (∀ id r v, o = .writes id r v → ∀ e ∈ l, isMsg e = true ∧ session e = id) :=
    fun o => ⟨[], by simp, (by intro _ e h; cases h), (by intro _ _ _ _ e h; cases h)⟩
  have stop : ∀ o, (∀ id r v, o ≠ Op.writes id r v) → ∃ l, (stopListening s).log = s.log ++ l ∧
    ((∀ id r v, o ≠ Op.writes id r v) → ∀ e ∈ l, isMsg e = false) ∧
    (∀ id r v, o = .writes id r v → ∀ e ∈ l, isMsg e = true ∧ session e = id) := by
    intro o ho
    unfold stopListening
    split
    · exact none o
    · refine ⟨_, rfl, ?_, fun id r v e => absurd e (ho id r v)⟩
      intro _ e he
      obtain ⟨c, _, rfl⟩ := List.mem_map.1 he
      rfl
  cases o with
  | startListening ok =>
    unfold step; dsimp only
    split
    · unfold startListening; dsimp only
      split <;> exact none _
    · exact none _
  | stopListening =>
    unfold step; dsimp only
    split
    · exact stop _ (by intro _ _ _ e; cases e)
    · exact none _
  | destroy =>
    unfold step; dsimp only
    split
    · exact stop .destroy (by intro _ _ _ e; cases e)
    · exact none _
  | opens a c o i an at' =>
    unfold step; dsimp only
    split
    · unfold ioOpen
      split
      · exact none _
      · split
        · exact none _
        · split
          · exact none _
          · have key : ∃ l, s.log ++ [Event.connect s.nextId c s.gen an] = s.log ++ l ∧
                ((∀ id r v, Op.opens a c o i an at' ≠ Op.writes id r v) → ∀ e ∈ l, isMsg e = false) ∧
                (∀ id r v, Op.opens a c o i an at' = .writes id r v → ∀ e ∈ l, isMsg e = true ∧ session e = id) := by
              refine ⟨_, rfl, ?_, fun _ _ _ e => by cases e⟩
              intro _ e he
              rw [List.mem_singleton] at he; subst he; rfl
            dsimp only
            split
            · exact key
            · split <;> exact key
    · exact none _
  | writes id r v =>
    unfold step; dsimp only
    split
    · rename_i c hf
      unfold ioWrite
      dsimp only
      repeat' (first | exact none _ | split)
      rw [input_log]
      refine ⟨_, rfl, fun h => absurd rfl (h id r v), ?_⟩
      intro id' r' v' e x hx
      cases e
      have hid := (find_mem hf).2
      split at hx
      · rw [List.mem_singleton] at hx; subst hx; exact ⟨rfl, hid⟩
      · split at hx
        · rw [List.mem_singleton] at hx; subst hx; exact ⟨rfl, hid⟩
        · cases hx
    · exact none _
  | closes id =>
    unfold step; dsimp only
    split
    · unfold ioClose
      split
      · exact none _
      · refine ⟨_, rfl, ?_, fun _ _ _ e => by cases e⟩
        intro _ e he
        rw [List.mem_singleton] at he; subst he; rfl
    · exact none _
  | reply id =>
    unfold step; dsimp only
    split
    · refine ⟨_, rfl, ?_, fun _ _ _ e => by cases e⟩
      intro _ e he
      rw [List.mem_singleton] at he; subst he; rfl
    · exact none _

theorem run_log (s : St) (ops : List Op) : ∃ l, (run s ops).log = s.log ++ l := by
  induction ops generalizing s with
  | nil => exact ⟨[], by simp [run]⟩
  | cons o ops ih =>
    obtain ⟨l, h⟩ := ih (step s o)
    obtain ⟨l', h', _⟩ := step_log s o
    exact ⟨l' ++ l, by rw [run_cons, h, h', List.append_assoc]⟩

theorem write_conns (s : St) (c : Conn) (r : Raw) (v : Bool) : (ioWrite s c r v).1.conns = s.conns ∧
    (ioWrite s c r v).1.atts = s.atts ∧ (ioWrite s c r v).1.mgr = s.mgr ∧ (ioWrite s c r v).1.alive = s.alive := by
  unfold ioWrite
  dsimp only
  repeat' (first | exact ⟨rfl, rfl, rfl, rfl⟩ | split)
  rw [input_rest]
  exact ⟨rfl, rfl, rfl, rfl⟩

/-- The sessions that a step ends. -/
def Ends (s : St) (o : Op) (id : Nat) : Prop := o = .closes id ∨ o = .stopListening ∨ o = .destroy

theorem stop_open {s : St} {id : Nat} (h : Open s id) : Open (stopListening s) id ∨ Told (stopListening s) id := by
  obtain ⟨c, hc, rfl⟩ := h
  unfold stopListening
  split
  · exact Or.inl ⟨c, hc, rfl⟩
  · rename_i a _
    by_cases e : c.att = a
    · refine Or.inr ⟨whom s c.user, ?_⟩
      exact List.mem_append_right _ (List.mem_map.2 ⟨c, List.mem_filter.2 ⟨hc, by simpa using e⟩, rfl⟩)
    · exact Or.inl ⟨c, List.mem_filter.2 ⟨hc, by simpa using e⟩, rfl⟩

theorem open_step {s : St} {id : Nat} (h : Open s id) (o : Op) :
    Open (step s o) id ∨ (Told (step s o) id ∧ Ends s o id) := by
  have stays : ∀ t : St, (∀ c ∈ s.conns, c ∈ t.conns) → Open t id := fun t ht => by
    obtain ⟨c, hc, e⟩ := h
    exact ⟨c, ht c hc, e⟩
  cases o with
  | startListening ok =>
    refine Or.inl (stays _ ?_)
    intro c hc
    unfold step; dsimp only
    split
    · unfold startListening; dsimp only
      split <;> exact hc
    · exact hc
  | stopListening =>
    unfold step; dsimp only
    split
    · exact (stop_open h).imp_right fun h => ⟨h, Or.inr (Or.inl rfl)⟩
    · exact Or.inl h
  | destroy =>
    unfold step; dsimp only
    split
    · exact (stop_open h).imp_right fun h => ⟨h, Or.inr (Or.inr rfl)⟩
    · exact Or.inl h
  | opens a c o i an at' =>
    refine Or.inl (stays _ ?_)
    intro c hc
    unfold step; dsimp only
    split
    · unfold ioOpen; dsimp only
      repeat' (first | exact hc | exact List.mem_append_left _ hc | split)
    · exact hc
  | writes i r v =>
    refine Or.inl (stays _ ?_)
    intro c hc
    unfold step; dsimp only
    split
    · rw [(write_conns _ _ _ _).1]; exact hc
    · exact hc
  | closes i =>
    unfold step; dsimp only
    split
    · rename_i c hf
      obtain ⟨hc, e⟩ := find_mem hf
      unfold ioClose
      split
      · exact Or.inl h
      · by_cases e' : id = i
        · subst e'
          refine Or.inr ⟨⟨whom s c.user, ?_⟩, Or.inl rfl⟩
          rw [← e]
          exact List.mem_append_right _ (List.mem_singleton.2 rfl)
        · obtain ⟨d, hd, ed⟩ := h
          refine Or.inl ⟨d, List.mem_filter.2 ⟨hd, ?_⟩, ed⟩
          simp [ed, e, e']
    · exact Or.inl h
  | reply i =>
    refine Or.inl (stays _ ?_)
    intro c hc
    unfold step; dsimp only
    split <;> exact hc

theorem told_mono {s : St} {id : Nat} (h : Told s id) (ops : List Op) : Told (run s ops) id := by
  obtain ⟨t, h⟩ := h
  obtain ⟨l, e⟩ := run_log s ops
  exact ⟨t, by rw [e]; exact List.mem_append_left _ h⟩

theorem open_run {s : St} {id : Nat} (h : Open s id) (ops : List Op) : Open (run s ops) id ∨ Told (run s ops) id := by
  induction ops generalizing s with
  | nil => exact Or.inl h
  | cons o ops ih =>
    rcases open_step h o with h | ⟨h, _⟩
    · exact ih h
    · exact Or.inr (told_mono h ops)

/-! ## Listening once at a time -/

/-- One attachment at most, and none of a destroyed server. -/
structure Single (s : St) : Prop where
  atts : s.atts = s.mgr.toList
  dead : s.alive = false → s.mgr = none

theorem single_start (cap : Nat) : Single (start cap) := ⟨rfl, fun _ => rfl⟩

theorem single_same {s t : St} (h : Single s) (h1 : t.atts = s.atts) (h2 : t.mgr = s.mgr) (h3 : t.alive = s.alive) : Single t :=
  ⟨by rw [h1, h2]; exact h.atts, by rw [h3, h2]; exact h.dead⟩

theorem single_stop {s : St} (h : Single s) : (stopListening s).mgr = none ∧ (stopListening s).atts = [] := by
  unfold stopListening
  split
  · rename_i e
    exact ⟨e, by rw [h.atts, e]; rfl⟩
  · rename_i a e
    refine ⟨rfl, ?_⟩
    show s.atts.erase a = []
    rw [h.atts, e]; simp

theorem single_step {s : St} (h : Single s) (o : Op) (ho : ∀ ok, o = .startListening ok → s.mgr = none) : Single (step s o) := by
  cases o with
  | startListening ok =>
    unfold step; dsimp only
    split
    · rename_i hal
      have hm := ho ok rfl
      have ha := h.atts
      rw [hm] at ha
      unfold startListening; dsimp only
      split
      · exact ⟨by dsimp only; rw [ha]; rfl, fun e => by dsimp only at e; rw [hal] at e; cases e⟩
      · exact single_same h rfl rfl rfl
    · exact h
  | stopListening =>
    unfold step; dsimp only
    split
    · have := single_stop h
      exact ⟨by rw [this.1, this.2]; rfl, fun _ => this.1⟩
    · exact h
  | destroy =>
    unfold step; dsimp only
    split
    · have := single_stop h
      exact ⟨by dsimp only; rw [this.1, this.2]; rfl, fun _ => this.1⟩
    · exact h
  | opens a c o i an at' =>
    unfold step; dsimp only
    split
    · unfold ioOpen; dsimp only
      repeat' (first | exact h | exact single_same h rfl rfl rfl | split)
    · exact h
  | writes i r v =>
    unfold step; dsimp only
    split
    · obtain ⟨_, h2, h3, h4⟩ := write_conns s ‹_› r v
      exact single_same h h2 h3 h4
    · exact h
  | closes i =>
    unfold step; dsimp only
    split
    · unfold ioClose
      split <;> exact single_same h rfl rfl rfl
    · exact h
  | reply i =>
    unfold step; dsimp only
    split <;> exact single_same h rfl rfl rfl

theorem once_cons {s : St} {o : Op} {ops : List Op} (h : Once s (o :: ops)) :
    (∀ ok, o = .startListening ok → s.mgr = none) ∧ Once (step s o) ops := by
  refine ⟨fun ok e => h [] ok ops (by rw [e]; rfl), fun pre ok post e => ?_⟩
  have := h (o :: pre) ok post (by rw [e]; rfl)
  exact this

theorem once_append {s : St} {a b : List Op} (h : Once s (a ++ b)) : Once s a ∧ Once (run s a) b := by
  refine ⟨fun pre ok post e => h pre ok (post ++ b) (by rw [e]; simp), fun pre ok post e => ?_⟩
  have := h (a ++ pre) ok post (by rw [e]; simp)
  rw [run_append] at this; exact this

theorem single_run {s : St} (h : Single s) (ops : List Op) (ho : Once s ops) : Single (run s ops) := by
  induction ops generalizing s with
  | nil => exact h
  | cons o ops ih =>
    obtain ⟨h1, h2⟩ := once_cons ho
    exact ih (single_step h o h1) h2

/-- Without attachments and without a new start, nothing happens any more. -/
theorem silent_step {s : St} (ha : s.atts = []) (hc : s.conns = []) (o : Op) (ho : ∀ ok, o ≠ .startListening ok)
    (hm : s.mgr = none) : (step s o).log = s.log ∧ (step s o).atts = [] ∧ (step s o).conns = [] ∧ (step s o).mgr = none := by
  have hstop : stopListening s = s := by unfold stopListening; rw [hm]
  cases o with
  | startListening ok => exact absurd rfl (ho ok)
  | stopListening => unfold step; dsimp only; rw [hstop]; split <;> exact ⟨rfl, ha, hc, hm⟩
  | destroy => unfold step; dsimp only; rw [hstop]; split <;> exact ⟨rfl, ha, hc, hm⟩
  | opens a c o i an at' =>
    unfold step; dsimp only
    rw [if_neg (by rw [ha]; intro h; cases h)]
    exact ⟨rfl, ha, hc, hm⟩
  | writes i r v => unfold step; dsimp only; rw [hc]; exact ⟨rfl, ha, hc, hm⟩
  | closes i => unfold step; dsimp only; rw [hc]; exact ⟨rfl, ha, hc, hm⟩
  | reply i => unfold step; dsimp only; rw [hc]; exact ⟨rfl, ha, hc, hm⟩

theorem silent_run {s : St} (ha : s.atts = []) (hc : s.conns = []) (hm : s.mgr = none) (ops : List Op)
    (ho : ∀ ok, Op.startListening ok ∉ ops) : (run s ops).log = s.log := by
  induction ops generalizing s with
  | nil => rfl
  | cons o ops ih =>
    obtain ⟨h1, h2, h3, h4⟩ := silent_step ha hc o (fun ok e => ho ok (by rw [e]; exact List.mem_cons_self)) hm
    rw [run_cons, ih h2 h3 h4 (fun ok h => ho ok (List.mem_cons_of_mem _ h)), h1]

theorem conns_nil {s : St} (h : Inv s) (ha : s.atts = []) : s.conns = [] := by
  cases hc : s.conns with
  | nil => rfl
  | cons c l =>
    have := (h.bnd c (by rw [hc]; exact List.mem_cons_self)).2
    rw [ha] at this; cases this

/-! ## Nothing undefined -/

theorem buf_step (s : St) (o : Op) : (step s o).buf.length = s.buf.length := by
  have stop : (stopListening s).buf = s.buf := by unfold stopListening; split <;> rfl
  cases o with
  | startListening ok =>
    unfold step; dsimp only
    split
    · unfold startListening; dsimp only; split <;> rfl
    · rfl
  | stopListening => unfold step; dsimp only; split <;> simp [stop]
  | destroy => unfold step; dsimp only; split <;> simp [stop]
  | opens a c o i an at' =>
    unfold step; dsimp only
    split
    · unfold ioOpen; dsimp only
      repeat' (first | rfl | split)
    · rfl
  | writes i r v =>
    unfold step; dsimp only
    split
    · have hf := filled_len s r
      unfold filled at hf
      unfold ioWrite; dsimp only
      repeat' (first | exact hf | split)
      rw [input_rest]; exact hf
    · rfl
  | closes i =>
    unfold step; dsimp only
    split
    · unfold ioClose; split <;> rfl
    · rfl
  | reply i => unfold step; dsimp only; split <;> rfl

theorem buf_run (s : St) (ops : List Op) : (run s ops).buf.length = s.buf.length := by
  induction ops generalizing s with
  | nil => rfl
  | cons o ops ih => rw [run_cons, ih, buf_step]

theorem fine_step {s : St} (hi : Inv s) (hs : Single s) (hu : s.ub = false) (o : Op) (ho : Complete o) : (step s o).ub = false := by
  have stop : (stopListening s).ub = s.ub := by unfold stopListening; split <;> rfl
  have live : s.atts ≠ [] → s.alive = true := by
    intro ha
    cases h : s.alive with
    | true => rfl
    | false => exact absurd (by rw [hs.atts, hs.dead h]; rfl) ha
  have livec : ∀ c ∈ s.conns, s.alive = true := fun c hc => live (fun e => by
    have := (hi.bnd c hc).2
    rw [e] at this; cases this)
  cases o with
  | startListening ok =>
    unfold step; dsimp only
    split
    · unfold startListening; dsimp only; split <;> exact hu
    · exact hu
  | stopListening => unfold step; dsimp only; split <;> simp [stop, hu]
  | destroy => unfold step; dsimp only; split <;> simp [stop, hu]
  | opens a c o i an at' =>
    unfold step; dsimp only
    split
    · rename_i ha
      have hal := live (fun e => by rw [e] at ha; cases ha)
      unfold ioOpen; dsimp only
      rw [if_neg (by rw [hal]; intro e; cases e)]
      repeat' (first | exact hu | split)
    · exact hu
  | writes i r v =>
    unfold step; dsimp only
    split
    · rename_i c hf
      obtain ⟨hc, _⟩ := find_mem hf
      rcases write_complete (c := c) (v := v) (livec c hc) ho.1 ho.2 with ⟨e, _⟩ | ⟨code, body, _, _, _, _, _, e⟩
      · rw [e]; exact hu
      · rw [e]; dsimp only; rw [input_rest]; exact hu
    · exact hu
  | closes i =>
    unfold step; dsimp only
    split
    · rename_i c hf
      have hal := livec c (find_mem hf).1
      unfold ioClose
      rw [if_neg (by rw [hal]; intro e; cases e)]
      exact hu
    · exact hu
  | reply i => unfold step; dsimp only; split <;> exact hu

theorem fine_run {s : St} (hi : Inv s) (hs : Single s) (hu : s.ub = false) (ops : List Op) (hc : ∀ o ∈ ops, Complete o)
    (ho : Once s ops) : (run s ops).ub = false := by
  induction ops generalizing s with
  | nil => exact hu
  | cons o ops ih =>
    obtain ⟨h1, h2⟩ := once_cons ho
    exact ih (inv_step hi o) (single_step hs o h1) (fine_step hi hs hu o (hc o List.mem_cons_self))
      (fun x hx => hc x (List.mem_cons_of_mem _ hx)) h2

end Verif.QnxServer
