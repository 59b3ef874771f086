import Verif.Spec.ClientState
/-! Lemmas about the state of the client connection. -/
namespace Verif.ClientState

/-- What the state is while a thread is at a program counter. -/
def pcOk (s : St) : Pc → Prop
  | .idle => False
  | .stopWon => (s.st = .starting ∨ s.st = .ready) ∧ s.reason.isSome = true ∧ s.cmds = []
  | .stopSet => s.st = .stopping ∧ s.reason.isSome = true ∧ s.cmds = []
  | .rs1 => s.st = .stopped ∧ s.reason.isSome = true ∧ s.cmds = [] ∧ s.timer = false
  | .rs2 => s.st = .stopped ∧ s.reason = none ∧ s.cmds = [] ∧ s.timer = false
  | .rs3 => s.st = .starting ∧ s.reason = none ∧ s.cmds = [] ∧ s.timer = false
  | .connecting => s.st = .starting ∧ s.reason = none ∧ s.cmds = [] ∧ s.timer = false
  | .won => (s.st = .starting ∨ s.st = .ready) ∧ s.reason.isSome = true ∧ s.cmds = []
  | .switching => s.st = .stopping ∧ s.reason.isSome = true ∧ s.cmds = []

/-- Nobody is changing the state. -/
def restOk (s : St) : Prop :=
  (s.st = .stopped ∧ s.reason.isSome = true ∧ s.cmds = [] ∧ s.timer = false) ∨
  (s.st = .starting ∧ s.reason = none ∧ ((s.cmds = [true] ∧ s.timer = false) ∨ s.cmds = [])) ∨
  (s.st = .ready ∧ s.reason = none ∧ s.cmds = [] ∧ s.timer = false) ∨
  (s.st = .stopping ∧ s.reason.isSome = true ∧ s.cmds = [false])

structure Q (T : Nat) (s : St) : Prop where
  own : (∃ t < T, pcOk s (s.pc t) ∧ ∀ t' < T, t' ≠ t → s.pc t' = .idle) ∨ ((∀ t < T, s.pc t = .idle) ∧ restOk s)
  log : ∀ e ∈ s.log, diagram e.1 e.2 = true

theorem Q_init (T : Nat) : Q T init := ⟨.inr ⟨fun _ _ => rfl, .inl ⟨rfl, rfl, rfl, rfl⟩⟩, fun _ h => by cases h⟩

/-- The only thread at work goes on / comes to rest. -/
theorem own_move {T t : Nat} {s s' : St} {p : Pc} (ht : t < T) (ho : ∀ t' < T, t' ≠ t → s.pc t' = .idle)
    (e : s'.pc = upd s.pc t p) (h : pcOk s' p) :
    (∃ t < T, pcOk s' (s'.pc t) ∧ ∀ t' < T, t' ≠ t → s'.pc t' = .idle) ∨ ((∀ t < T, s'.pc t = .idle) ∧ restOk s') := by
  refine .inl ⟨t, ht, by rw [e]; simpa using h, ?_⟩
  intro t' ht' ne
  rw [e, upd_ne _ _ ne]; exact ho t' ht' ne

theorem own_rest {T t : Nat} {s s' : St} (ho : ∀ t' < T, t' ≠ t → s.pc t' = .idle)
    (e : s'.pc = upd s.pc t .idle) (h : restOk s') :
    (∃ t < T, pcOk s' (s'.pc t) ∧ ∀ t' < T, t' ≠ t → s'.pc t' = .idle) ∨ ((∀ t < T, s'.pc t = .idle) ∧ restOk s') := by
  refine .inr ⟨?_, h⟩
  intro t' ht'
  rw [e]; simp only [upd]; split
  · rfl
  · rename_i ne; exact ho t' ht' ne

theorem log_set {s : St} {n : CState} (h : ∀ e ∈ s.log, diagram e.1 e.2 = true) (hd : diagram s.st n = true) :
    ∀ e ∈ (setState s n).log, diagram e.1 e.2 = true := by
  intro e he
  simp only [setState, List.mem_cons] at he
  rcases he with rfl | he
  · exact hd
  · exact h e he

theorem pcOk_congr {s s' : St} (e1 : s'.st = s.st) (e2 : s'.reason = s.reason) (e3 : s'.cmds = s.cmds) (e4 : s'.timer = s.timer)
    (p : Pc) : pcOk s' p ↔ pcOk s p := by
  cases p <;> simp [pcOk, e1, e2, e3, e4]

theorem Q_same {T : Nat} {s s' : St} (h : Q T s) (e1 : s'.st = s.st) (e2 : s'.reason = s.reason) (e3 : s'.cmds = s.cmds)
    (e4 : s'.timer = s.timer) (e5 : s'.pc = s.pc) (e6 : s'.log = s.log) : Q T s' := by
  refine ⟨?_, by rw [e6]; exact h.log⟩
  rw [e5]
  rcases h.own with ⟨t, ht, h1, h2⟩ | ⟨h1, h2⟩
  · exact .inl ⟨t, ht, (pcOk_congr e1 e2 e3 e4 _).mpr h1, h2⟩
  · exact .inr ⟨h1, by unfold restOk at *; rw [e1, e2, e3, e4]; exact h2⟩

theorem Q_step {T : Nat} {s : St} {op : Op} (h : Q T s) (hc : Calm T s op) : Q T (step T s op) := by
  have excl : ∀ t < T, s.pc t ≠ .idle → pcOk s (s.pc t) ∧ ∀ t' < T, t' ≠ t → s.pc t' = .idle := by
    intro t ht hne
    rcases h.own with ⟨t0, ht0, h1, h2⟩ | ⟨h1, -⟩
    · by_cases e : t = t0
      · subst e; exact ⟨h1, h2⟩
      · exact (hne (h2 t ht e)).elim
    · exact (hne (h1 t ht)).elim
  unfold step
  cases op <;> dsimp only
  case stop t =>
    split
    · rename_i hh
      unfold report
      dsimp only
      split
      · rename_i hr
        obtain ⟨hc1, hc2⟩ := hc hr
        -- nobody else is at work
        have idle : (∀ t < T, s.pc t = .idle) ∧ restOk s := by
          rcases h.own with ⟨t0, ht0, h1, h2⟩ | h1
          · have c := hc1 t0 ht0
            revert h1
            cases hp : s.pc t0 <;> simp [pcOk, hr] <;> simp_all
          · exact h1
        refine ⟨?_, h.log⟩
        refine own_move hh.1 (fun t' ht' _ => idle.1 t' ht') rfl ?_
        rcases idle.2 with ⟨-, e, -⟩ | ⟨e1, -, ⟨e, -⟩ | e⟩ | ⟨e1, -, e, -⟩ | ⟨-, e, -⟩
        · rw [hr] at e; cases e
        · rw [e] at hc2; simp at hc2
        · exact ⟨.inl e1, rfl, e⟩
        · exact ⟨.inr e1, rfl, e⟩
        · rw [hr] at e; cases e
      · have e : upd s.pc t .idle = s.pc := by rw [← hh.2]; exact upd_same _ _
        exact Q_same h rfl rfl rfl rfl e rfl
    · exact h
  case restart t =>
    split
    · rename_i hh
      refine ⟨?_, h.log⟩
      have idle : (∀ t < T, s.pc t = .idle) ∧ restOk s := by
        rcases h.own with ⟨t0, ht0, h1, h2⟩ | h1
        · have c := hc t0 ht0
          revert h1
          cases hp : s.pc t0 <;> simp [pcOk, hh.2.2] <;> simp_all
        · exact h1
      refine own_move hh.1 (fun t' ht' _ => idle.1 t' ht') rfl ?_
      rcases idle.2 with h3 | ⟨e, -⟩ | ⟨e, -⟩ | ⟨e, -⟩
      · exact h3
      · rw [hh.2.2] at e; cases e
      · rw [hh.2.2] at e; cases e
      · rw [hh.2.2] at e; cases e
    · exact h
  case next t sync =>
    split
    · rename_i ht
      split
      · rename_i hp
        obtain ⟨h1, h2⟩ := excl t ht (by rw [hp]; simp)
        rw [hp] at h1
        refine ⟨?_, log_set h.log (by rcases h1.1 with e | e <;> rw [e] <;> rfl)⟩
        refine own_move ht h2 rfl ?_
        split
        · exact ⟨rfl, h1.2.1, h1.2.2⟩
        · exact ⟨rfl, h1.2.1, h1.2.2⟩
      · rename_i hp
        obtain ⟨h1, h2⟩ := excl t ht (by rw [hp]; simp)
        rw [hp] at h1
        refine ⟨own_rest h2 rfl ?_, h.log⟩
        refine .inr (.inr (.inr ⟨h1.1, h1.2.1, ?_⟩))
        show s.cmds ++ [false] = [false]
        rw [h1.2.2]; rfl
      · rename_i hp
        obtain ⟨h1, h2⟩ := excl t ht (by rw [hp]; simp)
        rw [hp] at h1
        exact ⟨own_move ht h2 rfl ⟨h1.1, rfl, h1.2.2⟩, h.log⟩
      · rename_i hp
        obtain ⟨h1, h2⟩ := excl t ht (by rw [hp]; simp)
        rw [hp] at h1
        refine ⟨?_, log_set h.log (by rw [h1.1]; rfl)⟩
        exact own_move ht h2 rfl ⟨rfl, h1.2.1, h1.2.2⟩
      · rename_i hp
        obtain ⟨h1, h2⟩ := excl t ht (by rw [hp]; simp)
        rw [hp] at h1
        split
        · exact ⟨own_move ht h2 rfl h1, h.log⟩
        · refine ⟨own_rest h2 rfl ?_, h.log⟩
          refine .inr (.inl ⟨h1.1, h1.2.1, .inl ⟨?_, h1.2.2.2⟩⟩)
          show s.cmds ++ [true] = [true]
          rw [h1.2.2.1]; rfl
      · rename_i hp
        obtain ⟨h1, h2⟩ := excl t ht (by rw [hp]; simp)
        rw [hp] at h1
        refine ⟨?_, log_set h.log (by rcases h1.1 with e | e <;> rw [e] <;> rfl)⟩
        exact own_move ht h2 rfl ⟨rfl, h1.2.1, h1.2.2⟩
      · rename_i hp
        obtain ⟨h1, h2⟩ := excl t ht (by rw [hp]; simp)
        rw [hp] at h1
        refine ⟨?_, log_set h.log (by rw [h1.1]; rfl)⟩
        exact own_rest h2 rfl (.inl ⟨rfl, h1.2.1, rfl, rfl⟩)
      · exact h
    · exact h
  case connected t res =>
    split
    · rename_i hh
      obtain ⟨h1, h2⟩ := excl t hh.1 (by rw [hh.2]; simp)
      rw [hh.2] at h1
      split
      · refine ⟨?_, log_set h.log (by rw [h1.1]; rfl)⟩
        exact own_rest h2 rfl (.inr (.inr (.inl ⟨rfl, h1.2⟩)))
      · exact ⟨own_rest h2 rfl (.inr (.inl ⟨h1.1, h1.2.1, .inr h1.2.2.1⟩)), h.log⟩
      · unfold report
        dsimp only
        rw [if_pos h1.2.1]
        exact ⟨own_move hh.1 h2 rfl ⟨.inl h1.1, rfl, h1.2.2.1⟩, h.log⟩
    · exact h
  case command =>
    split
    · rename_i hh
      split
      · rename_i q hq
        -- somebody queued it, so nobody is at work
        rcases h.own with ⟨t0, ht0, h1, h2⟩ | ⟨h1, h2⟩
        · exfalso
          revert h1
          cases hp : s.pc t0 <;> simp [pcOk, hq]
        · refine ⟨own_move hh.1 (fun t' ht' _ => h1 t' ht') rfl ?_, h.log⟩
          rcases h2 with ⟨-, -, e, -⟩ | ⟨e1, e2, ⟨e, e3⟩ | e⟩ | ⟨-, -, e, -⟩ | ⟨-, -, e⟩ <;> rw [hq] at e
          · cases e
          · injection e with _ e
            exact ⟨e1, e2, e, e3⟩
          · cases e
          · cases e
          · cases e
      · rename_i q hq
        rcases h.own with ⟨t0, ht0, h1, h2⟩ | ⟨h1, h2⟩
        · exfalso
          revert h1
          cases hp : s.pc t0 <;> simp [pcOk, hq]
        · refine ⟨own_move hh.1 (fun t' ht' _ => h1 t' ht') rfl ?_, h.log⟩
          rcases h2 with ⟨-, -, e, -⟩ | ⟨e1, e2, ⟨e, e3⟩ | e⟩ | ⟨-, -, e, -⟩ | ⟨e1, e2, e⟩ <;> rw [hq] at e
          · cases e
          · cases e
          · cases e
          · cases e
          · injection e with _ e
            exact ⟨e1, e2, e⟩
      · exact h
    · exact h
  case fire =>
    split
    · rename_i hh
      have hr : s.reason = none := hc
      rcases h.own with ⟨t0, ht0, h1, h2⟩ | ⟨h1, h2⟩
      · exfalso
        revert h1
        cases hp : s.pc t0 <;> simp [pcOk, hr, hh.2.2.1]
      · refine ⟨own_move hh.1 (fun t' ht' _ => h1 t' ht') rfl ?_, h.log⟩
        rcases h2 with ⟨-, e, -⟩ | ⟨e1, e2, ⟨e, e3⟩ | e⟩ | ⟨-, -, -, e⟩ | ⟨-, e, -⟩
        · rw [hr] at e; cases e
        · rw [hh.2.2.1] at e3; cases e3
        · exact ⟨e1, e2, e, rfl⟩
        · rw [hh.2.2.1] at e; cases e
        · rw [hr] at e; cases e
    · exact h
  case lost r =>
    split
    · rename_i hh
      unfold report
      dsimp only
      split
      · rename_i hr
        rcases h.own with ⟨t0, ht0, h1, h2⟩ | ⟨h1, h2⟩
        · exfalso
          revert h1
          cases hp : s.pc t0 <;> simp [pcOk, hr, hh.2.2]
        · refine ⟨own_move hh.1 (fun t' ht' _ => h1 t' ht') rfl ?_, h.log⟩
          rcases h2 with ⟨e, -⟩ | ⟨e, -⟩ | ⟨e1, -, e, -⟩ | ⟨e, -⟩
          · rw [hh.2.2] at e; cases e
          · rw [hh.2.2] at e; cases e
          · exact ⟨.inr e1, rfl, e⟩
          · rw [hh.2.2] at e; cases e
      · have e : upd s.pc 0 .idle = s.pc := by rw [← hh.2.1]; exact upd_same _ _
        exact Q_same h rfl rfl rfl rfl e rfl
    · exact h

theorem Q_run {T : Nat} : ∀ {ops : List Op} {s : St}, Q T s → CalmRun T s ops → Q T (run T s ops)
  | [], _, h, _ => h
  | op :: ops, s, h, hc => Q_run (ops := ops) (s := step T s op) (Q_step h hc.1) hc.2

theorem reason_step {T : Nat} {s : St} {op : Op} (h : s.reason = s.first) : (step T s op).reason = (step T s op).first := by
  have rep : ∀ t r p q, (report s t r p q).reason = (report s t r p q).first := by
    intro t r p q
    unfold report
    dsimp only
    split
    · rename_i e; rw [h] at e; simp [e]
    · rename_i e; dsimp only; rw [h] at e ⊢; rw [if_neg e]
  unfold step
  cases op <;> dsimp only
  all_goals repeat' split
  all_goals first | exact h | exact rep _ _ _ _ | rfl

theorem chain_step {T : Nat} {s : St} {op : Op} (h : chained s.st s.log) : chained (step T s op).st (step T s op).log := by
  have rep : ∀ t r p q, chained (report s t r p q).st (report s t r p q).log := by
    intro t r p q
    unfold report
    dsimp only
    split <;> exact h
  unfold step
  cases op <;> dsimp only
  all_goals repeat' split
  all_goals first | exact h | exact rep _ _ _ _ | exact ⟨rfl, h⟩

end Verif.ClientState
