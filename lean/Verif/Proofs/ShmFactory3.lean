import Verif.Proofs.ShmFactory2
/-! Proofs about the shared memory factory: all get the same memory; a lock file that is left behind. -/
namespace Verif.ShmFactory

/-! ### The same memory -/

def PJ (n : Option Nat) (P : Proc) : Prop :=
  (∀ r, (P.res r).refs ≠ 0 → n = some (P.res r).obj) ∧
  match P.pc with
  | .opMap _ o _ => n = some o
  | .mkMap _ o => n = some o
  | .mkOpen _ => n ≠ none
  | .opEnd _ r => n = some (P.res r).obj
  | .mkInit _ r => n = some (P.res r).obj
  | .mkEnd _ r => n = some (P.res r).obj
  | _ => True

theorem pj_none {P : Proc} (h : PJ none P) (n : Option Nat) : PJ n P := by
  obtain ⟨h1, h2⟩ := h
  refine ⟨fun r hr => (by have := h1 r hr; cases this), ?_⟩
  split at h2 <;> simp_all

structure J (F : Nat → Prop) (l0 : List Ret) (s : St) : Prop where
  pj : ∀ p, F p → PJ s.name (s.procs p)
  log : ∃ new, s.log = new ++ l0 ∧ ∀ x, x ∈ new → F x.proc → ∀ g, x.got = some g → s.name = some g.obj

theorem j_upd {F : Nat → Prop} {l0 : List Ret} {s s' : St} {p : Nat} {P' : Proc} (h : J F l0 s) (ep : s'.procs = upd s.procs p P')
    (hn : s'.name = s.name ∨ s.name = none) (hp : F p → PJ s'.name P')
    (hl : s'.log = s.log ∨ ∃ x, s'.log = x :: s.log ∧ (F x.proc → ∀ g, x.got = some g → s'.name = some g.obj)) : J F l0 s' := by
  constructor
  · intro q hq
    rw [ep, upd_apply]
    split
    · rename_i e; subst e; exact hp hq
    · have := h.pj q hq
      rcases hn with e | e
      · rw [e]; exact this
      · rw [e] at this; exact pj_none this _
  · obtain ⟨new, e, hnew⟩ := h.log
    have old : ∀ x, x ∈ new → F x.proc → ∀ g, x.got = some g → s'.name = some g.obj := by
      intro x hx hf g hg
      have := hnew x hx hf g hg
      rcases hn with e | e
      · rw [e]; exact this
      · rw [e] at this; cases this
    rcases hl with a | ⟨x, a, b⟩
    · exact ⟨new, by rw [a, e], old⟩
    · refine ⟨x :: new, by rw [a, e]; rfl, ?_⟩
      intro y hy
      rcases List.mem_cons.mp hy with c | c
      · subst c; exact b
      · exact old y c

theorem j_goto {F : Nat → Prop} {l0 : List Ret} {s s' : St} {p : Nat} {pc : Pc} (h : J F l0 s) (e1 : s'.procs = s.procs)
    (e2 : s'.name = s.name ∨ s.name = none) (e3 : s'.log = s.log)
    (hp : F p → PJ s'.name { s.procs p with pc := pc }) : J F l0 (goto s' p pc) :=
  j_upd (p := p) h (by show upd s'.procs p _ = _; rw [e1]) e2 hp (.inl e3)

theorem pj_free {n : Option Nat} {P : Proc} (h : PJ n P) {pc : Pc} {m g : Option Nat} {w : Option Why}
    (h2 : match pc with
      | .opMap .. | .mkMap .. | .mkOpen .. | .opEnd .. | .mkInit .. | .mkEnd .. => False
      | _ => True) : PJ n { P with pc := pc, map := m, reg := g, over := w } := by
  refine ⟨h.1, ?_⟩
  dsimp only
  split at h2 <;> simp_all

theorem j_fail {F : Nat → Prop} {l0 : List Ret} {s : St} {b : Bool} {p : Nat} {c : Call} (h : J F l0 s) :
    J F l0 (fail { s with lock := b } p c) :=
  j_upd (p := p) h rfl (.inl rfl) (fun hf => pj_free (h.pj p hf) (pc := .idle) trivial) (.inr ⟨_, rfl, fun _ g hg => by cases hg⟩)

theorem j_refuse {F : Nat → Prop} {l0 : List Ret} {s : St} {p : Nat} {c : Call} (h : J F l0 s) : J F l0 (refuse s p c) :=
  j_upd (p := p) h rfl (.inl rfl) (fun hf => pj_free (h.pj p hf) (pc := .idle) trivial) (.inr ⟨_, rfl, fun _ g hg => by cases hg⟩)

theorem j_map {F : Nat → Prop} {l0 : List Ret} {s : St} {p : Nat} {m : Option Nat} (h : J F l0 s) :
    J F l0 { s with procs := upd s.procs p { s.procs p with map := m } } :=
  j_upd (p := p) h rfl (.inl rfl) (fun hf => h.pj p hf) (.inl rfl)

theorem j_finish {F : Nat → Prop} {l0 : List Ret} {s : St} {p : Nat} {w : Why} (h : J F l0 s) : J F l0 (finish s p w) :=
  j_upd (p := p) h rfl (.inl rfl) (fun hf => h.pj p hf) (.inl rfl)

theorem j_give {F : Nat → Prop} {l0 : List Ret} {s s' : St} {p : Nat} {c : Call} {r : Nat} (h : J F l0 s) (e1 : s'.procs = s.procs)
    (e2 : s'.name = s.name) (e3 : s'.log = s.log)
    (hr : F p → s.name = some ((s.procs p).res r).obj) : J F l0 (give s' p c r) := by
  refine j_upd (p := p) h (P' := { s.procs p with pc := .idle, map := some r, res := upd (s.procs p).res r { (s.procs p).res r with refs := ((s.procs p).res r).refs + 1 } })
    (by show upd s'.procs p _ = _; rw [e1]) (.inl e2) (fun hf => ?_)
    (.inr ⟨_, by show _ :: s'.log = _; rw [e3], fun hf g hg => ?_⟩)
  · show PJ s'.name _
    rw [e2]
    refine ⟨fun q hq => ?_, trivial⟩
    dsimp only at hq ⊢
    by_cases e : q = r
    · subst e; rw [upd_self]; exact hr hf
    · rw [upd_ne _ _ e] at *; exact (h.pj p hf).1 q hq
  · dsimp only at hg hf; cases hg
    show s'.name = _
    rw [e1, e2]; exact hr hf

theorem j_begin {cfg : Cfg} {F : Nat → Prop} {l0 : List Ret} {s : St} {p : Nat} {c : Call} (h : J F l0 s) :
    J F l0 (begin cfg s p c) := by
  have gt : ∀ pc, (match pc with
      | .opMap .. | .mkMap .. | .mkOpen .. | .opEnd .. | .mkInit .. | .mkEnd .. => False
      | _ => True) → J F l0 (goto { s with procs := upd s.procs p { s.procs p with map := none } } p pc) := by
    intro pc hpc
    refine j_goto (j_map h) rfl (.inl rfl) rfl (fun hf => ?_)
    dsimp only; rw [upd_self]
    exact pj_free (h.pj p hf) hpc
  unfold begin
  dsimp only
  split
  · rename_i r e
    split
    · exact j_refuse h
    · split
      · exact j_give h rfl rfl rfl (fun hf => (h.pj p hf).1 r (found_refs e))
      · exact j_refuse h
  · split
    · exact gt _ trivial
    · split
      · exact j_refuse (j_map h)
      · exact gt _ trivial
    · split
      · exact j_refuse (j_map h)
      · exact gt _ trivial

theorem j_complete {cfg : Cfg} {F : Nat → Prop} {l0 : List Ret} {s : St} {p : Nat} {c : Call} {r : Nat} (h : J F l0 s)
    (hr : F p → s.name = some ((s.procs p).res r).obj) : J F l0 (complete cfg { s with lock := false } p c r) := by
  unfold complete
  split
  · exact j_give h rfl rfl rfl hr
  · exact j_upd (p := p) h rfl (.inl rfl) (fun hf => pj_free (h.pj p hf) (pc := .idle) trivial) (.inr ⟨_, rfl, fun _ g hg => by cases hg⟩)

theorem j_mapInto {F : Nat → Prop} {l0 : List Ret} {s : St} {p o w : Nat} {rw : Bool} {next : Nat → Pc} (h : J F l0 s)
    (hn : F p → s.name = some o) (hx : (∃ c, next = .opEnd c) ∨ ∃ c, next = .mkInit c) : J F l0 (mapInto s p o w rw next) := by
  unfold mapInto
  dsimp only
  split
  · exact j_finish h
  · refine j_upd (p := p) h rfl (.inl rfl) (fun hf => ⟨fun q hq => ?_, ?_⟩) (.inl rfl)
    · dsimp only at hq ⊢
      by_cases e : q = (s.procs p).nres
      · subst e; rw [upd_self] at hq; exact absurd rfl hq
      · rw [upd_ne _ _ e] at *; exact (h.pj p hf).1 q hq
    · rcases hx with ⟨c, e⟩ | ⟨c, e⟩ <;> subst e <;> simp [hn hf]

theorem j_advance {cfg : Cfg} {F : Nat → Prop} {l0 : List Ret} {s : St} {p : Nat} {ok : Bool} (h : J F l0 s) :
    J F l0 (advance cfg s p ok) := by
  have gt : ∀ (b : Bool) pc, (match pc with
      | .opMap .. | .mkMap .. | .mkOpen .. | .opEnd .. | .mkInit .. | .mkEnd .. => False
      | _ => True) → J F l0 (goto { s with lock := b } p pc) :=
    fun b pc hpc => j_goto h rfl (.inl rfl) rfl (fun hf => pj_free (h.pj p hf) hpc)
  have gt' : ∀ pc, (match pc with
      | .opMap .. | .mkMap .. | .mkOpen .. | .opEnd .. | .mkInit .. | .mkEnd .. => False
      | _ => True) → J F l0 (goto s p pc) :=
    fun pc hpc => j_goto h rfl (.inl rfl) rfl (fun hf => pj_free (h.pj p hf) hpc)
  unfold advance
  split
  · exact h
  · split
    · exact gt' _ trivial
    · exact gt _ _ trivial
  · split
    · split
      · exact gt' _ trivial
      · exact j_finish h
    · exact gt' _ trivial
  · split
    · exact gt' _ trivial
    · rename_i o e
      exact j_goto h rfl (.inl rfl) rfl (fun hf => ⟨(h.pj p hf).1, e⟩)
  · dsimp only; split
    · exact gt _ _ trivial
    · exact j_fail h
  · rename_i c o w e
    exact j_mapInto h (fun hf => by have := (h.pj p hf).2; rw [e] at this; exact this) (.inl ⟨_, rfl⟩)
  · rename_i c r e
    exact j_complete h (fun hf => by have := (h.pj p hf).2; rw [e] at this; exact this)
  · split
    · unfold notMade; split
      · exact gt' _ trivial
      · exact j_fail (b := s.lock) h
    · exact gt _ _ trivial
  · rename_i c e
    split
    · exact gt' _ trivial
    · rename_i e'
      dsimp only
      have hz : ∀ (n : Option Nat), F p → ∀ r, ((s.procs p).res r).refs ≠ 0 → n = some ((s.procs p).res r).obj := by
        intro n hf r hr; have := (h.pj p hf).1 r hr; rw [e'] at this; cases this
      split
      · exact j_goto h rfl (.inr e') rfl (fun hf => ⟨hz _ hf, by simp⟩)
      · exact j_goto h rfl (.inr e') rfl (fun hf => ⟨hz _ hf, by simp⟩)
  · rename_i c e
    split
    · exact j_finish h
    · rename_i o e'
      exact j_goto h rfl (.inl rfl) rfl (fun hf => ⟨(h.pj p hf).1, e'⟩)
  · unfold notMade; split
    · exact gt _ _ trivial
    · exact j_fail h
  · rename_i c o e
    exact j_mapInto h (fun hf => by have := (h.pj p hf).2; rw [e] at this; exact this) (.inr ⟨_, rfl⟩)
  · rename_i c r e
    dsimp only
    exact j_goto h rfl (.inl rfl) rfl (fun hf => ⟨(h.pj p hf).1, by have := (h.pj p hf).2; rw [e] at this; exact this⟩)
  · rename_i c r e
    exact j_complete h (fun hf => by have := (h.pj p hf).2; rw [e] at this; exact this)

theorem j_res {F : Nat → Prop} {l0 : List Ret} {s : St} {p r : Nat} {n : Nat} {d : Bool} {g : Option Nat} (h : J F l0 s)
    (hn : n ≠ 0 → ((s.procs p).res r).refs ≠ 0) :
    J F l0 { s with procs := upd s.procs p { s.procs p with
      res := upd (s.procs p).res r { (s.procs p).res r with refs := n, dying := d }, reg := g } } := by
  have eo : ∀ q, ((upd (s.procs p).res r { (s.procs p).res r with refs := n, dying := d }) q).obj = ((s.procs p).res q).obj := by
    intro q; rw [upd_apply]; split
    · rename_i e; rw [e]
    · rfl
  refine j_upd (p := p) h rfl (.inl rfl) (fun hf => ⟨fun q hq => ?_, ?_⟩) (.inl rfl)
  · dsimp only at hq ⊢
    rw [eo]
    rw [upd_apply] at hq
    split at hq
    · rename_i e; subst e; exact (h.pj p hf).1 q (hn hq)
    · exact (h.pj p hf).1 q hq
  · have := (h.pj p hf).2
    dsimp only
    split <;> simp_all

theorem j_step {cfg : Cfg} {F : Nat → Prop} {l0 : List Ret} {s : St} {op : Op} (h : J F l0 s) (h1 : ∀ p, op ≠ .stale p)
    (h2 : ∀ p, op ≠ .remove p) : J F l0 (step cfg s op) := by
  cases op with
  | call p c => simp only [step]; split; exact h; exact j_begin h
  | step p ok => simp only [step]; split; exact h; exact j_advance h
  | release p r =>
    simp only [step]; split
    · exact h
    · unfold giveUp; dsimp only
      split
      · exact h
      · split
        · exact j_res (n := 0) (d := !true) (g := none) h (fun a => absurd rfl a)
        · exact j_res (n := ((s.procs p).res r).refs - 1) (d := ((s.procs p).res r).dying) (g := (s.procs p).reg) h (fun _ => by assumption)
  | drop p r =>
    simp only [step]; split
    · exact h
    · unfold giveUp; dsimp only
      split
      · exact h
      · split
        · exact j_res (n := 0) (d := !false) (g := (s.procs p).reg) h (fun a => absurd rfl a)
        · exact j_res (n := ((s.procs p).res r).refs - 1) (d := ((s.procs p).res r).dying) (g := (s.procs p).reg) h (fun _ => by assumption)
  | destroy p r =>
    simp only [step]; split
    · exact h
    · unfold destroy; dsimp only
      split
      · exact j_res (n := ((s.procs p).res r).refs) (d := false) (g := none) h (fun a => a)
      · exact h
  | remove p => exact absurd rfl (h2 p)
  | stale p => exact absurd rfl (h1 p)
  | kill p => simp only [step]; split; exact h; exact j_finish h

theorem j_run {cfg : Cfg} {F : Nat → Prop} {l0 : List Ret} {s : St} {ops : List Op} (h : J F l0 s) (ht : NoRemoval ops) :
    J F l0 (run cfg s ops) := by
  induction ops generalizing s with
  | nil => exact h
  | cons op ops ih =>
    exact ih (j_step h (fun p e => (ht p).1 (by simp [e])) (fun p e => (ht p).2 (by simp [e])))
      (fun p => ⟨fun hp => (ht p).1 (by simp [hp]), fun hp => (ht p).2 (by simp [hp])⟩)

theorem j_fresh {F : Nat → Prop} {s : St} (h : ∀ p, F p → (s.procs p).pc = .idle ∧ ∀ r, ((s.procs p).res r).refs = 0) : J F s.log s :=
  ⟨fun p hp => ⟨fun r hr => absurd ((h p hp).2 r) hr, by rw [(h p hp).1]; trivial⟩, [], rfl, fun _ hx => by cases hx⟩

/-- The object under the path stays while nothing is removed. -/
theorem name_step {cfg : Cfg} {s : St} {op : Op} {o : Nat} (h : s.name = some o) (h1 : ∀ p, op ≠ .stale p) (h2 : ∀ p, op ≠ .remove p) :
    (step cfg s op).name = some o := by
  cases op with
  | stale p => exact absurd rfl (h1 p)
  | remove p => exact absurd rfl (h2 p)
  | call p c =>
    simp only [step]; split
    · exact h
    · unfold begin; dsimp only
      repeat' split
      all_goals exact h
  | step p ok =>
    simp only [step]; split
    · exact h
    · unfold advance notMade complete mapInto
      dsimp only
      repeat' split
      all_goals first | exact h | (simp_all; done)
  | release p r => simp only [step]; split; exact h; unfold giveUp; dsimp only; repeat' split
                   all_goals exact h
  | drop p r => simp only [step]; split; exact h; unfold giveUp; dsimp only; repeat' split
                all_goals exact h
  | destroy p r => simp only [step]; split; exact h; unfold destroy; dsimp only; split
                   all_goals exact h
  | kill p => simp only [step]; split <;> exact h

theorem name_run {cfg : Cfg} {s : St} {ops : List Op} {o : Nat} (h : s.name = some o) (ht : NoRemoval ops) :
    (run cfg s ops).name = some o := by
  induction ops generalizing s with
  | nil => exact h
  | cons op ops ih =>
    exact ih (name_step h (fun p e => (ht p).1 (by simp [e])) (fun p e => (ht p).2 (by simp [e])))
      (fun p => ⟨fun hp => (ht p).1 (by simp [hp]), fun hp => (ht p).2 (by simp [hp])⟩)

/-! ### A lock file that is left behind -/

/-- Process `q` has ended with the lock file; process `p` has no memory. -/
structure Blk (q p : Nat) (l0 : List Ret) (s : St) : Prop where
  inv : Inv s
  over : (s.procs q).over ≠ none
  lk : locks (s.procs q).pc = true
  pc : locks (s.procs p).pc = false
  refs : ∀ r, ((s.procs p).res r).refs = 0
  log : ∃ new, s.log = new ++ l0 ∧ ∀ x, x ∈ new → x.proc = p → x.got = none

theorem over_step {cfg : Cfg} {s : St} {op : Op} {q : Nat} (h : (s.procs q).over ≠ none) : (step cfg s op).procs q = s.procs q := by
  by_cases e : q = op.proc
  · have : ∀ p, p = q → (s.procs p).over.isSome = true := by
      intro p hp; subst hp; cases hh : (s.procs p).over with
      | none => exact absurd hh h
      | some _ => rfl
    cases op <;> simp only [Op.proc] at e <;> simp [step, this _ e.symm]
  · exact step_other e

/-- The log after an operation. -/
theorem log_step {cfg : Cfg} {s : St} {op : Op} :
    (step cfg s op).log = s.log ∨ ∃ c g, (step cfg s op).log = ⟨op.proc, c, g⟩ :: s.log := by
  cases op with
  | call p c =>
    simp only [step]; split
    · exact .inl rfl
    · unfold begin; dsimp only
      repeat' split
      all_goals first | exact .inl rfl | exact .inr ⟨_, _, rfl⟩
  | step p ok =>
    simp only [step]; split
    · exact .inl rfl
    · unfold advance notMade complete mapInto
      dsimp only
      repeat' split
      all_goals first | exact .inl rfl | exact .inr ⟨_, _, rfl⟩
  | release p r => simp only [step]; split; exact .inl rfl; unfold giveUp; dsimp only; repeat' split
                   all_goals exact .inl rfl
  | drop p r => simp only [step]; split; exact .inl rfl; unfold giveUp; dsimp only; repeat' split
                all_goals exact .inl rfl
  | destroy p r => simp only [step]; split; exact .inl rfl; unfold destroy; dsimp only; split
                   all_goals exact .inl rfl
  | remove p => simp only [step]; split; exact .inl rfl; unfold remove; split <;> exact .inl rfl
  | stale p => simp only [step]; split; exact .inl rfl; unfold stale; dsimp only; repeat' split
               all_goals exact .inl rfl
  | kill p => simp only [step]; split <;> exact .inl rfl

/-- What a process without memory can do while the lock file is there. -/
theorem blk_own {cfg : Cfg} {s : St} {op : Op} {p : Nat} (hl : s.lock = true) (h1 : locks (s.procs p).pc = false)
    (h2 : ∀ r, ((s.procs p).res r).refs = 0) (hp : op.proc = p) (ht : ∀ p, op ≠ .stale p) :
    locks ((step cfg s op).procs p).pc = false ∧ (∀ r, (((step cfg s op).procs p).res r).refs = 0) ∧
      ((step cfg s op).log = s.log ∨ ∃ c, (step cfg s op).log = ⟨p, c, none⟩ :: s.log) := by
  have nf : (s.procs p).found = none := by
    unfold Proc.found; split
    · rfl
    · rw [if_pos (h2 _)]
  cases op with
  | call q c =>
    have hp : q = p := hp
    subst hp
    simp only [step]; split
    · exact ⟨h1, h2, .inl rfl⟩
    · unfold begin; dsimp only
      rw [nf]
      dsimp only
      repeat' split
      all_goals refine ⟨?_, ?_, ?_⟩
      all_goals first
        | (simp [goto, refuse, locks]; done)
        | (intro r; simp [goto, refuse, h2]; done)
        | exact .inl rfl
        | exact .inr ⟨_, rfl⟩
  | step q ok =>
    have hp : q = p := hp
    subst hp
    simp only [step]; split
    · exact ⟨h1, h2, .inl rfl⟩
    · unfold advance
      split <;> rename_i e <;> (try (rw [e] at h1; simp [locks] at h1; done))
      · exact ⟨by rw [e]; rfl, h2, .inl rfl⟩
      · rw [if_pos hl]
        exact ⟨by simp [goto, locks], fun r => by simp [goto, h2], .inl rfl⟩
      · rw [if_pos hl]
        split
        · exact ⟨by simp [goto, locks], fun r => by simp [goto, h2], .inl rfl⟩
        · exact ⟨by simp [finish, h1], fun r => by simp [finish, h2], .inl rfl⟩
      · rw [if_pos hl]
        unfold notMade; split
        · exact ⟨by simp [goto, locks], fun r => by simp [goto, h2], .inl rfl⟩
        · exact ⟨by simp [fail, locks], fun r => by simp [fail, h2], .inr ⟨_, rfl⟩⟩
  | release q r =>
    have hp : q = p := hp
    subst hp
    simp only [step]; split
    · exact ⟨h1, h2, .inl rfl⟩
    · simp [giveUp, h2, h1]
  | drop q r =>
    have hp : q = p := hp
    subst hp
    simp only [step]; split
    · exact ⟨h1, h2, .inl rfl⟩
    · simp [giveUp, h2, h1]
  | destroy q r =>
    have hp : q = p := hp
    subst hp
    simp only [step]; split
    · exact ⟨h1, h2, .inl rfl⟩
    · unfold destroy; dsimp only; split
      · refine ⟨by simp [h1], fun r => ?_, .inl rfl⟩
        simp only [upd_self]; rw [upd_apply]; split <;> simp [h2]
      · exact ⟨h1, h2, .inl rfl⟩
  | remove q =>
    have hp : q = p := hp
    subst hp
    simp only [step]; split
    · exact ⟨h1, h2, .inl rfl⟩
    · unfold remove; split
      · exact ⟨by simp [h1], fun r => by simp [h2], .inl rfl⟩
      · exact ⟨by simp [h1], fun r => by simp [h2], .inl rfl⟩
  | stale q => exact absurd rfl (ht q)
  | kill q =>
    have hp : q = p := hp
    subst hp
    simp only [step]; split
    · exact ⟨h1, h2, .inl rfl⟩
    · exact ⟨by simp [finish, h1], fun r => by simp [finish, h2], .inl rfl⟩

theorem blk_step {cfg : Cfg} {s : St} {op : Op} {q p : Nat} {l0 : List Ret} (h : Blk q p l0 s) (ht : ∀ p, op ≠ .stale p) :
    Blk q p l0 (step cfg s op) := by
  have hq : (step cfg s op).procs q = s.procs q := over_step h.over
  have hl : s.lock = true := h.inv.hold q h.lk
  obtain ⟨new, e, hn⟩ := h.log
  by_cases hp : op.proc = p
  · obtain ⟨a, b, c⟩ := blk_own (cfg := cfg) hl h.pc h.refs hp ht
    refine ⟨inv_step h.inv ht, by rw [hq]; exact h.over, by rw [hq]; exact h.lk, a, b, ?_⟩
    rcases c with c | ⟨k, c⟩
    · exact ⟨new, by rw [c, e], hn⟩
    · refine ⟨⟨p, k, none⟩ :: new, by rw [c, e]; rfl, fun x hx => ?_⟩
      rcases List.mem_cons.mp hx with d | d
      · subst d; exact fun _ => rfl
      · exact hn x d
  · have hpp : (step cfg s op).procs p = s.procs p := step_other (fun e => hp e.symm)
    refine ⟨inv_step h.inv ht, by rw [hq]; exact h.over, by rw [hq]; exact h.lk, by rw [hpp]; exact h.pc, by rw [hpp]; exact h.refs, ?_⟩
    rcases log_step (cfg := cfg) (s := s) (op := op) with c | ⟨k, g, c⟩
    · exact ⟨new, by rw [c, e], hn⟩
    · refine ⟨⟨op.proc, k, g⟩ :: new, by rw [c, e]; rfl, fun x hx => ?_⟩
      rcases List.mem_cons.mp hx with d | d
      · subst d; exact fun e => absurd e hp
      · exact hn x d

theorem blk_run {cfg : Cfg} {s : St} {ops : List Op} {q p : Nat} {l0 : List Ret} (h : Blk q p l0 s) (ht : NoStale ops) :
    Blk q p l0 (run cfg s ops) := by
  induction ops generalizing s with
  | nil => exact h
  | cons op ops ih => exact ih (blk_step h (fun p e => ht p (by simp [e]))) (fun p hp => ht p (by simp [hp]))

theorem run_append (cfg : Cfg) (s : St) (a b : List Op) : run cfg s (a ++ b) = run cfg (run cfg s a) b := List.foldl_append ..

theorem run_cons (cfg : Cfg) (s : St) (a : Op) (b : List Op) : run cfg s (a :: b) = run cfg (step cfg s a) b := rfl

/-- Waiting for a lock file that stays ends the process. -/
theorem waits {cfg : Cfg} {p : Nat} {ok : Bool} (n : Nat) : ∀ {s : St} {c : Call} {a : Bool} {k : Nat}, s.lock = true →
    (s.procs p).over = none → (s.procs p).pc = .opWait c a k → k + n = 50 →
    ((run cfg s (List.replicate (n + 1) (.step p ok))).procs p).over = some .timeout := by
  induction n with
  | zero =>
    intro s c a k h1 h2 h3 h4
    have : k = 50 := by omega
    subst this
    simp [run, List.replicate, step, advance, h1, h2, h3, finish]
  | succ n ih =>
    intro s c a k h1 h2 h3 h4
    have e : step cfg s (.step p ok) = goto s p (.opWait c a (k + 1)) := by
      simp [step, advance, h1, h2, h3, show k < 50 by omega]
    rw [List.replicate_succ, run_cons, e]
    exact ih (c := c) (a := a) (k := k + 1) h1 (by simp [goto, h2]) (by simp [goto]) (by omega)

end Verif.ShmFactory
