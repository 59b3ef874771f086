import Verif.Proofs.ShmFactory4
/-! Proofs about the shared memory factory: memory that is there is returned. -/
namespace Verif.ShmFactory

/-- What holds of a process that had no memory when object `o`, made by user `U`, was there. -/
def TPc (o U : Nat) (P : Proc) : Pc → Prop
  | .idle => True
  | .opLock c _ | .opWait c _ _ | .opShm c _ => c.kind ≠ .create
  | .opMap c o' w => c.kind ≠ .create ∧ o' = o ∧ w = U
  | .opEnd c r => c.kind ≠ .create ∧ (P.res r).obj = o ∧ (P.res r).owner = U
  | .mkLock c | .mkShm c | .mkBusy c => c.kind = .create
  | _ => False

def TP (o U : Nat) (P : Proc) : Prop :=
  (∀ r, (P.res r).refs ≠ 0 → (P.res r).obj = o ∧ (P.res r).owner = U) ∧ TPc o U P P.pc

/-- What may be said of a return. -/
def TOk (cfg : Cfg) (o U p : Nat) (c : Call) (g : Option Got) : Prop :=
  c.kind ≠ .create → HasProvider cfg p c → admits cfg p c U = true → ∃ g', g = some g' ∧ g'.obj = o

/-- The effect of one step of process `p` on itself and on the log. -/
def TS (cfg : Cfg) (o U p : Nat) (s s' : St) : Prop :=
  TP o U (s'.procs p) ∧ (s'.log = s.log ∨ ∃ c g, s'.log = ⟨p, c, g⟩ :: s.log ∧ TOk cfg o U p c g)

theorem ts_goto {cfg : Cfg} {o U p : Nat} {s s' : St} {pc : Pc} (h : TP o U (s.procs p)) (e1 : ∀ r, (s'.procs p).res r = (s.procs p).res r)
    (e2 : s'.log = s.log) (hp : TPc o U (s.procs p) pc) : TS cfg o U p s (goto s' p pc) := by
  refine ⟨⟨fun r hr => ?_, ?_⟩, .inl e2⟩
  · simp only [goto, upd_self, e1] at hr ⊢; exact h.1 r hr
  · simp only [goto, upd_self]
    revert hp
    cases pc <;> simp [TPc, e1]

theorem ts_give {cfg : Cfg} {o U p : Nat} {s s' : St} {c : Call} {r : Nat} (h : TP o U (s.procs p)) (e1 : s'.procs = s.procs)
    (e2 : s'.log = s.log) (hr : ((s.procs p).res r).obj = o ∧ ((s.procs p).res r).owner = U) : TS cfg o U p s (give s' p c r) := by
  refine ⟨⟨fun q hq => ?_, ?_⟩, .inr ⟨c, some ⟨r, ((s.procs p).res r).obj, ((s.procs p).res r).rw⟩,
    by simp only [give, e1, e2], fun _ _ _ => ⟨_, rfl, hr.1⟩⟩⟩
  · simp only [give, upd_self, e1] at hq ⊢
    by_cases e : q = r
    · subst e; rw [upd_self]; exact hr
    · rw [upd_ne _ _ e] at *; exact h.1 q hq
  · simp [give, TPc]

theorem ts_null {cfg : Cfg} {o U p : Nat} {s s' : St} {c : Call} (h : TP o U (s.procs p)) (e1 : (s'.procs p).res = (s.procs p).res)
    (e3 : (s'.procs p).pc = .idle) (e2 : s'.log = ⟨p, c, none⟩ :: s.log)
    (hc : c.kind = .create ∨ ¬ HasProvider cfg p c ∨ ¬ admits cfg p c U = true) : TS cfg o U p s s' := by
  refine ⟨⟨fun q hq => ?_, by rw [e3]; trivial⟩, .inr ⟨c, none, e2, fun a b d => ?_⟩⟩
  · rw [e1] at *; exact h.1 q hq
  · rcases hc with e | e | e
    · exact absurd e a
    · exact absurd b e
    · exact absurd d e

theorem ts_finish {cfg : Cfg} {o U p : Nat} {s : St} {w : Why} (h : TP o U (s.procs p)) : TS cfg o U p s (finish s p w) := by
  refine ⟨?_, .inl rfl⟩
  simp only [finish, upd_self]
  refine ⟨h.1, ?_⟩
  have := h.2
  dsimp only
  revert this
  cases (s.procs p).pc <;> simp [TPc]

theorem ts_begin {cfg : Cfg} {o U p : Nat} {s : St} {c : Call} (h : TP o U (s.procs p)) : TS cfg o U p s (begin cfg s p c) := by
  unfold begin
  dsimp only
  split
  · rename_i r e
    have hr := h.1 r (found_refs e)
    split
    · rename_i k
      exact ts_null h (by simp [refuse]) (by simp [refuse]) rfl (.inl k)
    · split
      · exact ts_give h rfl rfl hr
      · rename_i a
        rw [hr.2] at a
        exact ts_null h (by simp [refuse]) (by simp [refuse]) rfl (.inr (.inr a))
  · split
    · rename_i k; exact ts_goto h (by simp) rfl (by simp [TPc, k])
    · rename_i k; split
      · exact ts_null h (by simp [refuse]) (by simp [refuse]) rfl (.inl k)
      · exact ts_goto h (by simp) rfl k
    · rename_i k; split
      · rename_i a
        refine ts_null h (by simp [refuse]) (by simp [refuse]) rfl (.inr (.inl fun b => ?_))
        simp at a
        have := b (by rw [k]; simp) a.1
        rw [a.2] at this; cases this
      · exact ts_goto h (by simp) rfl (by simp [TPc, k])

theorem ts_advance {cfg : Cfg} {o U p : Nat} {s : St} {ok : Bool} (h : TP o U (s.procs p)) (hn : s.name = some o)
    (hd : ∀ c, (s.procs p).pc = .opShm c false ∨ (s.procs p).pc = .opShm c true →
      ownerOf cfg p c (s.objs o) = U) : TS cfg o U p s (advance cfg s p ok) := by
  have h2 := h.2
  unfold advance
  split <;> rename_i e <;> rw [e] at h2
  · exact ⟨by rw [← e] at h2; exact h, .inl rfl⟩
  · split
    · exact ts_goto h (fun _ => rfl) rfl h2
    · exact ts_goto h (fun _ => rfl) rfl h2
  · split
    · split
      · exact ts_goto h (fun _ => rfl) rfl h2
      · exact ts_finish h
    · exact ts_goto h (fun _ => rfl) rfl h2
  · rename_i c a
    rw [hn]; dsimp only
    refine ts_goto h (fun _ => rfl) rfl ⟨h2, rfl, ?_⟩
    cases a
    · exact hd _ (.inl e)
    · exact hd _ (.inr e)
  · exact h2.elim
  · rename_i c o' w
    unfold mapInto; dsimp only; split
    · exact ts_finish h
    · refine ⟨?_, .inl rfl⟩
      simp only [upd_self]
      refine ⟨fun q hq => ?_, ?_⟩
      · dsimp only at hq ⊢
        by_cases eq : q = (s.procs p).nres
        · subst eq; rw [upd_self] at hq; exact absurd rfl hq
        · rw [upd_ne _ _ eq] at *; exact h.1 q hq
      · simp only [TPc, upd_self]; exact h2
  · rename_i c r
    unfold complete
    split
    · exact ts_give h rfl rfl h2.2
    · rename_i a
      have : ((s.procs p).res r).owner = U := h2.2.2
      rw [show (({ s with lock := false } : St).procs p).res r = (s.procs p).res r from rfl, this] at a
      exact ts_null h (by simp) (by simp) rfl (.inr (.inr a))
  · rename_i c
    split
    · unfold notMade; have : c.kind = .create := h2; rw [this]; dsimp only
      exact ts_null h (by simp [fail]) (by simp [fail]) rfl (.inl this)
    · exact ts_goto h (fun _ => rfl) rfl h2
  · rename_i c
    rw [hn]; dsimp only
    exact ts_goto h (fun _ => rfl) rfl h2
  · exact h2.elim
  · rename_i c
    unfold notMade; have : c.kind = .create := h2; rw [this]; dsimp only
    exact ts_null h (by simp [fail]) (by simp [fail]) rfl (.inl this)
  · exact h2.elim
  · exact h2.elim
  · exact h2.elim

theorem tp_res {o U : Nat} {P P' : Proc} (h : TP o U P) (e1 : P'.pc = P.pc)
    (hr : ∀ r, (P'.res r).obj = (P.res r).obj ∧ (P'.res r).owner = (P.res r).owner ∧ ((P'.res r).refs ≠ 0 → (P.res r).refs ≠ 0)) : TP o U P' := by
  refine ⟨fun r hq => ?_, ?_⟩
  · rw [(hr r).1, (hr r).2.1]; exact h.1 r ((hr r).2.2 hq)
  · have := h.2
    rw [e1]
    revert this
    cases P.pc <;> simp [TPc, (hr _).1, (hr _).2.1]

theorem ts_giveUp {cfg : Cfg} {o U p r : Nat} {s : St} {now : Bool} (h : TP o U (s.procs p)) : TS cfg o U p s (giveUp s p r now) := by
  unfold giveUp
  dsimp only
  split
  · exact ⟨h, .inl rfl⟩
  · split
    · refine ⟨?_, .inl rfl⟩
      simp only [upd_self]
      refine tp_res h rfl (fun q => ?_)
      dsimp only
      rw [upd_apply]; split
      · rename_i eq; subst eq; simp
      · exact ⟨rfl, rfl, id⟩
    · rename_i a b
      refine ⟨?_, .inl rfl⟩
      simp only [upd_self]
      refine tp_res h rfl (fun q => ?_)
      dsimp only
      rw [upd_apply]; split
      · rename_i eq; subst eq; simp [a]
      · exact ⟨rfl, rfl, id⟩

theorem ts_destroy {cfg : Cfg} {o U p r : Nat} {s : St} (h : TP o U (s.procs p)) : TS cfg o U p s (destroy s p r) := by
  unfold destroy
  dsimp only
  split
  · refine ⟨?_, .inl rfl⟩
    simp only [upd_self]
    refine tp_res h rfl (fun q => ?_)
    dsimp only
    rw [upd_apply]; split
    · rename_i eq; subst eq; simp
    · exact ⟨rfl, rfl, id⟩
  · exact ⟨h, .inl rfl⟩

theorem obj_step {cfg : Cfg} {s : St} {op : Op} (hn : s.name ≠ none) (h1 : ∀ p, op ≠ .stale p) (h2 : ∀ p, op ≠ .remove p) (o : Nat) :
    ((step cfg s op).objs o).creator = (s.objs o).creator ∧ ((step cfg s op).objs o).typed = (s.objs o).typed := by
  cases op with
  | stale p => exact absurd rfl (h1 p)
  | remove p => exact absurd rfl (h2 p)
  | call p c =>
    simp only [step]; split
    · exact ⟨rfl, rfl⟩
    · unfold begin; dsimp only
      repeat' split
      all_goals exact ⟨rfl, rfl⟩
  | step p ok =>
    simp only [step]; split
    · exact ⟨rfl, rfl⟩
    · unfold advance notMade complete mapInto
      dsimp only
      repeat' split
      all_goals first
        | exact ⟨rfl, rfl⟩
        | (rename_i e; exact absurd e hn)
        | (rename_i e _; exact absurd e hn)
        | (simp only [goto, upd_apply]; split <;> simp_all)
  | release p r => simp only [step]; split; exact ⟨rfl, rfl⟩; unfold giveUp; dsimp only; repeat' split
                   all_goals exact ⟨rfl, rfl⟩
  | drop p r => simp only [step]; split; exact ⟨rfl, rfl⟩; unfold giveUp; dsimp only; repeat' split
                all_goals exact ⟨rfl, rfl⟩
  | destroy p r => simp only [step]; split; exact ⟨rfl, rfl⟩; unfold destroy; dsimp only; split
                   all_goals exact ⟨rfl, rfl⟩
  | kill p => simp only [step]; split <;> exact ⟨rfl, rfl⟩

theorem pcCall_step {cfg : Cfg} {s : St} {op : Op} {p : Nat} {c : Call} (h : pcCall ((step cfg s op).procs p).pc = some c) :
    pcCall (s.procs p).pc = some c ∨ op = .call p c := by
  by_cases e : p = op.proc
  case neg => rw [step_other e] at h; exact .inl h
  cases op with
  | call q d =>
    have e : p = q := e
    subst e
    simp only [step] at h; split at h
    · exact .inl h
    · right
      revert h
      unfold begin; dsimp only
      repeat' split
      all_goals simp [goto, refuse, give, pcCall]
      all_goals exact id
  | step q ok =>
    have e : p = q := e
    subst e
    simp only [step] at h; split at h
    · exact .inl h
    · left
      revert h
      unfold advance notMade complete mapInto
      dsimp only
      split <;> rename_i e
      · rw [e]; exact id
      all_goals repeat' split
      all_goals (simp [goto, fail, give, pcCall, finish, e]; done)
  | release q r =>
    have e : p = q := e
    subst e
    left; revert h
    simp only [step]; split
    · exact id
    · unfold giveUp; dsimp only; repeat' split
      all_goals simp
  | drop q r =>
    have e : p = q := e
    subst e
    left; revert h
    simp only [step]; split
    · exact id
    · unfold giveUp; dsimp only; repeat' split
      all_goals simp
  | destroy q r =>
    have e : p = q := e
    subst e
    left; revert h
    simp only [step]; split
    · exact id
    · unfold destroy; dsimp only; split <;> simp
  | remove q =>
    have e : p = q := e
    subst e
    left; revert h
    simp only [step]; split
    · exact id
    · unfold remove; split <;> simp
  | stale q =>
    have e : p = q := e
    subst e
    left; revert h
    simp only [step]; split
    · exact id
    · unfold stale; dsimp only; repeat' split
      all_goals simp [finish]
  | kill q =>
    have e : p = q := e
    subst e
    left; revert h
    simp only [step]; split <;> simp [finish]

theorem owner_asked {cfg : Cfg} {p : Nat} {c : Call} {o : Obj} (h : o.typed = true → AsksDaemon cfg p c) :
    ownerOf cfg p c o = cfg.uid o.creator := by
  unfold ownerOf
  split
  · rename_i e
    simp at e
    obtain ⟨a, b⟩ := h e.1
    have : provider cfg p c = true := by
      unfold provider
      split
      · exact a
      · rename_i k
        rcases b with b | b
        · exact absurd b k
        · simp [a, b]
    rw [this] at e; cases e.2
  · rfl

structure T (cfg : Cfg) (o U p : Nat) (l0 : List Ret) (s : St) : Prop where
  name : s.name = some o
  uid : cfg.uid (s.objs o).creator = U
  tp : TP o U (s.procs p)
  call : ∀ c, pcCall (s.procs p).pc = some c → ownerOf cfg p c (s.objs o) = U
  log : ∃ new, s.log = new ++ l0 ∧ ∀ x, x ∈ new → x.proc = p → TOk cfg o U p x.call x.got

theorem t_step {cfg : Cfg} {o U p : Nat} {l0 : List Ret} {s : St} {op : Op} (h : T cfg o U p l0 s) (h1 : ∀ p, op ≠ .stale p)
    (h2 : ∀ p, op ≠ .remove p) (hc : ∀ c, op = .call p c → ownerOf cfg p c (s.objs o) = U) : T cfg o U p l0 (step cfg s op) := by
  have ho := obj_step (cfg := cfg) (op := op) (s := s) (by rw [h.name]; simp) h1 h2 o
  have how : ∀ c, ownerOf cfg p c ((step cfg s op).objs o) = ownerOf cfg p c (s.objs o) := by
    intro c; unfold ownerOf; rw [ho.1, ho.2]
  have hts : p = op.proc → TS cfg o U p s (step cfg s op) := by
    intro e
    cases op with
    | stale p => exact absurd rfl (h1 p)
    | remove p => exact absurd rfl (h2 p)
    | call q d =>
      have e : p = q := e
      subst e
      simp only [step]; split
      · exact ⟨h.tp, .inl rfl⟩
      · exact ts_begin h.tp
    | step q ok =>
      have e : p = q := e
      subst e
      simp only [step]; split
      · exact ⟨h.tp, .inl rfl⟩
      · exact ts_advance h.tp h.name (fun c hc => h.call c (by rcases hc with a | a <;> rw [a] <;> rfl))
    | release q r =>
      have e : p = q := e
      subst e
      simp only [step]; split
      · exact ⟨h.tp, .inl rfl⟩
      · exact ts_giveUp h.tp
    | drop q r =>
      have e : p = q := e
      subst e
      simp only [step]; split
      · exact ⟨h.tp, .inl rfl⟩
      · exact ts_giveUp h.tp
    | destroy q r =>
      have e : p = q := e
      subst e
      simp only [step]; split
      · exact ⟨h.tp, .inl rfl⟩
      · exact ts_destroy h.tp
    | kill q =>
      have e : p = q := e
      subst e
      simp only [step]; split
      · exact ⟨h.tp, .inl rfl⟩
      · exact ts_finish h.tp
  refine ⟨name_step h.name h1 h2, by rw [ho.1]; exact h.uid, ?_, ?_, ?_⟩
  · by_cases e : p = op.proc
    · exact (hts e).1
    · rw [step_other e]; exact h.tp
  · intro c hcc
    rw [how]
    rcases pcCall_step hcc with a | a
    · exact h.call c a
    · exact hc c a
  · obtain ⟨new, en, hl⟩ := h.log
    by_cases e : p = op.proc
    · rcases (hts e).2 with a | ⟨c, g, a, b⟩
      · exact ⟨new, by rw [a, en], hl⟩
      · refine ⟨⟨p, c, g⟩ :: new, by rw [a, en]; rfl, fun x hx hp => ?_⟩
        rcases List.mem_cons.mp hx with d | d
        · subst d; exact b
        · exact hl x d hp
    · rcases log_step (cfg := cfg) (s := s) (op := op) with a | ⟨c, g, a⟩
      · exact ⟨new, by rw [a, en], hl⟩
      · refine ⟨⟨op.proc, c, g⟩ :: new, by rw [a, en]; rfl, fun x hx hp => ?_⟩
        rcases List.mem_cons.mp hx with d | d
        · subst d; exact absurd hp.symm e
        · exact hl x d hp

theorem t_run {cfg : Cfg} {o U p : Nat} {l0 : List Ret} {ops : List Op} : ∀ {s : St}, T cfg o U p l0 s → NoRemoval ops →
    (∀ c, .call p c ∈ ops → (s.objs o).typed = true → AsksDaemon cfg p c) → T cfg o U p l0 (run cfg s ops) := by
  induction ops with
  | nil => intro s h _ _; exact h
  | cons op ops ih =>
    intro s h ht hd
    have t1 : ∀ q, op ≠ .stale q := fun q e => (ht q).1 (by simp [e])
    have t2 : ∀ q, op ≠ .remove q := fun q e => (ht q).2 (by simp [e])
    refine ih (t_step h t1 t2 (fun c e => ?_)) (fun q => ⟨fun hp => (ht q).1 (by simp [hp]), fun hp => (ht q).2 (by simp [hp])⟩) ?_
    · rw [← h.uid]; exact owner_asked (hd c (by simp [e]))
    · intro c hc he
      rw [(obj_step (by rw [h.name]; simp) t1 t2 o).2] at he
      exact hd c (by simp [hc]) he

/-! ### No process gives up early -/

/-- A process that has done `n` steps. -/
def Pat (P : Proc) (n : Nat) : Prop :=
  (P.over = some .timeout → 52 ≤ n) ∧ ∀ c a k, P.pc = .opWait c a k → k + 1 ≤ n

theorem pat_mono {P : Proc} {n m : Nat} (h : Pat P n) (hm : n ≤ m) : Pat P m :=
  ⟨fun a => Nat.le_trans (h.1 a) hm, fun c a k e => Nat.le_trans (h.2 c a k e) hm⟩

theorem pat_advance {cfg : Cfg} {s : St} {p n : Nat} {ok : Bool} (h : Pat (s.procs p) n) (h0 : (s.procs p).over = none) :
    Pat ((advance cfg s p ok).procs p) (n + 1) := by
  have h2 := h.2
  unfold advance notMade complete mapInto
  dsimp only
  split <;> rename_i e
  · exact pat_mono h (by omega)
  · split
    · refine ⟨by simp [goto, h0], fun c a k e' => ?_⟩
      simp [goto] at e'; omega
    · refine ⟨by simp [goto, h0], fun c a k e' => ?_⟩
      simp [goto] at e'
  · have hk := h2 _ _ _ e
    split
    · split
      · refine ⟨by simp [goto, h0], fun c a k e' => ?_⟩
        simp [goto] at e'; omega
      · refine ⟨fun _ => by omega, fun c a k e' => ?_⟩
        simp [finish, e] at e'; omega
    · refine ⟨by simp [goto, h0], fun c a k e' => ?_⟩
      simp [goto] at e'
  all_goals repeat' split
  all_goals
    refine ⟨by simp [goto, fail, give, finish, h0], fun c a k e' => ?_⟩
    simp [goto, fail, give, finish, e] at e'

theorem pat_begin {cfg : Cfg} {s : St} {p n : Nat} {c : Call} (h : Pat (s.procs p) n) : Pat ((begin cfg s p c).procs p) n := by
  have h1 := h.1
  unfold begin
  dsimp only
  repeat' split
  all_goals
    refine ⟨by simpa [goto, refuse, give] using h1, fun c a k e' => ?_⟩
    simp [goto, refuse, give] at e'

theorem pat_run {cfg : Cfg} {p : Nat} {ops : List Op} : ∀ {s : St} {n : Nat}, Pat (s.procs p) n →
    Pat ((run cfg s ops).procs p) (n + stepsOf p ops) := by
  induction ops with
  | nil => intro s n h; exact h
  | cons op ops ih =>
    intro s n h
    rw [run_cons]
    have key : ∀ m, Pat ((step cfg s op).procs p) (n + m) → stepsOf p (op :: ops) = m + stepsOf p ops →
        Pat ((run cfg (step cfg s op) ops).procs p) (n + stepsOf p (op :: ops)) := by
      intro m hm e
      rw [e, ← Nat.add_assoc]; exact ih hm
    by_cases e : p = op.proc
    case neg =>
      refine key (stepsOf p (op :: ops) - stepsOf p ops) (by rw [step_other e]; exact pat_mono h (by omega)) ?_
      cases op <;> simp only [stepsOf] <;> omega
    cases op with
    | step q ok =>
      have e : p = q := e
      subst e
      refine key 1 ?_ (by simp [stepsOf])
      simp only [step]; split
      · exact pat_mono h (by omega)
      · rename_i a
        exact pat_advance h (by simpa using a)
    | call q c =>
      have e : p = q := e
      subst e
      refine key 0 ?_ (by simp [stepsOf])
      simp only [step]; split
      · exact h
      · exact pat_begin h
    | release q r =>
      have e : p = q := e
      subst e
      refine key 0 ?_ (by simp [stepsOf])
      simp only [step]; split
      · exact h
      · unfold giveUp; dsimp only; repeat' split
        all_goals first | exact h | (simp only [upd_self]; exact h)
    | drop q r =>
      have e : p = q := e
      subst e
      refine key 0 ?_ (by simp [stepsOf])
      simp only [step]; split
      · exact h
      · unfold giveUp; dsimp only; repeat' split
        all_goals first | exact h | (simp only [upd_self]; exact h)
    | destroy q r =>
      have e : p = q := e
      subst e
      refine key 0 ?_ (by simp [stepsOf])
      simp only [step]; split
      · exact h
      · unfold destroy; dsimp only; split
        all_goals first | exact h | (simp only [upd_self]; exact h)
    | remove q =>
      have e : p = q := e
      subst e
      refine key 0 ?_ (by simp [stepsOf])
      simp only [step]; split
      · exact h
      · unfold remove; split <;> (simp only [upd_self]; exact h)
    | stale q =>
      have e : p = q := e
      subst e
      refine key 0 ?_ (by simp [stepsOf])
      simp only [step]; split
      · exact h
      · unfold stale; dsimp only; repeat' split
        all_goals first
          | exact h
          | (simp only [upd_self]; exact h)
          | exact ⟨by simp [finish], by simpa [finish] using h.2⟩
    | kill q =>
      have e : p = q := e
      subst e
      refine key 0 ?_ (by simp [stepsOf])
      simp only [step]; split
      · exact h
      · exact ⟨by simp [finish], by simpa [finish] using h.2⟩

end Verif.ShmFactory
