import Verif.Proofs.ShmFactory3
/-! Proofs about the shared memory factory: owners, writability, and a call that nothing disturbs. -/
namespace Verif.ShmFactory

/-! ### The owner -/

/-- Either each call that may open memory uses a provider of typed memory, or no call wants typed memory. -/
def Good (cfg : Cfg) (A : Bool) (p : Nat) (c : Call) : Prop :=
  if A then c.kind ≠ .create → provider cfg p c = true else c.typed = false

def pcCall : Pc → Option Call
  | .idle => none
  | .opLock c _ | .opWait c _ _ | .opShm c _ | .opNone c _ | .opMap c _ _ | .opEnd c _ | .mkLock c | .mkShm c | .mkOpen c | .mkBusy c
  | .mkMap c _ | .mkInit c _ | .mkEnd c _ => some c

def Right (cfg : Cfg) (s : St) (o w : Nat) : Prop := o < s.nobj ∧ w = cfg.uid (s.objs o).creator

/-- What is known about where a call is: owners are the creators; Create does not open, Open does not create. -/
def POpc (cfg : Cfg) (s : St) (p : Nat) (P : Proc) : Prop :=
  match P.pc with
  | .opLock c _ | .opWait c _ _ | .opShm c _ | .opNone c _ => c.kind ≠ .create
  | .opMap c o w => c.kind ≠ .create ∧ Right cfg s o w
  | .opEnd c r => c.kind ≠ .create ∧ Right cfg s (P.res r).obj (P.res r).owner
  | .mkLock c | .mkShm c => c.kind ≠ .open
  | .mkOpen _ => ∀ o, s.name = some o → o < s.nobj ∧ (s.objs o).creator = p
  | .mkMap _ o => o < s.nobj ∧ (s.objs o).creator = p
  | .mkInit _ r | .mkEnd _ r =>
    Right cfg s (P.res r).obj (P.res r).owner ∧ (s.objs (P.res r).obj).creator = p ∧ (P.res r).rw = true
  | _ => True

def PO (cfg : Cfg) (A : Bool) (s : St) (p : Nat) (P : Proc) : Prop :=
  (∀ r, (P.res r).refs ≠ 0 → Right cfg s (P.res r).obj (P.res r).owner) ∧
  (∀ c, pcCall P.pc = some c → Good cfg A p c) ∧ POpc cfg s p P

/-- What is known about a return. -/
def RetO (cfg : Cfg) (s : St) (x : Ret) : Prop :=
  ∀ g, x.got = some g → g.obj < s.nobj ∧
    (∀ l, x.call.kind ≠ .create → x.call.allowed = some l →
      cfg.uid (s.objs g.obj).creator = cfg.uid x.proc ∨ cfg.uid (s.objs g.obj).creator ∈ l) ∧
    (x.call.kind = .create → (s.objs g.obj).creator = x.proc ∧ g.rw = true)

structure O (cfg : Cfg) (A : Bool) (s : St) : Prop where
  po : ∀ p, PO cfg A s p (s.procs p)
  ty : A = false → ∀ o, (s.objs o).typed = false
  log : ∀ x, x ∈ s.log → RetO cfg s x

/-- Objects keep their creator. -/
def Keeps (s s' : St) : Prop := s.nobj ≤ s'.nobj ∧ ∀ o, o < s.nobj → (s'.objs o).creator = (s.objs o).creator

theorem right_keeps {cfg : Cfg} {s s' : St} (k : Keeps s s') {o w : Nat} (h : Right cfg s o w) : Right cfg s' o w :=
  ⟨Nat.lt_of_lt_of_le h.1 k.1, by rw [k.2 o h.1]; exact h.2⟩

theorem retO_keeps {cfg : Cfg} {s s' : St} (k : Keeps s s') {x : Ret} (h : RetO cfg s x) : RetO cfg s' x := by
  intro g hg
  obtain ⟨a, b⟩ := h g hg
  refine ⟨Nat.lt_of_lt_of_le a k.1, ?_⟩
  rw [k.2 _ a]; exact b

theorem po_keeps {cfg : Cfg} {A : Bool} {s s' : St} {p : Nat} {P : Proc} (k : Keeps s s') (h : PO cfg A s p P)
    (hn : (s'.name = s.name ∨ s'.name = none) ∨ ∀ c, P.pc ≠ .mkOpen c) : PO cfg A s' p P := by
  obtain ⟨h1, h2, h3⟩ := h
  refine ⟨fun r hr => right_keeps k (h1 r hr), h2, ?_⟩
  revert h3
  unfold POpc
  cases e : P.pc <;> dsimp only <;> intro h3
  case opMap => exact ⟨h3.1, right_keeps k h3.2⟩
  case opEnd => exact ⟨h3.1, right_keeps k h3.2⟩
  case mkOpen c =>
    intro o ho
    rcases hn with (hn | hn) | hn
    · have := h3 o (by rw [← hn]; exact ho)
      exact ⟨Nat.lt_of_lt_of_le this.1 k.1, by rw [k.2 o this.1]; exact this.2⟩
    · rw [hn] at ho; cases ho
    · exact absurd e (hn c)
  case mkMap => exact ⟨Nat.lt_of_lt_of_le h3.1 k.1, by rw [k.2 _ h3.1]; exact h3.2⟩
  case mkInit => exact ⟨right_keeps k h3.1, by rw [k.2 _ h3.1.1]; exact h3.2.1, h3.2.2⟩
  case mkEnd => exact ⟨right_keeps k h3.1, by rw [k.2 _ h3.1.1]; exact h3.2.1, h3.2.2⟩
  all_goals exact h3

theorem keeps_refl {s s' : St} (e1 : s'.objs = s.objs) (e2 : s'.nobj = s.nobj) : Keeps s s' :=
  ⟨by rw [e2]; exact Nat.le_refl _, fun o _ => by rw [e1]⟩

theorem o_upd {cfg : Cfg} {A : Bool} {s s' : St} {p : Nat} {P' : Proc} (h : O cfg A s) (ep : s'.procs = upd s.procs p P')
    (k : Keeps s s') (hn : (s'.name = s.name ∨ s'.name = none) ∨ ∀ q, q ≠ p → ∀ c, (s.procs q).pc ≠ .mkOpen c)
    (ty : A = false → ∀ o, (s'.objs o).typed = false)
    (hp : PO cfg A s' p P') (hl : s'.log = s.log ∨ ∃ x, s'.log = x :: s.log ∧ RetO cfg s' x) : O cfg A s' := by
  constructor
  · intro q
    rw [ep, upd_apply]
    split
    · rename_i e; subst e; exact hp
    · rename_i e
      exact po_keeps k (h.po q) (by rcases hn with a | a; exact .inl a; exact .inr (a q e))
  · exact ty
  · intro x hx
    rcases hl with a | ⟨y, a, b⟩
    · rw [a] at hx; exact retO_keeps k (h.log x hx)
    · rw [a] at hx
      rcases List.mem_cons.mp hx with c | c
      · subst c; exact b
      · exact retO_keeps k (h.log x c)

/-- A step that changes only the process. -/
theorem o_proc {cfg : Cfg} {A : Bool} {s s' : St} {p : Nat} {P' : Proc} (h : O cfg A s) (ep : s'.procs = upd s.procs p P')
    (e1 : s'.objs = s.objs) (e2 : s'.nobj = s.nobj) (e3 : s'.name = s.name ∨ s'.name = none)
    (hp : PO cfg A s p P') (hl : s'.log = s.log ∨ ∃ x, s'.log = x :: s.log ∧ RetO cfg s x) : O cfg A s' := by
  have k : Keeps s s' := keeps_refl e1 e2
  refine o_upd h ep k (.inl e3) (by rw [e1]; exact h.ty) (po_keeps k hp (.inl e3)) ?_
  rcases hl with a | ⟨x, a, b⟩
  · exact .inl a
  · exact .inr ⟨x, a, retO_keeps k b⟩

theorem retO_none {cfg : Cfg} {s : St} {p : Nat} {c : Call} : RetO cfg s ⟨p, c, none⟩ := fun g hg => by cases hg

theorem po_pc {cfg : Cfg} {A : Bool} {s : St} {p : Nat} {P : Proc} (h : PO cfg A s p P) {pc : Pc} {m g : Option Nat} {w : Option Why}
    (h1 : ∀ c, pcCall pc = some c → Good cfg A p c)
    (h2 : POpc cfg s p { P with pc := pc, map := m, reg := g, over := w }) : PO cfg A s p { P with pc := pc, map := m, reg := g, over := w } :=
  ⟨h.1, h1, h2⟩

theorem po_idle {cfg : Cfg} {A : Bool} {s : St} {p : Nat} {P : Proc} (h : PO cfg A s p P) {m g : Option Nat} {w : Option Why} :
    PO cfg A s p { P with pc := .idle, map := m, reg := g, over := w } := po_pc h (fun c hc => by simp [pcCall] at hc) trivial

theorem o_refuse {cfg : Cfg} {A : Bool} {s : St} {p : Nat} {c : Call} (h : O cfg A s) : O cfg A (refuse s p c) :=
  o_proc (p := p) h rfl rfl rfl (.inl rfl) (po_idle (h.po p)) (.inr ⟨_, rfl, retO_none⟩)

theorem o_fail {cfg : Cfg} {A : Bool} {s : St} {b : Bool} {p : Nat} {c : Call} (h : O cfg A s) : O cfg A (fail { s with lock := b } p c) :=
  o_proc (p := p) h rfl rfl rfl (.inl rfl) (po_idle (h.po p)) (.inr ⟨_, rfl, retO_none⟩)

theorem o_finish {cfg : Cfg} {A : Bool} {s : St} {p : Nat} {w : Why} (h : O cfg A s) : O cfg A (finish s p w) :=
  o_proc (p := p) h rfl rfl rfl (.inl rfl) (h.po p) (.inl rfl)

theorem o_map {cfg : Cfg} {A : Bool} {s : St} {p : Nat} {m : Option Nat} (h : O cfg A s) :
    O cfg A { s with procs := upd s.procs p { s.procs p with map := m } } :=
  o_proc (p := p) h rfl rfl rfl (.inl rfl) (h.po p) (.inl rfl)

theorem admits_iff {cfg : Cfg} {p : Nat} {c : Call} {w : Nat} : admits cfg p c w = true ↔
    (c.kind ≠ .create → ∀ l, c.allowed = some l → w = cfg.uid p ∨ w ∈ l) := by
  unfold admits
  split
  · rename_i e; simp [e]
  · rename_i e _; simp [e]
  · rename_i k l h _ e
    cases hk : c.kind <;> simp_all

theorem o_give {cfg : Cfg} {A : Bool} {s : St} {b : Bool} {p : Nat} {c : Call} {r : Nat} (h : O cfg A s)
    (hr : Right cfg s ((s.procs p).res r).obj ((s.procs p).res r).owner)
    (ha : admits cfg p c ((s.procs p).res r).owner = true)
    (hc : c.kind = .create → (s.objs ((s.procs p).res r).obj).creator = p ∧ ((s.procs p).res r).rw = true) :
    O cfg A (give { s with lock := b } p c r) := by
  refine o_proc (p := p) h rfl rfl rfl (.inl rfl) ⟨fun q hq => ?_, fun c hc => (by simp [pcCall] at hc), trivial⟩ (.inr ⟨_, rfl, ?_⟩)
  · dsimp only at hq ⊢
    by_cases e : q = r
    · subst e; rw [upd_self]; exact hr
    · rw [upd_ne _ _ e] at *; exact (h.po p).1 q hq
  · intro g hg
    cases hg
    refine ⟨hr.1, fun l hk hl => ?_, fun hk => hc hk⟩
    rw [← hr.2]
    exact (admits_iff.mp ha) hk l hl

theorem o_begin {cfg : Cfg} {A : Bool} {s : St} {p : Nat} {c : Call} (h : O cfg A s) (hg : Good cfg A p c) :
    O cfg A (begin cfg s p c) := by
  have gt : ∀ pc, pcCall pc = some c → (match pc with
      | .opLock c _ => c.kind ≠ .create
      | .mkLock c => c.kind ≠ .open
      | _ => False) → O cfg A (goto { s with procs := upd s.procs p { s.procs p with map := none } } p pc) := by
    intro pc h1 h2
    refine o_proc (p := p) (o_map (p := p) (m := none) h) rfl rfl rfl (.inl rfl) ?_ (.inl rfl)
    have := (o_map (p := p) (m := none) h).po p
    refine po_pc this (fun c' hc' => by rw [h1] at hc'; cases hc'; exact hg) ?_
    unfold POpc
    split at h2 <;> simp_all
  unfold begin
  dsimp only
  split
  · rename_i r e
    split
    · exact o_refuse h
    · rename_i hk
      split
      · rename_i ha
        exact o_give (b := s.lock) h ((h.po p).1 r (found_refs e)) ha (fun e => absurd e hk)
      · exact o_refuse h
  · split
    · rename_i hk; exact gt _ rfl (by dsimp only; rw [hk]; simp)
    · rename_i hk
      split
      · exact o_refuse (o_map h)
      · exact gt _ rfl (by dsimp only; rw [hk]; simp)
    · rename_i hk
      split
      · exact o_refuse (o_map h)
      · exact gt _ rfl (by dsimp only; rw [hk]; simp)

theorem o_complete {cfg : Cfg} {A : Bool} {s : St} {p : Nat} {c : Call} {r : Nat} (h : O cfg A s)
    (hr : Right cfg s ((s.procs p).res r).obj ((s.procs p).res r).owner)
    (hc : c.kind = .create → (s.objs ((s.procs p).res r).obj).creator = p ∧ ((s.procs p).res r).rw = true) :
    O cfg A (complete cfg { s with lock := false } p c r) := by
  unfold complete
  split
  · rename_i ha; exact o_give h hr ha hc
  · exact o_proc (p := p) h rfl rfl rfl (.inl rfl) (po_idle (h.po p)) (.inr ⟨_, rfl, retO_none⟩)

theorem o_mapInto {cfg : Cfg} {A : Bool} {s : St} {p o w : Nat} {rw : Bool} {next : Nat → Pc} {c : Call} (h : O cfg A s)
    (hg : Good cfg A p c) (hr : Right cfg s o w)
    (hx : (next = .opEnd c ∧ c.kind ≠ .create) ∨ (next = .mkInit c ∧ (s.objs o).creator = p ∧ rw = true)) :
    O cfg A (mapInto s p o w rw next) := by
  unfold mapInto
  dsimp only
  split
  · exact o_finish h
  · refine o_proc (p := p) h rfl rfl rfl (.inl rfl) ⟨fun q hq => ?_, fun c' hc' => ?_, ?_⟩ (.inl rfl)
    · dsimp only at hq ⊢
      by_cases e : q = (s.procs p).nres
      · subst e; rw [upd_self] at hq; exact absurd rfl hq
      · rw [upd_ne _ _ e] at *; exact (h.po p).1 q hq
    · rcases hx with ⟨e, _⟩ | ⟨e, _⟩ <;> subst e <;> simp [pcCall] at hc' <;> subst hc' <;> exact hg
    · rcases hx with ⟨e, h1⟩ | ⟨e, h1, h2⟩ <;> subst e <;> simp_all [POpc]

theorem o_advance {cfg : Cfg} {A : Bool} {s : St} {p : Nat} {ok : Bool} (h : O cfg A s) (hi : Inv s) : O cfg A (advance cfg s p ok) := by
  obtain ⟨q1, q2, q3⟩ := h.po p
  have gt : ∀ (b : Bool) pc, (∀ c, pcCall pc = some c → Good cfg A p c) → POpc cfg s p { s.procs p with pc := pc } →
      O cfg A (goto { s with lock := b } p pc) :=
    fun b pc h1 h2 => o_proc (p := p) h rfl rfl rfl (.inl rfl) (po_pc (h.po p) h1 h2) (.inl rfl)
  have gt' := gt s.lock
  have nm : ∀ (b : Bool) c, Good cfg A p c → O cfg A (notMade { s with lock := b } p c) := by
    intro b c hg; unfold notMade; split
    · rename_i e; exact gt b _ (fun c hc => by simp [pcCall] at hc; subst hc; exact hg) (by simp [POpc, e])
    · exact o_fail h
  have pg : ∀ c, pcCall (s.procs p).pc = some c → ∀ pc, pcCall pc = some c → ∀ c', pcCall pc = some c' → Good cfg A p c' := by
    intro c h1 pc h2 c' h3; rw [h2] at h3; cases h3; exact q2 c h1
  unfold advance
  split <;> rename_i e
  · exact h
  · unfold POpc at q3; rw [e] at q3
    split
    · exact gt' _ (pg _ (by rw [e]; rfl) _ rfl) q3
    · exact gt _ _ (pg _ (by rw [e]; rfl) _ rfl) q3
  · unfold POpc at q3; rw [e] at q3
    split
    · split
      · exact gt' _ (pg _ (by rw [e]; rfl) _ rfl) q3
      · exact o_finish h
    · exact gt' _ (pg _ (by rw [e]; rfl) _ rfl) q3
  · unfold POpc at q3; rw [e] at q3
    split
    · exact gt' _ (pg _ (by rw [e]; rfl) _ rfl) q3
    · rename_i c a _ o e'
      have ho := (hi.named o e').1
      refine gt' _ (pg _ (by rw [e]; rfl) _ rfl) ⟨q3, ho, ?_⟩
      have hg := q2 c (by rw [e]; rfl)
      unfold ownerOf
      unfold Good at hg
      split
      · rename_i ht
        simp at ht
        cases hA : A
        · rw [h.ty hA o] at ht; cases ht.1
        · rw [hA] at hg; simp at hg
          rw [hg q3] at ht; cases ht.2
      · rfl
  · rename_i c a
    unfold POpc at q3; rw [e] at q3
    dsimp only; split
    · rename_i hk
      exact gt _ _ (pg _ (by rw [e]; rfl) _ rfl) (by simp [POpc, hk])
    · exact o_fail h
  · rename_i c o w
    unfold POpc at q3; rw [e] at q3
    exact o_mapInto h (q2 c (by rw [e]; rfl)) q3.2 (.inl ⟨rfl, q3.1⟩)
  · rename_i c r
    unfold POpc at q3; rw [e] at q3
    exact o_complete h q3.2 (fun a => absurd a q3.1)
  · rename_i c
    unfold POpc at q3; rw [e] at q3
    split
    · exact nm s.lock _ (q2 c (by rw [e]; rfl))
    · exact gt _ _ (pg _ (by rw [e]; rfl) _ rfl) q3
  · rename_i c
    have hl : locks (s.procs p).pc = true := by rw [e]; rfl
    unfold POpc at q3; rw [e] at q3
    split
    · exact gt' _ (pg _ (by rw [e]; rfl) _ rfl) trivial
    · rename_i e'
      dsimp only
      have hg := q2 c (by rw [e]; rfl)
      have ty : A = false → (provider cfg p c && ok) = true → False := by
        intro hA ht
        unfold Good at hg; rw [hA] at hg; simp at hg
        unfold provider at ht
        rw [hg] at ht
        cases hk : c.kind
        · simp [hk] at ht
        · simp [hk] at ht
        · exact q3 hk
      have oth : ∀ q, q ≠ p → ∀ c, (s.procs q).pc ≠ .mkOpen c := by
        intro q hq c' hc
        exact hq (hi.uniq q p (by rw [hc]; rfl) hl)
      have k : ∀ t (s' : St), s'.nobj = s.nobj + 1 → s'.objs = upd s.objs s.nobj ⟨t, p, 0⟩ → Keeps s s' := by
        intro t s' e1 e2
        refine ⟨by omega, fun o ho => ?_⟩
        rw [e2, upd_ne _ _ (Nat.ne_of_lt ho)]
      have hty : A = false → ∀ o, ((upd s.objs s.nobj ⟨provider cfg p c && ok, p, 0⟩) o).typed = false := by
        intro hA o
        rw [upd_apply]; split
        · cases ht : (provider cfg p c && ok)
          · rfl
          · exact absurd (ty hA ht) id
        · exact h.ty hA o
      split
      · refine o_upd (p := p) h rfl (k _ _ rfl rfl) (.inr oth) hty ⟨fun r hr => right_keeps (k _ _ rfl rfl) (q1 r hr), pg _ (by rw [e]; rfl) _ rfl, ?_⟩ (.inl rfl)
        intro o ho; cases ho
        exact ⟨Nat.lt_succ_self _, by simp [goto]⟩
      · refine o_upd (p := p) h rfl (k _ _ rfl rfl) (.inr oth) hty ⟨fun r hr => right_keeps (k _ _ rfl rfl) (q1 r hr), pg _ (by rw [e]; rfl) _ rfl, ?_⟩ (.inl rfl)
        simp [goto, POpc]
  · rename_i c
    unfold POpc at q3; rw [e] at q3
    split
    · exact o_finish h
    · rename_i o e'
      exact gt' _ (pg _ (by rw [e]; rfl) _ rfl) (q3 o e')
  · rename_i c
    exact nm false _ (q2 c (by rw [e]; rfl))
  · rename_i c o
    unfold POpc at q3; rw [e] at q3
    exact o_mapInto h (q2 c (by rw [e]; rfl)) ⟨q3.1, rfl⟩ (.inr ⟨rfl, q3.2, rfl⟩)
  · rename_i c r
    unfold POpc at q3; rw [e] at q3
    dsimp only
    have k : ∀ (s' : St), s'.nobj = s.nobj → s'.objs = upd s.objs ((s.procs p).res r).obj
        { s.objs ((s.procs p).res r).obj with made := (s.objs ((s.procs p).res r).obj).made + 1 } → Keeps s s' := by
      intro s' e1 e2
      refine ⟨by omega, fun o ho => ?_⟩
      rw [e2, upd_apply]; split
      · rename_i e3; rw [e3]
      · rfl
    refine o_upd (p := p) h rfl (k _ rfl rfl) (.inl (.inl rfl)) ?_ (po_keeps (s := s) (k _ rfl rfl) ?_ (.inl (.inl rfl))) (.inl rfl)
    · intro hA o
      show ((upd s.objs _ _) o).typed = false
      rw [upd_apply]; split
      · exact h.ty hA _
      · exact h.ty hA o
    · exact ⟨q1, pg _ (by rw [e]; rfl) _ rfl, q3⟩
  · rename_i c r
    unfold POpc at q3; rw [e] at q3
    exact o_complete h q3.1 (fun _ => q3.2)

theorem o_res {cfg : Cfg} {A : Bool} {s : St} {p r : Nat} {n : Nat} {d : Bool} {g : Option Nat} (h : O cfg A s)
    (hn : n ≠ 0 → ((s.procs p).res r).refs ≠ 0) :
    O cfg A { s with procs := upd s.procs p { s.procs p with
      res := upd (s.procs p).res r { (s.procs p).res r with refs := n, dying := d }, reg := g } } := by
  have eo : ∀ q, ((upd (s.procs p).res r { (s.procs p).res r with refs := n, dying := d }) q).obj = ((s.procs p).res q).obj ∧
      ((upd (s.procs p).res r { (s.procs p).res r with refs := n, dying := d }) q).owner = ((s.procs p).res q).owner ∧
      ((upd (s.procs p).res r { (s.procs p).res r with refs := n, dying := d }) q).rw = ((s.procs p).res q).rw := by
    intro q; rw [upd_apply]; split
    · rename_i e; rw [e]; exact ⟨rfl, rfl, rfl⟩
    · exact ⟨rfl, rfl, rfl⟩
  refine o_proc (p := p) h rfl rfl rfl (.inl rfl) ⟨fun q hq => ?_, (h.po p).2.1, ?_⟩ (.inl rfl)
  · dsimp only at hq ⊢
    rw [(eo q).1, (eo q).2.1]
    rw [upd_apply] at hq
    split at hq
    · rename_i e; subst e; exact (h.po p).1 q (hn hq)
    · exact (h.po p).1 q hq
  · have := (h.po p).2.2
    unfold POpc at this ⊢
    dsimp only
    split <;> simp_all

theorem o_step {cfg : Cfg} {A : Bool} {s : St} {op : Op} (h : O cfg A s) (hi : Inv s) (ht : ∀ p, op ≠ .stale p)
    (hg : ∀ p c, op = .call p c → Good cfg A p c) : O cfg A (step cfg s op) := by
  cases op with
  | call p c => simp only [step]; split; exact h; exact o_begin h (hg p c rfl)
  | step p ok => simp only [step]; split; exact h; exact o_advance h hi
  | release p r =>
    simp only [step]; split
    · exact h
    · unfold giveUp; dsimp only
      split
      · exact h
      · split
        · exact o_res (n := 0) (d := !true) (g := none) h (fun a => absurd rfl a)
        · exact o_res (n := ((s.procs p).res r).refs - 1) (d := ((s.procs p).res r).dying) (g := (s.procs p).reg) h (fun _ => by assumption)
  | drop p r =>
    simp only [step]; split
    · exact h
    · unfold giveUp; dsimp only
      split
      · exact h
      · split
        · exact o_res (n := 0) (d := !false) (g := (s.procs p).reg) h (fun a => absurd rfl a)
        · exact o_res (n := ((s.procs p).res r).refs - 1) (d := ((s.procs p).res r).dying) (g := (s.procs p).reg) h (fun _ => by assumption)
  | destroy p r =>
    simp only [step]; split
    · exact h
    · unfold destroy; dsimp only
      split
      · exact o_res (n := ((s.procs p).res r).refs) (d := false) (g := none) h (fun a => a)
      · exact h
  | remove p =>
    simp only [step]; split
    · exact h
    · unfold remove; split
      · exact o_map h
      · exact o_proc (p := p) h rfl rfl rfl (.inr rfl) (h.po p) (.inl rfl)
  | stale p => exact absurd rfl (ht p)
  | kill p => simp only [step]; split; exact h; exact o_finish h

theorem o_init {cfg : Cfg} {A : Bool} : O cfg A init := by
  constructor
  · intro p; simp [init, Proc.init, PO, POpc, pcCall]
  · intro _ o; rfl
  · intro x hx; cases hx

theorem o_run {cfg : Cfg} {A : Bool} {s : St} {ops : List Op} (h : O cfg A s) (hi : Inv s) (ht : NoStale ops)
    (hg : ∀ p c, .call p c ∈ ops → Good cfg A p c) : O cfg A (run cfg s ops) := by
  induction ops generalizing s with
  | nil => exact h
  | cons op ops ih =>
    have h1 : ∀ p, op ≠ .stale p := fun p e => ht p (by simp [e])
    exact ih (o_step h hi h1 (fun p c e => hg p c (by simp [e]))) (inv_step hi h1) (fun p hp => ht p (by simp [hp]))
      (fun p c hp => hg p c (by simp [hp]))

/-! ### Writability -/

/-- All memory of the process is writable. -/
def PW (P : Proc) : Prop :=
  (∀ r, (P.res r).refs ≠ 0 → (P.res r).rw = true) ∧
  (∀ c, pcCall P.pc = some c → c.kind = .open → c.rw = true) ∧
  ∀ r, pcRes P.pc = some r → (P.res r).rw = true

structure W (p : Nat) (s : St) : Prop where
  pw : PW (s.procs p)
  log : ∀ x, x ∈ s.log → x.proc = p → ∀ g, x.got = some g → g.rw = true

theorem w_upd {s s' : St} {p : Nat} {P' : Proc} (h : W p s) (ep : s'.procs = upd s.procs p P') (hp : PW P')
    (hl : s'.log = s.log ∨ ∃ x, s'.log = x :: s.log ∧ ∀ g, x.got = some g → g.rw = true) : W p s' := by
  constructor
  · rw [ep, upd_self]; exact hp
  · intro x hx
    rcases hl with a | ⟨y, a, b⟩
    · rw [a] at hx; exact h.log x hx
    · rw [a] at hx
      rcases List.mem_cons.mp hx with c | c
      · subst c; exact fun _ => b
      · exact h.log x c

theorem pw_pc {P : Proc} (h : PW P) {pc : Pc} {m g : Option Nat} {w : Option Why} (h1 : ∀ c, pcCall pc = some c → c.kind = .open → c.rw = true)
    (h2 : ∀ r, pcRes pc = some r → (P.res r).rw = true) : PW { P with pc := pc, map := m, reg := g, over := w } := ⟨h.1, h1, h2⟩

theorem pw_idle {P : Proc} (h : PW P) {m g : Option Nat} {w : Option Why} : PW { P with pc := .idle, map := m, reg := g, over := w } :=
  pw_pc h (fun c hc => by simp [pcCall] at hc) (fun r hr => by simp [pcRes] at hr)

theorem w_null {s s' : St} {p : Nat} {P' : Proc} {c : Call} (h : W p s) (ep : s'.procs = upd s.procs p P') (hp : PW P')
    (hl : s'.log = ⟨p, c, none⟩ :: s.log) : W p s' := w_upd h ep hp (.inr ⟨_, hl, fun g hg => by cases hg⟩)

theorem w_give {s : St} {p : Nat} {c : Call} {r : Nat} {b : Bool} (h : W p s) (hr : ((s.procs p).res r).rw = true) :
    W p (give { s with lock := b } p c r) := by
  refine w_upd h rfl ⟨fun q hq => ?_, fun c hc => (by simp [pcCall] at hc), fun r hr => (by simp [pcRes] at hr)⟩ (.inr ⟨_, rfl, fun g hg => ?_⟩)
  · dsimp only at hq ⊢
    by_cases e : q = r
    · subst e; rw [upd_self]; exact hr
    · rw [upd_ne _ _ e] at *; exact h.pw.1 q hq
  · cases hg; exact hr

theorem w_begin {cfg : Cfg} {s : St} {p : Nat} {c : Call} (h : W p s) (hc : c.kind = .open → c.rw = true) : W p (begin cfg s p c) := by
  have hm : W p { s with procs := upd s.procs p { s.procs p with map := none } } := w_upd h rfl h.pw (.inl rfl)
  have gt : ∀ pc, pcCall pc = some c → pcRes pc = none → W p (goto { s with procs := upd s.procs p { s.procs p with map := none } } p pc) := by
    intro pc h1 h2
    exact w_upd hm rfl (pw_pc hm.pw (fun c' h3 => by rw [h1] at h3; cases h3; exact hc) (fun r hr => by rw [h2] at hr; cases hr)) (.inl rfl)
  unfold begin
  dsimp only
  split
  · rename_i r e
    split
    · exact w_null h rfl (pw_idle h.pw) rfl
    · split
      · exact w_give (b := s.lock) h (h.pw.1 r (found_refs e))
      · exact w_null h rfl (pw_idle h.pw) rfl
  · split
    · exact gt _ rfl rfl
    · split
      · exact w_null hm rfl (pw_idle hm.pw) rfl
      · exact gt _ rfl rfl
    · split
      · exact w_null hm rfl (pw_idle hm.pw) rfl
      · exact gt _ rfl rfl

theorem w_mapInto {s : St} {p o w : Nat} {rw : Bool} {next : Nat → Pc} (h : W p s) (hr : rw = true)
    (h1 : ∀ r c, pcCall (next r) = some c → c.kind = .open → c.rw = true) (h2 : ∀ r, pcRes (next r) = some r) :
    W p (mapInto s p o w rw next) := by
  unfold mapInto
  dsimp only
  split
  · exact w_upd h rfl h.pw (.inl rfl)
  · refine w_upd h rfl ⟨fun q hq => ?_, h1 _, fun q hq => ?_⟩ (.inl rfl)
    · dsimp only at hq ⊢
      by_cases e : q = (s.procs p).nres
      · subst e; rw [upd_self] at hq; exact absurd rfl hq
      · rw [upd_ne _ _ e] at *; exact h.pw.1 q hq
    · dsimp only at hq ⊢; rw [h2] at hq; cases hq; rw [upd_self]; exact hr

theorem w_advance {cfg : Cfg} {s : St} {p : Nat} {ok : Bool} (h : W p s) : W p (advance cfg s p ok) := by
  have pg : ∀ c, pcCall (s.procs p).pc = some c → ∀ pc, pcCall pc = some c → ∀ c', pcCall pc = some c' → c'.kind = .open → c'.rw = true := by
    intro c h1 pc h2 c' h3; rw [h2] at h3; cases h3; exact h.pw.2.1 c h1
  have gt : ∀ (s' : St) c pc, s'.procs = s.procs → s'.log = s.log → pcCall (s.procs p).pc = some c → pcCall pc = some c →
      pcRes pc = none → W p (goto s' p pc) := by
    intro s' c pc e1 e2 h1 h2 h3
    exact w_upd h (by show upd s'.procs p _ = _; rw [e1]) (pw_pc h.pw (pg c h1 pc h2) (fun r hr => by rw [h3] at hr; cases hr)) (.inl e2)
  have fl : ∀ (b : Bool) c, W p (fail { s with lock := b } p c) := fun b c => w_null h rfl (pw_idle h.pw) rfl
  have nm : ∀ (b : Bool) c, pcCall (s.procs p).pc = some c → W p (notMade { s with lock := b } p c) := by
    intro b c hc; unfold notMade; split
    · exact gt _ c _ rfl rfl hc rfl rfl
    · exact fl b c
  have fi : ∀ w, W p (finish s p w) := fun w => w_upd h rfl h.pw (.inl rfl)
  have cp : ∀ c r, pcRes (s.procs p).pc = some r → W p (complete cfg { s with lock := false } p c r) := by
    intro c r hr; unfold complete; split
    · exact w_give h (h.pw.2.2 r hr)
    · exact w_null h rfl (pw_idle h.pw) rfl
  unfold advance
  split <;> rename_i e
  · exact h
  · split
    · exact gt _ _ _ rfl rfl (by rw [e]; rfl) rfl rfl
    · exact gt _ _ _ rfl rfl (by rw [e]; rfl) rfl rfl
  · split
    · split
      · exact gt _ _ _ rfl rfl (by rw [e]; rfl) rfl rfl
      · exact fi _
    · exact gt _ _ _ rfl rfl (by rw [e]; rfl) rfl rfl
  · split
    · exact gt _ _ _ rfl rfl (by rw [e]; rfl) rfl rfl
    · exact gt _ _ _ rfl rfl (by rw [e]; rfl) rfl rfl
  · dsimp only; split
    · exact gt _ _ _ rfl rfl (by rw [e]; rfl) rfl rfl
    · exact fl _ _
  · rename_i c o w
    refine w_mapInto h ?_ (fun r c' hc' => ?_) (fun _ => rfl)
    · have := h.pw.2.1 c (by rw [e]; rfl)
      cases hk : c.kind <;> simp_all
    · exact pg c (by rw [e]; rfl) (.opEnd c r) rfl c' hc'
  · exact cp _ _ (by rw [e]; rfl)
  · split
    · exact nm s.lock _ (by rw [e]; rfl)
    · exact gt _ _ _ rfl rfl (by rw [e]; rfl) rfl rfl
  · split
    · exact gt _ _ _ rfl rfl (by rw [e]; rfl) rfl rfl
    · dsimp only; split
      · exact gt _ _ _ rfl rfl (by rw [e]; rfl) rfl rfl
      · exact gt _ _ _ rfl rfl (by rw [e]; rfl) rfl rfl
  · split
    · exact fi _
    · exact gt _ _ _ rfl rfl (by rw [e]; rfl) rfl rfl
  · exact nm false _ (by rw [e]; rfl)
  · rename_i c o
    exact w_mapInto h rfl (fun r c' hc' => pg c (by rw [e]; rfl) (.mkInit c r) rfl c' hc') (fun _ => rfl)
  · rename_i c r
    dsimp only
    exact w_upd h rfl (pw_pc h.pw (pg c (by rw [e]; rfl) _ rfl) (fun q hq => by simp [pcRes] at hq; subst hq; exact h.pw.2.2 _ (by rw [e]; rfl))) (.inl rfl)
  · exact cp _ _ (by rw [e]; rfl)

theorem w_res {s : St} {p r : Nat} {n : Nat} {d : Bool} {g : Option Nat} (h : W p s)
    (hn : n ≠ 0 → ((s.procs p).res r).refs ≠ 0) :
    W p { s with procs := upd s.procs p { s.procs p with
      res := upd (s.procs p).res r { (s.procs p).res r with refs := n, dying := d }, reg := g } } := by
  have eo : ∀ q, ((upd (s.procs p).res r { (s.procs p).res r with refs := n, dying := d }) q).rw = ((s.procs p).res q).rw := by
    intro q; rw [upd_apply]; split
    · rename_i e; rw [e]
    · rfl
  refine w_upd h rfl ⟨fun q hq => ?_, h.pw.2.1, fun q hq => ?_⟩ (.inl rfl)
  · dsimp only at hq ⊢
    rw [eo q]
    rw [upd_apply] at hq
    split at hq
    · rename_i e; subst e; exact h.pw.1 q (hn hq)
    · exact h.pw.1 q hq
  · dsimp only at hq ⊢; rw [eo]; exact h.pw.2.2 q hq

theorem w_step {cfg : Cfg} {s : St} {op : Op} {p : Nat} (h : W p s) (hc : ∀ c, op = .call p c → c.kind = .open → c.rw = true) :
    W p (step cfg s op) := by
  by_cases e : p = op.proc
  case neg =>
    constructor
    · rw [step_other e]; exact h.pw
    · intro x hx hp
      rcases log_step (cfg := cfg) (s := s) (op := op) with a | ⟨c, g, a⟩
      · rw [a] at hx; exact h.log x hx hp
      · rw [a] at hx
        rcases List.mem_cons.mp hx with b | b
        · subst b; exact absurd hp.symm e
        · exact h.log x b hp
  cases op with
  | call q c =>
    have e : p = q := e
    subst e
    simp only [step]; split; exact h; exact w_begin h (hc c rfl)
  | step q ok =>
    have e : p = q := e
    subst e
    simp only [step]; split; exact h; exact w_advance h
  | release q r =>
    have e : p = q := e
    subst e
    simp only [step]; split
    · exact h
    · unfold giveUp; dsimp only
      split
      · exact h
      · split
        · exact w_res (n := 0) (d := !true) (g := none) h (fun a => absurd rfl a)
        · exact w_res (n := ((s.procs p).res r).refs - 1) (d := ((s.procs p).res r).dying) (g := (s.procs p).reg) h (fun _ => by assumption)
  | drop q r =>
    have e : p = q := e
    subst e
    simp only [step]; split
    · exact h
    · unfold giveUp; dsimp only
      split
      · exact h
      · split
        · exact w_res (n := 0) (d := !false) (g := (s.procs p).reg) h (fun a => absurd rfl a)
        · exact w_res (n := ((s.procs p).res r).refs - 1) (d := ((s.procs p).res r).dying) (g := (s.procs p).reg) h (fun _ => by assumption)
  | destroy q r =>
    have e : p = q := e
    subst e
    simp only [step]; split
    · exact h
    · unfold destroy; dsimp only
      split
      · exact w_res (n := ((s.procs p).res r).refs) (d := false) (g := none) h (fun a => a)
      · exact h
  | remove q =>
    have e : p = q := e
    subst e
    simp only [step]; split
    · exact h
    · unfold remove; split
      · exact w_upd h rfl h.pw (.inl rfl)
      · exact w_upd h rfl h.pw (.inl rfl)
  | stale q =>
    have e : p = q := e
    subst e
    simp only [step]; split
    · exact h
    · unfold stale; dsimp only
      repeat' split
      all_goals first | exact h | exact w_upd h rfl h.pw (.inl rfl)
  | kill q =>
    have e : p = q := e
    subst e
    simp only [step]; split; exact h; exact w_upd h rfl h.pw (.inl rfl)

theorem w_run {cfg : Cfg} {s : St} {ops : List Op} {p : Nat} (h : W p s)
    (hc : ∀ c, .call p c ∈ ops → c.kind = .open → c.rw = true) : W p (run cfg s ops) := by
  induction ops generalizing s with
  | nil => exact h
  | cons op ops ih =>
    exact ih (w_step h (fun c e => hc c (by simp [e]))) (fun c hp => hc c (by simp [hp]))

theorem w_init {p : Nat} : W p init := by
  refine ⟨⟨?_, ?_, ?_⟩, fun x hx => by cases hx⟩ <;> simp [init, Proc.init, pcCall, pcRes]

/-! ### A call that nothing disturbs -/

theorem alone_open {cfg : Cfg} {s : St} {p o : Nat} {c : Call} {ok : Bool} (h1 : (s.procs p).over = none) (h2 : (s.procs p).pc = .idle)
    (h3 : (s.procs p).found = none) (h4 : (s.procs p).reg = none) (h5 : s.lock = false) (h6 : s.name = some o)
    (h7 : c.kind ≠ .create) (h8 : c.kind = .createOrOpen → c.typed = true → cfg.prov p = true)
    (h9 : admits cfg p c (ownerOf cfg p c (s.objs o)) = true) :
    let s' := run cfg s (.call p c :: List.replicate 4 (.step p ok))
    s'.log = ⟨p, c, some ⟨(s.procs p).nres, o, c.kind != .open || c.rw⟩⟩ :: s.log ∧ (s'.procs p).pc = .idle ∧ s'.lock = false ∧
      s'.name = s.name ∧ s'.objs = s.objs ∧ (s'.procs p).over = none := by
  have e1 : run cfg s [.call p c] = goto { s with procs := upd s.procs p { s.procs p with map := none } } p (.opLock c false) := by
    cases hk : c.kind with
    | create => exact absurd hk h7
    | «open» => simp [run, step, begin, h1, h2, h3, hk]
    | createOrOpen =>
      have : ¬ (c.typed = true ∧ cfg.prov p = false) := by
        intro a; rw [h8 hk a.1] at a; cases a.2
      simp [run, step, begin, h1, h2, h3, hk, this]
  have e2 : (.call p c :: List.replicate 4 (.step p ok) : List Op) = [.call p c] ++ [.step p ok, .step p ok, .step p ok, .step p ok] := rfl
  rw [e2, run_append, e1]
  simp [run, step, advance, goto, h1, h4, h5, h6, mapInto, complete, give, h9]

theorem alone_make {cfg : Cfg} {s : St} {p : Nat} {c : Call} {ok : Bool} (h1 : (s.procs p).over = none) (h2 : (s.procs p).pc = .mkLock c)
    (h4 : (s.procs p).reg = none) (h5 : s.lock = false) (h6 : s.name = none)
    (h9 : admits cfg p c (cfg.uid p) = true) :
    ∃ n, n ≤ 6 ∧ ∀ s', s' = run cfg s (List.replicate n (.step p ok)) →
      s'.log = ⟨p, c, some ⟨(s.procs p).nres, s.nobj, true⟩⟩ :: s.log ∧ (s'.procs p).pc = .idle ∧ s'.lock = false ∧
      s'.name = some s.nobj ∧ s'.objs s.nobj = ⟨provider cfg p c && ok, p, 1⟩ ∧ (s'.procs p).over = none := by
  cases ht : (provider cfg p c && ok)
  · refine ⟨5, by decide, ?_⟩
    intro s' e
    subst e
    simp [run, List.replicate, step, advance, goto, h1, h2, h4, h5, h6, ht, mapInto, complete, give, h9]
  · refine ⟨6, by decide, ?_⟩
    intro s' e
    subst e
    simp [run, List.replicate, step, advance, goto, h1, h2, h4, h5, h6, ht, mapInto, complete, give, h9]

theorem alone_create {cfg : Cfg} {s : St} {p : Nat} {c : Call} {ok : Bool} (h1 : (s.procs p).over = none) (h2 : (s.procs p).pc = .idle)
    (h3 : (s.procs p).found = none) (h4 : (s.procs p).reg = none) (h5 : s.lock = false) (h6 : s.name = none)
    (h7 : c.kind ≠ .open) (h8 : c.typed = true → cfg.prov p = true) :
    ∃ n, n ≤ 9 ∧ ∀ s', s' = run cfg s (.call p c :: List.replicate n (.step p ok)) →
      s'.log = ⟨p, c, some ⟨(s.procs p).nres, s.nobj, true⟩⟩ :: s.log ∧ (s'.procs p).pc = .idle ∧ s'.lock = false ∧
      s'.name = some s.nobj ∧ s'.objs s.nobj = ⟨provider cfg p c && ok, p, 1⟩ ∧ (s'.procs p).over = none := by
  have ha : admits cfg p c (cfg.uid p) = true := admits_iff.mpr (fun _ _ _ => .inl rfl)
  have hn : ¬ (c.typed = true ∧ cfg.prov p = false) := by
    intro a; rw [h8 a.1] at a; cases a.2
  cases hk : c.kind with
  | «open» => exact absurd hk h7
  | create =>
    obtain ⟨s1, e1⟩ : ∃ x, x = run cfg s [.call p c] := ⟨_, rfl⟩
    have e2 : s1 = goto { s with procs := upd s.procs p { s.procs p with map := none } } p (.mkLock c) := by
      rw [e1]; simp [run, step, begin, h1, h2, h3, hk, hn]
    obtain ⟨n, hn, h⟩ := alone_make (cfg := cfg) (s := s1) (p := p) (c := c) (ok := ok) (by rw [e2]; simp [goto, h1]) (by rw [e2]; simp [goto])
      (by rw [e2]; simp [goto, h4]) (by rw [e2]; exact h5) (by rw [e2]; exact h6) ha
    refine ⟨n, by omega, fun s' es => ?_⟩
    have := h s' (by rw [es, e1]; rfl)
    rw [e2] at this
    simpa [goto] using this
  | createOrOpen =>
    obtain ⟨s1, e1⟩ : ∃ x, x = run cfg s [.call p c, .step p ok, .step p ok, .step p ok] := ⟨_, rfl⟩
    have e2 : s1 = { s with lock := false, procs := upd s.procs p { s.procs p with map := none, pc := .mkLock c } } := by
      rw [e1]; simp [run, step, begin, h1, h2, h3, hk, hn, advance, goto, h5, h6]
      funext q; simp only [upd_apply]; split <;> rfl
    obtain ⟨n, hn, h⟩ := alone_make (cfg := cfg) (s := s1) (p := p) (c := c) (ok := ok) (by rw [e2]; simp [h1]) (by rw [e2]; simp)
      (by rw [e2]; simp [h4]) (by rw [e2]) (by rw [e2]; exact h6) ha
    refine ⟨3 + n, by omega, fun s' es => ?_⟩
    have er : (.call p c :: List.replicate (3 + n) (.step p ok) : List Op) =
        [.call p c, .step p ok, .step p ok, .step p ok] ++ List.replicate n (.step p ok) := by
      rw [Nat.add_comm]; rfl
    have := h s' (by rw [es, er, run_append, e1])
    rw [e2] at this
    simpa using this

/-! ### How processes end -/

theorem Fresh.found {s : St} {p : Nat} (h : Fresh s p) : (s.procs p).found = none := by
  unfold Proc.found; split
  · rfl
  · rw [if_pos (Decidable.not_not.mp (h.2 _))]

theorem LeftBehind.locks {s : St} {q : Nat} (h : LeftBehind s q) : Verif.ShmFactory.locks (s.procs q).pc = true := by
  have := h.2
  revert this
  cases (s.procs q).pc <;> simp [Verif.ShmFactory.locks]


theorem over_advance {cfg : Cfg} {s : St} {p : Nat} {ok : Bool} {w : Why} (h0 : (s.procs p).over = none)
    (hm : ∀ c, (s.procs p).pc = .mkOpen c → s.name ≠ none) (h : ((advance cfg s p ok).procs p).over = some w) :
    w = .timeout ∨ w = .registered := by
  revert h
  unfold advance notMade complete mapInto
  dsimp only
  repeat' split
  all_goals intro h
  all_goals first
    | (simp [goto, finish, fail, give, h0] at h; done)
    | (simp [goto, finish, fail, give, h0] at h; subst h; first | exact .inl rfl | exact .inr rfl)
    | (exfalso; rename_i e1 _ e2; exact hm _ e1 e2)

theorem over_begin {cfg : Cfg} {s : St} {p : Nat} {c : Call} (h0 : (s.procs p).over = none) : ((begin cfg s p c).procs p).over = none := by
  unfold begin
  dsimp only
  repeat' split
  all_goals simp [goto, refuse, give, h0]

theorem ends_init {p : Nat} : ∀ w, (init.procs p).over = some w → w = Why.killed ∨ w = .timeout := by
  intro w h; cases h

theorem ends_run {cfg : Cfg} {ops : List Op} {p : Nat} (ht : NoRemoval ops) (hd : ∀ r, .drop p r ∉ ops)
    (h0 : ∀ w, (init.procs p).over = some w → w = Why.killed ∨ w = .timeout) :
    ∀ w, ((run cfg init ops).procs p).over = some w → w = .killed ∨ w = .timeout := by
  have hj : J (fun _ => True) init.log init := j_fresh (fun p _ => ⟨rfl, fun _ => rfl⟩)
  have hk : KP (init.procs p) := kp_init
  revert hj hk h0
  generalize init.log = l0
  generalize init = s
  intro h0 hj hk
  induction ops generalizing s with
  | nil => exact h0
  | cons op ops ih =>
    have t1 : ∀ q, op ≠ .stale q := fun q e => (ht q).1 (by simp [e])
    have t2 : ∀ q, op ≠ .remove q := fun q e => (ht q).2 (by simp [e])
    have t3 : ∀ r, op ≠ .drop p r := fun r e => hd r (by simp [e])
    have hk' : KP ((step cfg s op).procs p) := kp_step hk (t2 p) t3
    refine ih (fun q => ⟨fun hp => (ht q).1 (by simp [hp]), fun hp => (ht q).2 (by simp [hp])⟩) (fun r hp => hd r (by simp [hp]))
      (step cfg s op) ?_ (j_step hj t1 t2) hk'
    intro w hw
    by_cases hov : (s.procs p).over = none
    case neg => rw [over_step hov] at hw; exact h0 w hw
    by_cases e : p = op.proc
    case neg => rw [step_other e] at hw; exact h0 w hw
    cases op with
    | call q c =>
      have e : p = q := e
      subst e
      simp only [step] at hw; split at hw
      · exact h0 w hw
      · rw [over_begin hov] at hw; cases hw
    | step q ok =>
      have e : p = q := e
      subst e
      simp only [step] at hw hk'
      rw [hov] at hw hk'
      simp at hw hk'
      rcases over_advance hov (fun c hc => by have := (hj.pj p trivial).2; rw [hc] at this; exact this) hw with a | a
      · exact .inr a
      · rw [a] at hw; exact absurd hw hk'.ov
    | release q r =>
      have e : p = q := e
      subst e
      simp only [step] at hw; split at hw
      · exact h0 w hw
      · unfold giveUp at hw; dsimp only at hw
        repeat' split at hw
        all_goals simp [hov] at hw
    | drop q r => have e : p = q := e; subst e; exact absurd rfl (t3 r)
    | destroy q r =>
      have e : p = q := e
      subst e
      simp only [step] at hw; split at hw
      · exact h0 w hw
      · unfold destroy at hw; dsimp only at hw
        split at hw <;> simp [hov] at hw
    | remove q => exact absurd rfl (t2 q)
    | stale q => exact absurd rfl (t1 q)
    | kill q =>
      have e : p = q := e
      subst e
      simp only [step] at hw; split at hw
      · exact h0 w hw
      · simp [finish] at hw; exact .inl hw.symm

end Verif.ShmFactory
