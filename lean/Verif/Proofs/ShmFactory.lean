import Verif.Spec.ShmFactory
/-! Proofs about the shared memory factory. -/
namespace Verif.ShmFactory

/-- The call holds the lock file. -/
def locks : Pc → Bool
  | .opShm .. | .opNone .. | .opMap .. | .opEnd .. | .mkShm .. | .mkOpen .. | .mkBusy .. | .mkMap .. | .mkInit .. | .mkEnd .. => true
  | _ => false

/-- The call is making object `o`. -/
def Making (P : Proc) (o : Nat) : Prop :=
  match P.pc with
  | .mkOpen _ => True
  | .mkMap _ o' => o' = o
  | .mkInit _ r => (P.res r).obj = o
  | _ => False

def Fine (s : St) (o : Nat) : Prop := o < s.nobj ∧ (s.objs o).made = 1
def Raw (s : St) (o : Nat) : Prop := o < s.nobj ∧ (s.objs o).made = 0

def PcOk (s : St) (P : Proc) : Prop :=
  match P.pc with
  | .opMap _ o _ => Fine s o
  | .opEnd _ r => r < P.nres ∧ Fine s (P.res r).obj
  | .mkOpen _ => ∀ o, s.name = some o → Raw s o
  | .mkMap _ o => Raw s o
  | .mkInit _ r => r < P.nres ∧ Raw s (P.res r).obj
  | .mkEnd _ r => r < P.nres ∧ Fine s (P.res r).obj
  | _ => True

def ResOk (s : St) (P : Proc) : Prop := ∀ r, (P.res r).refs ≠ 0 → r < P.nres ∧ Fine s (P.res r).obj

structure Inv (s : St) : Prop where
  hold : ∀ p, locks (s.procs p).pc = true → s.lock = true
  uniq : ∀ p q, locks (s.procs p).pc = true → locks (s.procs q).pc = true → p = q
  own : s.lock = true → ∃ p, locks (s.procs p).pc = true
  named : ∀ o, s.name = some o → o < s.nobj ∧ ((s.objs o).made = 1 ∨ ∃ p, Making (s.procs p) o)
  pc : ∀ p, PcOk s (s.procs p)
  res : ∀ p, ResOk s (s.procs p)
  once : ∀ o, (s.objs o).made ≤ 1
  log : ∀ x, x ∈ s.log → ∀ g, x.got = some g → Fine s g.obj

theorem inv_init : Inv init := by
  constructor <;> simp [init, Proc.init, locks, PcOk, ResOk]

theorem making_locks {P : Proc} {o : Nat} (h : Making P o) : locks P.pc = true := by
  unfold Making at h; unfold locks; split at h <;> simp_all

theorem pcOk_free {s : St} {P : Proc} (h : locks P.pc = false) : PcOk s P := by
  unfold PcOk; unfold locks at h; split <;> simp_all

theorem pcOk_same {s s' : St} {P : Proc} (h : PcOk s P) (e1 : s'.objs = s.objs) (e2 : s'.nobj = s.nobj)
    (e3 : s'.name = s.name ∨ s'.name = none) : PcOk s' P := by
  unfold PcOk at *
  simp only [Fine, Raw, e1, e2] at *
  split <;> simp_all
  rcases e3 with e | e <;> simp_all

theorem inv_upd {s s' : St} {p : Nat} {P' : Proc} (h : Inv s) (ep : s'.procs = upd s.procs p P')
    (mono : ∀ o, Fine s o → Fine s' o) (hle : ∀ o, (s'.objs o).made ≤ 1)
    (hoth : (s'.objs = s.objs ∧ s'.nobj = s.nobj ∧ (s'.name = s.name ∨ s'.name = none)) ∨ locks (s.procs p).pc = true)
    (hlock : (s'.lock = s.lock ∧ locks P'.pc = locks (s.procs p).pc) ∨
      (s.lock = false ∧ s'.lock = true ∧ locks P'.pc = true) ∨
      (locks (s.procs p).pc = true ∧ s'.lock = false ∧ locks P'.pc = false))
    (hp : PcOk s' P') (hr : ResOk s' P')
    (hn : ∀ o, s'.name = some o → (o < s'.nobj ∧ ((s'.objs o).made = 1 ∨ Making P' o)) ∨
      (s.name = some o ∧ s'.objs = s.objs ∧ s'.nobj = s.nobj ∧ (Making (s.procs p) o → Making P' o)))
    (hl : ∀ x, x ∈ s'.log → x ∈ s.log ∨ ∀ g, x.got = some g → Fine s' g.obj) : Inv s' := by
  have eq : ∀ q, q ≠ p → s'.procs q = s.procs q := fun q hq => by rw [ep, upd_ne _ _ hq]
  have es : s'.procs p = P' := by rw [ep, upd_self]
  constructor
  · intro q hq
    by_cases e : q = p
    · subst e; rw [es] at hq
      rcases hlock with ⟨a, b⟩ | ⟨a, b, c⟩ | ⟨a, b, c⟩
      · rw [a]; exact h.hold q (by rw [← b]; exact hq)
      · exact b
      · rw [c] at hq; cases hq
    · rw [eq q e] at hq
      rcases hlock with ⟨a, b⟩ | ⟨a, b, c⟩ | ⟨a, b, c⟩
      · rw [a]; exact h.hold q hq
      · exact b
      · exact absurd (h.uniq q p hq a) e
  · have key : ∀ q q', q ≠ p → locks (s'.procs q).pc = true → locks (s'.procs q').pc = true → q = q' := by
      intro q q' e h1 h2
      rw [eq q e] at h1
      by_cases e' : q' = p
      · subst e'; rw [es] at h2
        rcases hlock with ⟨a, b⟩ | ⟨a, b, c⟩ | ⟨a, b, c⟩
        · exact h.uniq q q' h1 (by rw [← b]; exact h2)
        · have := h.hold q h1; rw [a] at this; cases this
        · rw [c] at h2; cases h2
      · rw [eq q' e'] at h2; exact h.uniq q q' h1 h2
    intro q q' h1 h2
    by_cases e : q = p
    · by_cases e' : q' = p
      · rw [e, e']
      · exact (key q' q e' h2 h1).symm
    · exact key q q' e h1 h2
  · intro hl
    rcases hlock with ⟨a, b⟩ | ⟨a, b, c⟩ | ⟨a, b, c⟩
    · rw [a] at hl
      obtain ⟨q, hq⟩ := h.own hl
      by_cases e : q = p
      · subst e; exact ⟨q, by rw [es, b]; exact hq⟩
      · exact ⟨q, by rw [eq q e]; exact hq⟩
    · exact ⟨p, by rw [es]; exact c⟩
    · rw [b] at hl; cases hl
  · intro o ho
    rcases hn o ho with ⟨a, b | b⟩ | ⟨a, e1, e2, b⟩
    · exact ⟨a, .inl b⟩
    · exact ⟨a, .inr ⟨p, by rw [es]; exact b⟩⟩
    · obtain ⟨c, d⟩ := h.named o a
      refine ⟨by rw [e2]; exact c, ?_⟩
      rcases d with d | ⟨q, d⟩
      · exact .inl (by rw [e1]; exact d)
      · right
        by_cases e : q = p
        · subst e; exact ⟨q, by rw [es]; exact b d⟩
        · exact ⟨q, by rw [eq q e]; exact d⟩
  · intro q
    by_cases e : q = p
    · subst e; rw [es]; exact hp
    · rw [eq q e]
      rcases hoth with ⟨e1, e2, e3⟩ | e1
      · exact pcOk_same (h.pc q) e1 e2 e3
      · apply pcOk_free
        cases hq : locks (s.procs q).pc
        · rfl
        · exact absurd (h.uniq q p hq e1) e
  · intro q
    by_cases e : q = p
    · subst e; rw [es]; exact hr
    · rw [eq q e]; intro r hr'
      exact ⟨(h.res q r hr').1, mono _ (h.res q r hr').2⟩
  · exact hle
  · intro x hx g hg
    rcases hl x hx with a | a
    · exact mono _ (h.log x a g hg)
    · exact a g hg

/-- A step that changes only the process (and gives returns): objects, name and lock file stay. -/
theorem inv_proc {s : St} {p : Nat} {P' : Proc} {l : List Ret} (h : Inv s) (hlock : locks P'.pc = locks (s.procs p).pc)
    (hp : PcOk s P') (hr : ResOk s P') (hm : ∀ o, Making (s.procs p) o → Making P' o)
    (hl : ∀ x, x ∈ l → x ∈ s.log ∨ ∀ g, x.got = some g → Fine s g.obj) :
    Inv { s with procs := upd s.procs p P', log := l } :=
  inv_upd (p := p) (P' := P') h rfl (fun _ a => a) h.once (.inl ⟨rfl, rfl, .inl rfl⟩) (.inl ⟨rfl, hlock⟩) hp hr
    (fun _ ho => .inr ⟨ho, rfl, rfl, hm _⟩) hl

/-- A step that gives back the lock file. -/
theorem inv_unlock {s : St} {p : Nat} {P' : Proc} {l : List Ret} (h : Inv s) (h1 : locks (s.procs p).pc = true)
    (h2 : locks P'.pc = false) (hm : ∀ o, ¬ Making (s.procs p) o) (hr : ResOk s P')
    (hl : ∀ x, x ∈ l → x ∈ s.log ∨ ∀ g, x.got = some g → Fine s g.obj) :
    Inv { s with lock := false, procs := upd s.procs p P', log := l } :=
  inv_upd (p := p) (P' := P') h rfl (fun _ a => a) h.once (.inl ⟨rfl, rfl, .inl rfl⟩) (.inr (.inr ⟨h1, rfl, h2⟩))
    (pcOk_free h2) hr (fun o ho => .inr ⟨ho, rfl, rfl, fun a => absurd a (hm o)⟩) hl

/-- A step that takes the lock file. -/
theorem inv_take {s : St} {p : Nat} {P' : Proc} (h : Inv s) (h0 : s.lock = false)
    (h2 : locks P'.pc = true) (hp : PcOk s P') (hr : ResOk s P') :
    Inv { s with lock := true, procs := upd s.procs p P' } := by
  have h1 : locks (s.procs p).pc = false := by
    cases e : locks (s.procs p).pc
    · rfl
    · have := h.hold p e; rw [h0] at this; cases this
  refine inv_upd (p := p) (P' := P') h rfl (fun _ a => a) h.once (.inl ⟨rfl, rfl, .inl rfl⟩) (.inr (.inl ⟨h0, rfl, h2⟩)) hp hr
    (fun o ho => .inr ⟨ho, rfl, rfl, fun a => ?_⟩) (fun x hx => .inl hx)
  rw [making_locks a] at h1; cases h1

theorem resOk_pc {s : St} {P P' : Proc} (h : ResOk s P) (e1 : P'.res = P.res) (e2 : P'.nres = P.nres) : ResOk s P' := by
  intro r hr; rw [e1] at *; rw [e2]; exact h r hr

theorem found_refs {P : Proc} {r : Nat} (h : P.found = some r) : (P.res r).refs ≠ 0 := by
  unfold Proc.found at h
  split at h
  · cases h
  · split at h
    · cases h
    · cases h; assumption

theorem resOk_give {s : St} {P : Proc} {r n : Nat} (h : ResOk s P) (h1 : r < P.nres) (h2 : Fine s (P.res r).obj)
    {P' : Proc} (e1 : P'.res = upd P.res r { P.res r with refs := n }) (e2 : P'.nres = P.nres) : ResOk s P' := by
  intro q hq
  rw [e1] at *; rw [e2]
  by_cases e : q = r
  · subst e; rw [upd_self]; exact ⟨h1, h2⟩
  · rw [upd_ne _ _ e] at *; exact h q hq

theorem inv_goto {s : St} {p : Nat} {pc : Pc} (h : Inv s) (hl : locks pc = locks (s.procs p).pc)
    (hp : PcOk s { s.procs p with pc := pc }) (hm : ∀ o, Making (s.procs p) o → Making { s.procs p with pc := pc } o) :
    Inv (goto s p pc) :=
  inv_proc (l := s.log) h hl hp (resOk_pc (h.res p) rfl rfl) hm (fun _ hx => .inl hx)

theorem inv_goto_free {s : St} {p : Nat} {pc : Pc} (h : Inv s) (h1 : locks pc = false) (h2 : locks (s.procs p).pc = false) :
    Inv (goto s p pc) :=
  inv_goto h (by rw [h1, h2]) (pcOk_free h1) (fun o a => by rw [making_locks a] at h2; cases h2)

theorem inv_finish {s : St} {p : Nat} {w : Why} (h : Inv s) : Inv (finish s p w) :=
  inv_proc (l := s.log) h rfl (h.pc p) (resOk_pc (h.res p) rfl rfl) (fun _ a => a) (fun _ hx => .inl hx)

theorem inv_refuse {s : St} {p : Nat} {c : Call} (h : Inv s) (h2 : locks (s.procs p).pc = false) : Inv (refuse s p c) := by
  refine inv_proc h (by rw [h2]; rfl) (pcOk_free rfl) (resOk_pc (h.res p) rfl rfl)
    (fun o a => by rw [making_locks a] at h2; cases h2) (fun x hx => ?_)
  rcases List.mem_cons.mp hx with e | e
  · exact .inr (by intro g hg; rw [e] at hg; cases hg)
  · exact .inl e

theorem inv_fail {s : St} {p : Nat} {c : Call} (h : Inv s) (h2 : locks (s.procs p).pc = false) : Inv (fail s p c) := by
  refine inv_proc h (by rw [h2]; rfl) (pcOk_free rfl) (resOk_pc (h.res p) rfl rfl)
    (fun o a => by rw [making_locks a] at h2; cases h2) (fun x hx => ?_)
  rcases List.mem_cons.mp hx with e | e
  · exact .inr (by intro g hg; rw [e] at hg; cases hg)
  · exact .inl e

theorem inv_give {s : St} {p : Nat} {c : Call} {r : Nat} (h : Inv s) (h2 : locks (s.procs p).pc = false)
    (h3 : r < (s.procs p).nres) (h4 : Fine s ((s.procs p).res r).obj) : Inv (give s p c r) := by
  refine inv_proc h (by rw [h2]; rfl) (pcOk_free rfl) (resOk_give (h.res p) h3 h4 rfl rfl)
    (fun o a => by rw [making_locks a] at h2; cases h2) (fun x hx => ?_)
  rcases List.mem_cons.mp hx with e | e
  · exact .inr (by intro g hg; rw [e] at hg; cases hg; exact h4)
  · exact .inl e

theorem inv_map {s : St} {p : Nat} (h : Inv s) (m : Option Nat) :
    Inv { s with procs := upd s.procs p { s.procs p with map := m } } :=
  inv_proc (l := s.log) h rfl (h.pc p) (resOk_pc (h.res p) rfl rfl) (fun _ a => a) (fun _ hx => .inl hx)

theorem inv_begin {cfg : Cfg} {s : St} {p : Nat} {c : Call} (h : Inv s) (h2 : (s.procs p).pc = .idle) :
    Inv (begin cfg s p c) := by
  have hl : locks (s.procs p).pc = false := by rw [h2]; rfl
  have hl' : locks ((upd s.procs p { s.procs p with map := none }) p).pc = false := by rw [upd_self]; exact hl
  unfold begin
  dsimp only
  split
  · rename_i r e
    have := h.res p r (found_refs e)
    split
    · exact inv_refuse h hl
    · split
      · exact inv_give h hl this.1 this.2
      · exact inv_refuse h hl
  · split
    · exact inv_goto_free (inv_map h none) rfl hl'
    · split
      · exact inv_refuse (inv_map h none) hl'
      · exact inv_goto_free (inv_map h none) rfl hl'
    · split
      · exact inv_refuse (inv_map h none) hl'
      · exact inv_goto_free (inv_map h none) rfl hl'

theorem inv_complete {cfg : Cfg} {s : St} {p : Nat} {c : Call} {r : Nat} (h : Inv s) (h1 : locks (s.procs p).pc = true)
    (hm : ∀ o, ¬ Making (s.procs p) o) (h3 : r < (s.procs p).nres) (h4 : Fine s ((s.procs p).res r).obj) :
    Inv (complete cfg { s with lock := false } p c r) := by
  unfold complete
  split
  · refine inv_unlock (s := s) h h1 rfl hm (resOk_give (h.res p) h3 h4 rfl rfl) (fun x hx => ?_)
    rcases List.mem_cons.mp hx with e | e
    · exact .inr (by intro g hg; rw [e] at hg; cases hg; exact h4)
    · exact .inl e
  · refine inv_unlock (s := s) h h1 rfl hm (resOk_pc (h.res p) rfl rfl) (fun x hx => ?_)
    rcases List.mem_cons.mp hx with e | e
    · exact .inr (by intro g hg; rw [e] at hg; cases hg)
    · exact .inl e

theorem resOk_new {s : St} {P P' : Proc} {R : Res} (h : ResOk s P) (e0 : R.refs = 0) (e1 : P'.res = upd P.res P.nres R)
    (e2 : P'.nres = P.nres + 1) : ResOk s P' := by
  intro q hq
  rw [e1] at *; rw [e2]
  by_cases e : q = P.nres
  · subst e; rw [upd_self] at hq; exact absurd e0 hq
  · rw [upd_ne _ _ e] at *
    have := h q hq
    exact ⟨by omega, this.2⟩

theorem inv_advance {cfg : Cfg} {s : St} {p : Nat} {ok : Bool} (h : Inv s) : Inv (advance cfg s p ok) := by
  have hpc := h.pc p
  unfold advance
  split
  · exact h
  · rename_i c a e
    have hl : locks (s.procs p).pc = false := by rw [e]; rfl
    split
    · exact inv_goto_free h rfl hl
    · rename_i e'
      exact inv_take (s := s) h (by simpa using e') rfl trivial (resOk_pc (h.res p) rfl rfl)
  · rename_i c a k e
    have hl : locks (s.procs p).pc = false := by rw [e]; rfl
    split
    · split
      · exact inv_goto_free h rfl hl
      · exact inv_finish h
    · exact inv_goto_free h rfl hl
  · rename_i c a e
    have hl : locks (s.procs p).pc = true := by rw [e]; rfl
    have hm : ∀ o, ¬ Making (s.procs p) o := by intro o ho; unfold Making at ho; rw [e] at ho; exact ho
    split
    · exact inv_goto h (by rw [hl]; rfl) trivial (fun o a => absurd a (hm o))
    · rename_i o e'
      refine inv_goto h (by rw [hl]; rfl) ?_ (fun o a => absurd a (hm o))
      show Fine s o
      obtain ⟨a, b⟩ := h.named o e'
      refine ⟨a, ?_⟩
      rcases b with b | ⟨q, b⟩
      · exact b
      · have := h.uniq q p (making_locks b) hl
        subst this; exact absurd b (hm o)
  · rename_i c a e
    have hl : locks (s.procs p).pc = true := by rw [e]; rfl
    have hm : ∀ o, ¬ Making (s.procs p) o := by intro o ho; unfold Making at ho; rw [e] at ho; exact ho
    dsimp only
    split
    · exact inv_unlock (s := s) (l := s.log) h hl rfl hm (resOk_pc (h.res p) rfl rfl) (fun _ hx => .inl hx)
    · refine inv_unlock (s := s) h hl rfl hm (resOk_pc (h.res p) rfl rfl) (fun x hx => ?_)
      rcases List.mem_cons.mp hx with e | e
      · exact .inr (by intro g hg; rw [e] at hg; cases hg)
      · exact .inl e
  · rename_i c o w e
    have hl : locks (s.procs p).pc = true := by rw [e]; rfl
    have hm : ∀ o, ¬ Making (s.procs p) o := by intro o ho; unfold Making at ho; rw [e] at ho; exact ho
    unfold PcOk at hpc; rw [e] at hpc
    unfold mapInto
    dsimp only
    split
    · exact inv_finish h
    · refine inv_proc (l := s.log) h (by rw [hl]; rfl) ?_ (resOk_new (h.res p) rfl rfl rfl) (fun o a => absurd a (hm o))
        (fun _ hx => .inl hx)
      refine ⟨Nat.lt_succ_self _, ?_⟩
      dsimp only
      rw [upd_self]; exact hpc
  · rename_i c r e
    unfold PcOk at hpc; rw [e] at hpc
    exact inv_complete h (by rw [e]; rfl) (by intro o ho; unfold Making at ho; rw [e] at ho; exact ho) hpc.1 hpc.2
  · rename_i c e
    have hl : locks (s.procs p).pc = false := by rw [e]; rfl
    split
    · unfold notMade
      split
      · exact inv_goto_free h rfl hl
      · exact inv_fail h hl
    · rename_i e'
      exact inv_take (s := s) h (by simpa using e') rfl trivial (resOk_pc (h.res p) rfl rfl)
  · rename_i c e
    have hl : locks (s.procs p).pc = true := by rw [e]; rfl
    have hm : ∀ o, ¬ Making (s.procs p) o := by intro o ho; unfold Making at ho; rw [e] at ho; exact ho
    split
    · exact inv_goto h (by rw [hl]; rfl) trivial (fun o a => absurd a (hm o))
    · rename_i e'
      dsimp only
      have mono : ∀ o, Fine s o → o < s.nobj + 1 ∧ ((upd s.objs s.nobj ⟨provider cfg p c && ok, p, 0⟩) o).made = 1 := by
        intro o ho
        rw [upd_ne _ _ (Nat.ne_of_lt ho.1)]
        exact ⟨Nat.lt_succ_of_lt ho.1, ho.2⟩
      have hle : ∀ o, ((upd s.objs s.nobj ⟨provider cfg p c && ok, p, 0⟩) o).made ≤ 1 := by
        intro o; rw [upd_apply]; split
        · exact Nat.zero_le _
        · exact h.once o
      have raw : ∀ o, o = s.nobj → o < s.nobj + 1 ∧ ((upd s.objs s.nobj ⟨provider cfg p c && ok, p, 0⟩) o).made = 0 := by
        intro o ho; subst ho; rw [upd_self]; exact ⟨Nat.lt_succ_self _, rfl⟩
      have hr : ∀ r, ((s.procs p).res r).refs ≠ 0 → r < (s.procs p).nres ∧ ((s.procs p).res r).obj < s.nobj + 1 ∧
          ((upd s.objs s.nobj ⟨provider cfg p c && ok, p, 0⟩) ((s.procs p).res r).obj).made = 1 :=
        fun r hr => ⟨(h.res p r hr).1, mono _ (h.res p r hr).2⟩
      split
      · refine inv_upd (p := p) h rfl mono hle (.inr hl) (.inl ⟨rfl, by rw [hl]; rfl⟩) ?_ hr ?_ (fun _ hx => .inl hx)
        · intro o ho; cases ho; exact raw _ rfl
        · intro o ho; cases ho
          exact .inl ⟨(raw _ rfl).1, .inr trivial⟩
      · refine inv_upd (p := p) h rfl mono hle (.inr hl) (.inl ⟨rfl, by rw [hl]; rfl⟩) ?_ hr ?_ (fun _ hx => .inl hx)
        · exact raw _ (by simp)
        · intro o ho; cases ho
          exact .inl ⟨(raw _ rfl).1, .inr (by simp [Making])⟩
  · rename_i c e
    have hl : locks (s.procs p).pc = true := by rw [e]; rfl
    unfold PcOk at hpc; rw [e] at hpc
    split
    · exact inv_finish h
    · rename_i o e'
      refine inv_upd (p := p) (s := s) (s' := goto s p (.mkMap c o)) h rfl (fun _ a => a) h.once (.inl ⟨rfl, rfl, .inl rfl⟩) (.inl ⟨rfl, by rw [hl]; rfl⟩) (hpc o e')
        (resOk_pc (h.res p) rfl rfl) (fun o' ho => ?_) (fun _ hx => .inl hx)
      have : o' = o := by have : s.name = some o' := ho; rw [e'] at this; cases this; rfl
      subst this
      exact .inl ⟨(h.named o' ho).1, .inr rfl⟩
  · rename_i c e
    have hl : locks (s.procs p).pc = true := by rw [e]; rfl
    have hm : ∀ o, ¬ Making (s.procs p) o := by intro o ho; unfold Making at ho; rw [e] at ho; exact ho
    unfold notMade
    split
    · exact inv_unlock (s := s) (l := s.log) h hl rfl hm (resOk_pc (h.res p) rfl rfl) (fun _ hx => .inl hx)
    · refine inv_unlock (s := s) h hl rfl hm (resOk_pc (h.res p) rfl rfl) (fun x hx => ?_)
      rcases List.mem_cons.mp hx with e | e
      · exact .inr (by intro g hg; rw [e] at hg; cases hg)
      · exact .inl e
  · rename_i c o e
    have hl : locks (s.procs p).pc = true := by rw [e]; rfl
    unfold PcOk at hpc; rw [e] at hpc
    unfold mapInto
    dsimp only
    split
    · exact inv_finish h
    · refine inv_proc (l := s.log) h (by rw [hl]; rfl) ?_ (resOk_new (h.res p) rfl rfl rfl) (fun o' a => ?_)
        (fun _ hx => .inl hx)
      · refine ⟨Nat.lt_succ_self _, ?_⟩
        dsimp only
        rw [upd_self]; exact hpc
      · unfold Making at a; rw [e] at a
        show ((upd (s.procs p).res (s.procs p).nres _) (s.procs p).nres).obj = o'
        rw [upd_self]; exact a
  · rename_i c r e
    have hl : locks (s.procs p).pc = true := by rw [e]; rfl
    unfold PcOk at hpc; rw [e] at hpc
    obtain ⟨h1, h2, h3⟩ := hpc
    dsimp only
    have mono : ∀ o, Fine s o → o < s.nobj ∧ ((upd s.objs ((s.procs p).res r).obj
        { s.objs ((s.procs p).res r).obj with made := (s.objs ((s.procs p).res r).obj).made + 1 }) o).made = 1 := by
      intro o ho
      refine ⟨ho.1, ?_⟩
      rw [upd_apply]; split
      · rename_i e1; rw [h3]
      · exact ho.2
    have new : ((upd s.objs ((s.procs p).res r).obj
        { s.objs ((s.procs p).res r).obj with made := (s.objs ((s.procs p).res r).obj).made + 1 }) ((s.procs p).res r).obj).made = 1 := by
      rw [upd_self, h3]
    refine inv_upd (p := p) h rfl mono ?_ (.inr hl) (.inl ⟨rfl, by rw [hl]; rfl⟩) ⟨h1, h2, new⟩
      (fun q hq => ⟨(h.res p q hq).1, mono _ (h.res p q hq).2⟩) ?_ (fun _ hx => .inl hx)
    · intro o
      show ((upd s.objs _ _) o).made ≤ 1
      rw [upd_apply]; split
      · rw [h3]; exact Nat.le_refl _
      · exact h.once o
    · intro o ho
      obtain ⟨a, b⟩ := h.named o ho
      left
      refine ⟨a, .inl ?_⟩
      rcases b with b | ⟨q, b⟩
      · exact (mono o ⟨a, b⟩).2
      · have := h.uniq q p (making_locks b) hl
        subst this
        unfold Making at b; rw [e] at b
        have b : ((s.procs q).res r).obj = o := b
        rw [← b]; exact new
  · rename_i c r e
    unfold PcOk at hpc; rw [e] at hpc
    exact inv_complete h (by rw [e]; rfl) (by intro o ho; unfold Making at ho; rw [e] at ho; exact ho) hpc.1 hpc.2

/-- A step that changes resources' counters and the registry only. -/
theorem inv_res {s : St} {p r : Nat} {n : Nat} {d : Bool} {g : Option Nat} (h : Inv s)
    (hn : n ≠ 0 → ((s.procs p).res r).refs ≠ 0) :
    Inv { s with procs := upd s.procs p { s.procs p with
      res := upd (s.procs p).res r { (s.procs p).res r with refs := n, dying := d }, reg := g } } := by
  have eo : ∀ q, ((upd (s.procs p).res r { (s.procs p).res r with refs := n, dying := d }) q).obj = ((s.procs p).res q).obj := by
    intro q; rw [upd_apply]; split
    · rename_i e; rw [e]
    · rfl
  refine inv_proc (l := s.log) h rfl ?_ ?_ ?_ (fun _ hx => .inl hx)
  · have := h.pc p
    unfold PcOk at this ⊢
    dsimp only
    split <;> simp_all
  · intro q hq
    dsimp only at hq ⊢
    rw [eo]
    rw [upd_apply] at hq
    split at hq
    · rename_i e; subst e; exact h.res p q (hn hq)
    · exact h.res p q hq
  · intro o ho
    unfold Making at ho ⊢
    dsimp only
    split <;> simp_all

theorem inv_step {cfg : Cfg} {s : St} {op : Op} (h : Inv s) (ht : ∀ p, op ≠ .stale p) : Inv (step cfg s op) := by
  cases op with
  | call p c =>
    simp only [step]; split
    · exact h
    · rename_i e; exact inv_begin h (by simp at e; exact e.2)
  | step p ok =>
    simp only [step]; split
    · exact h
    · exact inv_advance h
  | release p r =>
    simp only [step]; split
    · exact h
    · unfold giveUp; dsimp only
      split
      · exact h
      · split
        · exact inv_res (n := 0) (d := !true) (g := none) h (fun a => absurd rfl a)
        · exact inv_res (n := ((s.procs p).res r).refs - 1) (d := ((s.procs p).res r).dying) (g := (s.procs p).reg) h (fun _ => by assumption)
  | drop p r =>
    simp only [step]; split
    · exact h
    · unfold giveUp; dsimp only
      split
      · exact h
      · split
        · exact inv_res (n := 0) (d := !false) (g := (s.procs p).reg) h (fun a => absurd rfl a)
        · exact inv_res (n := ((s.procs p).res r).refs - 1) (d := ((s.procs p).res r).dying) (g := (s.procs p).reg) h (fun _ => by assumption)
  | destroy p r =>
    simp only [step]; split
    · exact h
    · unfold destroy; dsimp only
      split
      · exact inv_res (n := ((s.procs p).res r).refs) (d := false) (g := none) h (fun a => a)
      · exact h
  | remove p =>
    simp only [step]; split
    · exact h
    · rename_i e
      have e : (s.procs p).pc = .idle := by simp at e; exact e.2
      unfold remove; split
      · exact inv_map h none
      · refine inv_upd (p := p) (s := s) h rfl (fun _ a => a) h.once (.inl ⟨rfl, rfl, .inr rfl⟩) (.inl ⟨rfl, rfl⟩) ?_
          (resOk_pc (h.res p) rfl rfl) (fun o ho => by cases ho) (fun _ hx => .inl hx)
        apply pcOk_free; dsimp only; rw [e]; rfl
  | stale p => exact absurd rfl (ht p)
  | kill p =>
    simp only [step]; split
    · exact h
    · exact inv_finish h

theorem inv_run {cfg : Cfg} {s : St} {ops : List Op} (h : Inv s) (ht : NoStale ops) : Inv (run cfg s ops) := by
  induction ops generalizing s with
  | nil => exact h
  | cons op ops ih =>
    exact ih (inv_step h (fun p e => ht p (by simp [e]))) (fun p hp => ht p (by simp [hp]))

end Verif.ShmFactory
