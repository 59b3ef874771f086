import Verif.Proofs.ShmFactory
/-! More proofs about the shared memory factory. -/
namespace Verif.ShmFactory

/-- The process an operation belongs to. -/
def Op.proc : Op → Nat
  | .call p _ | .step p _ | .release p _ | .drop p _ | .destroy p _ | .remove p | .stale p | .kill p => p

theorem goto_procs (s : St) (p : Nat) (pc : Pc) : (goto s p pc).procs = upd s.procs p { s.procs p with pc := pc } := rfl

theorem advance_other {cfg : Cfg} {s : St} {p q : Nat} {ok : Bool} (h : q ≠ p) : (advance cfg s p ok).procs q = s.procs q := by
  unfold advance notMade complete mapInto
  repeat' (first | rfl | split)
  all_goals first
    | rfl
    | exact upd_ne _ _ h
    | (dsimp only
       repeat' split
       all_goals first | rfl | exact upd_ne _ _ h)

theorem begin_other {cfg : Cfg} {s : St} {p q : Nat} {c : Call} (h : q ≠ p) : (begin cfg s p c).procs q = s.procs q := by
  unfold begin
  dsimp only
  repeat' split
  all_goals first
    | exact upd_ne _ _ h
    | exact (upd_ne _ _ h).trans (upd_ne _ _ h)

theorem step_other {cfg : Cfg} {s : St} {op : Op} {q : Nat} (h : q ≠ op.proc) : (step cfg s op).procs q = s.procs q := by
  cases op <;> simp only [step, Op.proc] at * <;> split <;> try rfl
  case call.isFalse => exact begin_other h
  case step.isFalse => exact advance_other h
  case release.isFalse => unfold giveUp; dsimp only; repeat' split
                          all_goals first | rfl | exact upd_ne _ _ h
  case drop.isFalse => unfold giveUp; dsimp only; repeat' split
                       all_goals first | rfl | exact upd_ne _ _ h
  case destroy.isFalse => unfold destroy; dsimp only; split
                          all_goals first | rfl | exact upd_ne _ _ h
  case remove.isFalse => unfold remove; split <;> exact upd_ne _ _ h
  case stale.isFalse => unfold stale; dsimp only; repeat' split
                        all_goals first | rfl | exact upd_ne _ _ h
  case kill.isFalse => exact upd_ne _ _ h

/-! ### One resource per process -/

def pcRes : Pc → Option Nat
  | .opEnd _ r | .mkInit _ r | .mkEnd _ r => some r
  | _ => none

structure KP (P : Proc) : Prop where
  dy : ∀ r, (P.res r).dying = false
  call : P.pc ≠ .idle → ∀ r, (P.res r).refs = 0
  live : ∀ r, (P.res r).refs ≠ 0 → P.reg = some r ∧ P.map = some r
  reg : ∀ r, P.reg = some r → (P.res r).refs ≠ 0 ∨ pcRes P.pc = some r
  pcr : ∀ r, pcRes P.pc = some r → P.reg = some r
  ov : P.over ≠ some .registered

theorem kp_init : KP Proc.init := by
  constructor <;> simp [Proc.init, pcRes]

theorem KP.notFound {P : Proc} (h : KP P) (e : P.found = none) : ∀ r, (P.res r).refs = 0 := by
  intro r
  by_cases h0 : (P.res r).refs = 0
  · exact h0
  · have := (h.live r h0).2
    simp [Proc.found, this, h0] at e

/-- In a call without a resource nothing is registered. -/
theorem KP.noReg {P : Proc} (h : KP P) (h1 : ∀ r, (P.res r).refs = 0) (h2 : pcRes P.pc = none) : P.reg = none := by
  cases e : P.reg with
  | none => rfl
  | some r =>
    rcases h.reg r e with a | a
    · exact absurd (h1 r) a
    · rw [h2] at a; cases a

theorem KP.pc {P : Proc} (h : KP P) (h1 : ∀ r, (P.res r).refs = 0) (h2 : pcRes P.pc = none) {pc : Pc} (h3 : pcRes pc = none)
    {g : Option Nat} (hg : g = P.reg ∨ g = none) {m : Option Nat} : KP { P with pc := pc, reg := g, map := m } := by
  have hr : g = none := by rcases hg with e | e; rw [e]; exact h.noReg h1 h2; exact e
  subst hr
  exact ⟨h.dy, fun _ => h1, fun r hr => absurd (h1 r) hr, fun r hr => (by cases hr), fun r hr => (by dsimp only at hr; rw [h3] at hr; cases hr), h.ov⟩

theorem KP.stopped {P : Proc} (h : KP P) {w : Why} (hw : w ≠ .registered) : KP { P with over := some w } :=
  ⟨h.dy, h.call, h.live, h.reg, h.pcr, fun e => hw (by cases e; rfl)⟩

theorem KP.gave {P : Proc} {r : Nat} (h : KP P) (h1 : ∀ q, q ≠ r → (P.res q).refs = 0) (h2 : P.reg = some r) :
    KP { P with pc := .idle, map := some r, res := upd P.res r { P.res r with refs := (P.res r).refs + 1 } } := by
  constructor
  · intro q; dsimp only; rw [upd_apply]; split
    · exact h.dy r
    · exact h.dy q
  · intro e; exact absurd rfl e
  · intro q hq
    dsimp only at hq ⊢
    by_cases e : q = r
    · subst e; exact ⟨h2, rfl⟩
    · rw [upd_ne _ _ e] at hq; exact absurd (h1 q e) hq
  · intro q hq
    dsimp only at hq ⊢
    rw [h2] at hq; cases hq
    left; rw [upd_self]; exact Nat.succ_ne_zero _
  · intro q hq; simp [pcRes] at hq
  · exact h.ov

theorem KP.mapped {P : Proc} (h : KP P) (h1 : ∀ r, (P.res r).refs = 0) {o w : Nat} {rw : Bool} {pc : Pc}
    (h3 : pcRes pc = some P.nres) :
    KP { P with reg := some P.nres, nres := P.nres + 1, res := upd P.res P.nres ⟨o, rw, w, 0, false⟩, pc := pc } := by
  have h0 : ∀ q, ((upd P.res P.nres ⟨o, rw, w, 0, false⟩) q).refs = 0 := by
    intro q; rw [upd_apply]; split
    · rfl
    · exact h1 q
  constructor
  · intro q; dsimp only; rw [upd_apply]; split
    · rfl
    · exact h.dy q
  · intro _; exact h0
  · intro q hq; exact absurd (h0 q) hq
  · intro q hq; right; dsimp only at hq ⊢; rw [h3]; exact hq
  · intro q hq; dsimp only at hq ⊢; rw [← h3]; exact hq
  · exact h.ov

theorem KP.completed {cfg : Cfg} {s : St} {p : Nat} {c : Call} {r : Nat} (h : KP (s.procs p)) (h1 : ∀ q, ((s.procs p).res q).refs = 0)
    (h2 : (s.procs p).reg = some r) : KP ((complete cfg { s with lock := false } p c r).procs p) := by
  unfold complete
  split
  · unfold give; dsimp only; rw [upd_self]; exact h.gave (fun q _ => h1 q) h2
  · dsimp only; rw [upd_self]
    exact ⟨h.dy, fun _ => h1, fun r hr => absurd (h1 r) hr, fun r hr => (by cases hr), fun r hr => (by simp [pcRes] at hr), h.ov⟩

theorem KP.given {P : Proc} {r n : Nat} (h : KP P) (h0 : (P.res r).refs ≠ 0) (hn : n ≠ 0) :
    KP { P with res := upd P.res r { P.res r with refs := n } } := by
  have hi : P.pc = .idle := by
    by_cases e : P.pc = .idle
    · exact e
    · exact absurd (h.call e r) h0
  constructor
  · intro q; dsimp only; rw [upd_apply]; split
    · exact h.dy r
    · exact h.dy q
  · intro e; exact absurd hi e
  · intro q hq
    dsimp only at hq ⊢
    by_cases e : q = r
    · subst e; exact h.live q h0
    · rw [upd_ne _ _ e] at hq; exact h.live q hq
  · intro q hq
    dsimp only at hq ⊢
    by_cases e : q = r
    · subst e; left; rw [upd_self]; exact hn
    · rw [upd_ne _ _ e]; exact h.reg q hq
  · exact h.pcr
  · exact h.ov

theorem KP.gone {P : Proc} {r : Nat} (h : KP P) (h0 : (P.res r).refs ≠ 0) :
    KP { P with res := upd P.res r { P.res r with refs := 0, dying := !true }, reg := none } := by
  have hi : P.pc = .idle := by
    by_cases e : P.pc = .idle
    · exact e
    · exact absurd (h.call e r) h0
  have hz : ∀ q, ((upd P.res r { P.res r with refs := 0, dying := !true }) q).refs = 0 := by
    intro q; rw [upd_apply]; split
    · rfl
    · rename_i e
      by_cases h1 : (P.res q).refs = 0
      · exact h1
      · have a := (h.live q h1).1
        have b := (h.live r h0).1
        rw [a] at b; cases b; exact absurd rfl e
  constructor
  · intro q; dsimp only; rw [upd_apply]; split
    · rfl
    · exact h.dy q
  · intro e; exact absurd hi e
  · intro q hq; exact absurd (hz q) hq
  · intro q hq; cases hq
  · intro q hq; dsimp only at hq; rw [hi] at hq; simp [pcRes] at hq
  · exact h.ov

theorem kp_begin {cfg : Cfg} {s : St} {p : Nat} {c : Call} (h : KP (s.procs p)) (hi : (s.procs p).pc = .idle) :
    KP ((begin cfg s p c).procs p) := by
  have hpr : pcRes (s.procs p).pc = none := by rw [hi]; rfl
  have same : KP { s.procs p with pc := .idle } := by
    have : { s.procs p with pc := .idle } = s.procs p := by rw [← hi]
    rw [this]; exact h
  unfold begin
  dsimp only
  split
  · rename_i r e
    have hr := found_refs e
    split
    · unfold refuse; dsimp only; rw [upd_self]; exact same
    · split
      · unfold give; dsimp only; rw [upd_self]
        refine h.gave (fun q hq => ?_) (h.live r hr).1
        by_cases h1 : ((s.procs p).res q).refs = 0
        · exact h1
        · have a := (h.live q h1).1
          have b := (h.live r hr).1
          rw [a] at b; cases b; exact absurd rfl hq
      · unfold refuse; dsimp only; rw [upd_self]; exact same
  · rename_i e
    have hz := h.notFound e
    split
    · unfold goto; dsimp only; rw [upd_self, upd_self]; exact h.pc hz hpr rfl (.inl rfl)
    · split
      · unfold refuse; dsimp only; rw [upd_self, upd_self]; exact h.pc hz hpr rfl (.inl rfl)
      · unfold goto; dsimp only; rw [upd_self, upd_self]; exact h.pc hz hpr rfl (.inl rfl)
    · split
      · unfold refuse; dsimp only; rw [upd_self, upd_self]; exact h.pc hz hpr rfl (.inl rfl)
      · unfold goto; dsimp only; rw [upd_self, upd_self]; exact h.pc hz hpr rfl (.inl rfl)

theorem kp_mapInto {s : St} {p o w : Nat} {rw : Bool} {next : Nat → Pc} (h : KP (s.procs p)) (h1 : ∀ q, ((s.procs p).res q).refs = 0)
    (h2 : pcRes (s.procs p).pc = none) (h3 : ∀ r, pcRes (next r) = some r) : KP ((mapInto s p o w rw next).procs p) := by
  unfold mapInto
  dsimp only
  split
  · rename_i e; rw [h.noReg h1 h2] at e; cases e
  · dsimp only; rw [upd_self]; exact h.mapped h1 (h3 _)

theorem kp_advance {cfg : Cfg} {s : St} {p : Nat} {ok : Bool} (h : KP (s.procs p)) : KP ((advance cfg s p ok).procs p) := by
  by_cases hi : (s.procs p).pc = .idle
  · unfold advance; rw [hi]; exact h
  have hz := h.call hi
  have go : ∀ (s' : St) (pc : Pc), s'.procs p = s.procs p → pcRes (s.procs p).pc = none → pcRes pc = none → KP ((goto s' p pc).procs p) := by
    intro s' pc e h1 h2
    unfold goto; dsimp only; rw [upd_self, e]; exact h.pc hz h1 h2 (.inl rfl)
  have fl : ∀ (s' : St) (c : Call), s'.procs p = s.procs p → pcRes (s.procs p).pc = none → KP ((fail s' p c).procs p) := by
    intro s' pc e h1
    unfold fail; dsimp only; rw [upd_self, e]; exact h.pc hz h1 rfl (.inr rfl)
  have nm : ∀ (s' : St) (c : Call), s'.procs p = s.procs p → pcRes (s.procs p).pc = none → KP ((notMade s' p c).procs p) := by
    intro s' c e h1
    unfold notMade; split
    · exact go _ _ e h1 rfl
    · exact fl _ _ e h1
  unfold advance
  split
  · rename_i e; exact absurd e hi
  · rename_i c a e
    have h1 : pcRes (s.procs p).pc = none := by rw [e]; rfl
    split
    · exact go _ _ rfl h1 rfl
    · exact go _ _ rfl h1 rfl
  · rename_i c a k e
    have h1 : pcRes (s.procs p).pc = none := by rw [e]; rfl
    split
    · split
      · exact go _ _ rfl h1 rfl
      · unfold finish; dsimp only; rw [upd_self]; exact h.stopped (by simp)
    · exact go _ _ rfl h1 rfl
  · rename_i c a e
    have h1 : pcRes (s.procs p).pc = none := by rw [e]; rfl
    split
    · exact go _ _ rfl h1 rfl
    · exact go _ _ rfl h1 rfl
  · rename_i c a e
    have h1 : pcRes (s.procs p).pc = none := by rw [e]; rfl
    dsimp only
    split
    · exact go { s with lock := false } _ rfl h1 rfl
    · exact fl { s with lock := false } _ rfl h1
  · rename_i c o w e
    exact kp_mapInto h hz (by rw [e]; rfl) (fun _ => rfl)
  · rename_i c r e
    exact h.completed hz (h.pcr r (by rw [e]; rfl))
  · rename_i c e
    have h1 : pcRes (s.procs p).pc = none := by rw [e]; rfl
    split
    · exact nm _ _ rfl h1
    · exact go _ _ rfl h1 rfl
  · rename_i c e
    have h1 : pcRes (s.procs p).pc = none := by rw [e]; rfl
    split
    · exact go _ _ rfl h1 rfl
    · dsimp only; split
      · exact go { s with name := _, nobj := _, objs := _ } _ rfl h1 rfl
      · exact go { s with name := _, nobj := _, objs := _ } _ rfl h1 rfl
  · rename_i c e
    have h1 : pcRes (s.procs p).pc = none := by rw [e]; rfl
    split
    · unfold finish; dsimp only; rw [upd_self]; exact h.stopped (by simp)
    · exact go _ _ rfl h1 rfl
  · rename_i c e
    have h1 : pcRes (s.procs p).pc = none := by rw [e]; rfl
    exact nm { s with lock := false } _ rfl h1
  · rename_i c o e
    exact kp_mapInto h hz (by rw [e]; rfl) (fun _ => rfl)
  · rename_i c r e
    unfold goto; dsimp only; rw [upd_self]
    have hr := h.pcr r (by rw [e]; rfl)
    exact ⟨h.dy, fun _ => hz, fun r hr => absurd (hz r) hr, fun q hq => .inr (by dsimp only at hq ⊢; rw [hr] at hq; cases hq; rfl),
      fun q hq => by simp [pcRes] at hq; subst hq; exact hr, h.ov⟩
  · rename_i c r e
    exact h.completed hz (h.pcr r (by rw [e]; rfl))

theorem kp_step {cfg : Cfg} {s : St} {op : Op} {p : Nat} (h : KP (s.procs p)) (h1 : op ≠ .remove p) (h2 : ∀ r, op ≠ .drop p r) :
    KP ((step cfg s op).procs p) := by
  by_cases e : p = op.proc
  case neg => rw [step_other e]; exact h
  cases op with
  | call q c =>
    have e : p = q := e
    subst e
    simp only [step]; split
    · exact h
    · rename_i e; exact kp_begin h (by simp at e; exact e.2)
  | step q ok =>
    have e : p = q := e
    subst e
    simp only [step]; split
    · exact h
    · exact kp_advance h
  | release q r =>
    have e : p = q := e
    subst e
    simp only [step]; split
    · exact h
    · unfold giveUp; dsimp only
      split
      · exact h
      · split
        · dsimp only; rw [upd_self]; exact h.gone (by assumption)
        · dsimp only; rw [upd_self]; exact h.given (by assumption) (by omega)
  | drop q r => have e : p = q := e; subst e; exact absurd rfl (h2 r)
  | destroy q r =>
    have e : p = q := e
    subst e
    simp only [step]; split
    · exact h
    · unfold destroy; dsimp only
      split
      · rename_i a; rw [h.dy r] at a; cases a
      · exact h
  | remove q => have e : p = q := e; subst e; exact absurd rfl h1
  | stale q =>
    have e : p = q := e
    subst e
    simp only [step]; split
    · exact h
    · unfold stale; dsimp only
      split
      · split
        · exact h
        · rename_i hp
          split
          · unfold finish; dsimp only; rw [upd_self]; exact h.stopped (by simp)
          · rename_i hf
            dsimp only; rw [upd_self]
            have hz := h.notFound (by simpa using hf)
            exact ⟨h.dy, h.call, fun r hr => absurd (hz r) hr, h.reg, h.pcr, h.ov⟩
      · dsimp only; rw [upd_self]; exact ⟨h.dy, h.call, h.live, h.reg, h.pcr, h.ov⟩
      · dsimp only; rw [upd_self]; exact ⟨h.dy, h.call, h.live, h.reg, h.pcr, h.ov⟩
  | kill q =>
    have e : p = q := e
    subst e
    simp only [step]; split
    · exact h
    · unfold finish; dsimp only; rw [upd_self]; exact h.stopped (by simp)

theorem kp_run {cfg : Cfg} {s : St} {ops : List Op} {p : Nat} (h : KP (s.procs p)) (h1 : .remove p ∉ ops) (h2 : ∀ r, .drop p r ∉ ops) :
    KP ((run cfg s ops).procs p) := by
  induction ops generalizing s with
  | nil => exact h
  | cons op ops ih =>
    exact ih (kp_step h (fun e => h1 (by simp [e])) (fun r e => h2 r (by simp [e]))) (fun hp => h1 (by simp [hp])) (fun r hp => h2 r (by simp [hp]))

end Verif.ShmFactory
