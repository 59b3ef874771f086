import Verif.Proofs.ShmFactory5
/-! Proofs about the shared memory factory: memory is held until the last pointer is given up. -/
namespace Verif.ShmFactory

/-- `n` pointers to resource `r` have been got, `g` given up. -/
structure Kept (r : Nat) (P : Proc) (n g : Nat) : Prop where
  held : n ≤ (P.res r).refs + g
  old : n ≠ 0 → r < P.nres
  live : ∀ x, (P.res x).refs ≠ 0 → x < P.nres
  pc : ∀ x, pcRes P.pc = some x → x < P.nres

theorem Kept.mono {r : Nat} {P : Proc} {n g g' : Nat} (h : Kept r P n g) (hg : g ≤ g') : Kept r P n g' :=
  ⟨by have := h.held; omega, h.old, h.live, h.pc⟩

theorem Kept.same {r : Nat} {P P' : Proc} {n g : Nat} (h : Kept r P n g) (e1 : ∀ x, (P'.res x).refs = (P.res x).refs)
    (e2 : P'.nres = P.nres) (e3 : ∀ x, pcRes P'.pc = some x → x < P.nres) : Kept r P' n g := by
  refine ⟨?_, ?_, ?_, ?_⟩
  · rw [e1]; exact h.held
  · rw [e2]; exact h.old
  · intro x; rw [e1, e2]; exact h.live x
  · intro x; rw [e2]; exact e3 x

/-- The invariant of process `p`. -/
def K (p r : Nat) (s : St) (g : Nat) : Prop := Kept r (s.procs p) (timesGot p r s.log) g

theorem k_of {p r q g : Nat} {s s' : St} {P' : Proc} {l : List Ret} (h : K p r s g) (e1 : s'.procs = upd s.procs q P')
    (e2 : s'.log = l ++ s.log) (e3 : ∀ x ∈ l, x.proc = q)
    (hq : q = p → Kept r P' (timesGot p r s'.log) g) : K p r s' g := by
  by_cases e : q = p
  · subst e
    unfold K; rw [e1]; simpa [upd] using hq rfl
  · unfold K
    have a : s'.procs p = s.procs p := by rw [e1]; simp [upd, Ne.symm e]
    have b : ∀ l : List Ret, (∀ x ∈ l, x.proc = q) → timesGot p r (l ++ s.log) = timesGot p r s.log := by
      intro l
      induction l with
      | nil => intro _; rfl
      | cons x l ih =>
        intro hx
        rw [List.cons_append, timesGot, ih (fun y hy => hx y (List.mem_cons_of_mem _ hy))]
        have := hx x (by simp)
        rw [if_neg (by rintro ⟨c, _⟩; exact e (this ▸ c))]; omega
    rw [a, e2, b l e3]; exact h

/-- No pointer is returned. -/
theorem k_quiet {p r q g : Nat} {s s' : St} {P' : Proc} (h : K p r s g) (e1 : s'.procs = upd s.procs q P') (e2 : s'.log = s.log)
    (hq : q = p → Kept r P' (timesGot p r s.log) g) : K p r s' g :=
  k_of (l := []) h e1 e2 (by simp) (by rw [e2]; exact hq)

theorem k_null {p r q g : Nat} {s s' : St} {P' : Proc} {c : Call} (h : K p r s g) (e1 : s'.procs = upd s.procs q P')
    (e2 : s'.log = ⟨q, c, none⟩ :: s.log) (hq : q = p → Kept r P' (timesGot p r s.log) g) : K p r s' g := by
  refine k_of (l := [⟨q, c, none⟩]) h e1 e2 (by simp) ?_
  intro e
  rw [e2, timesGot, if_neg (by simp)]
  simpa using hq e

theorem k_goto {p r q g : Nat} {s : St} {pc : Pc} (h : K p r s g)
    (hp : q = p → ∀ x, pcRes pc = some x → x < (s.procs q).nres) : K p r (goto s q pc) g := by
  refine k_quiet h rfl rfl ?_
  rintro rfl
  exact Kept.same h (fun _ => rfl) rfl (hp rfl)

theorem k_finish {p r q g : Nat} {s : St} {w : Why} (h : K p r s g) : K p r (finish s q w) g := by
  refine k_quiet h rfl rfl ?_
  rintro rfl
  exact Kept.same h (fun _ => rfl) rfl h.pc

theorem k_refuse {p r q g : Nat} {s : St} {c : Call} (h : K p r s g) : K p r (refuse s q c) g := by
  refine k_null h rfl rfl ?_
  rintro rfl
  exact Kept.same h (fun _ => rfl) rfl (by intro x hx; cases hx)

theorem k_fail {p r q g : Nat} {s : St} {c : Call} (h : K p r s g) : K p r (fail s q c) g := by
  refine k_null h rfl rfl ?_
  rintro rfl
  exact Kept.same h (fun _ => rfl) rfl (by intro x hx; cases hx)

theorem k_give {p r q g : Nat} {s : St} {c : Call} {x : Nat} (h : K p r s g)
    (hx : q = p → x < (s.procs q).nres) : K p r (give s q c x) g := by
  refine k_of (l := [⟨q, c, some ⟨x, ((s.procs q).res x).obj, ((s.procs q).res x).rw⟩⟩]) h rfl rfl (by simp) ?_
  rintro rfl
  have hx := hx rfl
  have hh : timesGot q r s.log ≤ ((s.procs q).res r).refs + g := h.held
  show Kept r _ ((if _ then 1 else 0) + timesGot q r s.log) g
  by_cases e : x = r
  · subst e
    refine ⟨?_, fun _ => hx, ?_, ?_⟩
    · simp only [upd, if_true]
      split <;> omega
    · intro y
      by_cases ey : y = x
      · subst ey; intro _; exact hx
      · simp only [upd, if_neg ey]; exact h.live y
    · intro y hy; cases hy
  · have n : ¬ (q = q ∧ (some (⟨x, ((s.procs q).res x).obj, ((s.procs q).res x).rw⟩ : Got)).map (·.res) = some r) := by
      rintro ⟨_, c⟩
      simp only [Option.map_some, Option.some.injEq] at c
      exact e c
    rw [if_neg n, Nat.zero_add]
    refine ⟨?_, h.old, ?_, ?_⟩
    · simp only [upd, if_neg (Ne.symm e)]; exact hh
    · intro y
      by_cases ey : y = x
      · subst ey; intro _; exact hx
      · simp only [upd, if_neg ey]; exact h.live y
    · intro y hy; cases hy

theorem k_world {p r g : Nat} {s s' : St} (h : K p r s g) (e1 : s'.procs = s.procs) (e2 : s'.log = s.log) : K p r s' g := by
  unfold K at *
  rw [e1, e2]; exact h

theorem k_complete {cfg : Cfg} {p r q g : Nat} {s : St} {c : Call} {x : Nat} (h : K p r s g)
    (hx : q = p → x < (s.procs q).nres) : K p r (complete cfg s q c x) g := by
  unfold complete
  split
  · exact k_give h hx
  · refine k_null h rfl rfl ?_
    rintro rfl
    exact Kept.same h (fun _ => rfl) rfl (by intro x hx; cases hx)

theorem k_mapInto {p r q g : Nat} {s : St} {o w : Nat} {rw : Bool} {next : Nat → Pc} (h : K p r s g)
    (hn : ∀ n x, pcRes (next n) = some x → x = n) : K p r (mapInto s q o w rw next) g := by
  unfold mapInto
  dsimp only
  split
  · exact k_finish h
  · refine k_quiet h rfl rfl ?_
    rintro rfl
    refine ⟨?_, ?_, ?_, ?_⟩
    · by_cases e : r = (s.procs q).nres
      · have : timesGot q r s.log = 0 := by
          cases ec : timesGot q r s.log with
          | zero => rfl
          | succ m =>
            have : r < (s.procs q).nres := h.old (by rw [ec]; omega)
            omega
        rw [this]; omega
      · simp only [upd, if_neg e]; exact h.held
    · intro hc; have : r < (s.procs q).nres := h.old hc
      show r < (s.procs q).nres + 1
      omega
    · intro x
      show _ → x < (s.procs q).nres + 1
      by_cases e : x = (s.procs q).nres
      · intro _; omega
      · simp only [upd, if_neg e]
        intro hc; have := h.live x hc; omega
    · intro x hx
      have := hn _ x hx
      show x < (s.procs q).nres + 1
      omega

theorem k_notMade {p r q g : Nat} {s : St} {c : Call} (h : K p r s g) : K p r (notMade s q c) g := by
  unfold notMade
  split
  · exact k_goto h (by intro _ x hx; cases hx)
  · exact k_fail h

theorem k_begin {cfg : Cfg} {p r q g : Nat} {s : St} {c : Call} (h : K p r s g) : K p r (begin cfg s q c) g := by
  unfold begin
  dsimp only
  split
  · rename_i x hx
    have hl : q = p → x < (s.procs q).nres := by
      rintro rfl
      refine h.live x ?_
      unfold Proc.found at hx
      split at hx
      · cases hx
      · split at hx
        · cases hx
        · injection hx with hx; subst hx; assumption
    split
    · exact k_refuse h
    · split
      · exact k_give h hl
      · exact k_refuse h
  · have h' : K p r { s with procs := upd s.procs q { s.procs q with map := none } } g := by
      refine k_quiet h rfl rfl ?_
      rintro rfl
      exact Kept.same h (fun _ => rfl) rfl h.pc
    split
    · exact k_goto h' (by intro _ x hx; cases hx)
    · split
      · exact k_refuse h'
      · exact k_goto h' (by intro _ x hx; cases hx)
    · split
      · exact k_refuse h'
      · exact k_goto h' (by intro _ x hx; cases hx)

theorem k_advance {cfg : Cfg} {p r q g : Nat} {s : St} {ok : Bool} (h : K p r s g) : K p r (advance cfg s q ok) g := by
  have no : ∀ {pc : Pc} {n : Nat}, pcRes pc = none → ∀ x, pcRes pc = some x → x < n := by
    intro pc n e x hx; rw [e] at hx; cases hx
  unfold advance
  split
  · exact h
  · split
    · exact k_goto h (fun _ => no rfl)
    · exact k_goto (s := { s with lock := true }) (k_world h rfl rfl) (fun _ => no rfl)
  · split
    · split
      · exact k_goto h (fun _ => no rfl)
      · exact k_finish h
    · exact k_goto h (fun _ => no rfl)
  · split
    · exact k_goto h (fun _ => no rfl)
    · exact k_goto h (fun _ => no rfl)
  · dsimp only
    have h' : K p r { s with lock := false } g := k_world h rfl rfl
    split
    · exact k_goto h' (fun _ => no rfl)
    · exact k_fail h'
  · exact k_mapInto h (by intro n x hx; simpa [pcRes, eq_comm] using hx)
  · rename_i c x e
    refine k_complete (s := { s with lock := false }) (k_world h rfl rfl) ?_
    rintro rfl
    exact h.pc x (by rw [e]; rfl)
  · split
    · exact k_notMade h
    · exact k_goto (s := { s with lock := true }) (k_world h rfl rfl) (fun _ => no rfl)
  · split
    · exact k_goto h (fun _ => no rfl)
    · dsimp only
      refine k_goto (k_world h rfl rfl) (fun _ => no ?_)
      split <;> rfl
  · split
    · exact k_finish h
    · exact k_goto h (fun _ => no rfl)
  · exact k_notMade (s := { s with lock := false }) (k_world h rfl rfl)
  · exact k_mapInto h (by intro n x hx; simpa [pcRes, eq_comm] using hx)
  · rename_i c x e
    dsimp only
    refine k_goto (k_world h rfl rfl) ?_
    rintro rfl y hy
    have : y = x := by simpa [pcRes, eq_comm] using hy
    subst this
    exact h.pc y (by rw [e]; rfl)
  · rename_i c x e
    refine k_complete (s := { s with lock := false }) (k_world h rfl rfl) ?_
    rintro rfl
    exact h.pc x (by rw [e]; rfl)

theorem k_giveUp {p r q g : Nat} {s : St} {x : Nat} {now : Bool} (h : K p r s g) :
    K p r (giveUp s q x now) (g + if q = p ∧ x = r then 1 else 0) := by
  have hm : K p r s (g + if q = p ∧ x = r then 1 else 0) := Kept.mono h (by omega)
  unfold giveUp
  dsimp only
  split
  · exact hm
  · split
    · rename_i e
      refine k_quiet hm rfl rfl ?_
      rintro rfl
      refine ⟨?_, h.old, ?_, h.pc⟩
      · have hh : timesGot q r s.log ≤ ((s.procs q).res r).refs + g := h.held
        by_cases ex : x = r
        · subst ex; simp [upd]; omega
        · simp only [upd, if_neg (Ne.symm ex)]; omega
      · intro y
        by_cases ey : y = x
        · subst ey; simp [upd]
        · simp only [upd, if_neg ey]; exact h.live y
    · rename_i e0 e1
      refine k_quiet hm rfl rfl ?_
      rintro rfl
      refine ⟨?_, h.old, ?_, h.pc⟩
      · have hh : timesGot q r s.log ≤ ((s.procs q).res r).refs + g := h.held
        by_cases ex : x = r
        · subst ex; simp [upd]; omega
        · simp only [upd, if_neg (Ne.symm ex)]; omega
      · intro y
        by_cases ey : y = x
        · subst ey; intro _; exact h.live y e0
        · simp only [upd, if_neg ey]; exact h.live y

/-- What an operation gives up. -/
def gives (p r : Nat) : Op → Nat
  | .release q x | .drop q x => if q = p ∧ x = r then 1 else 0
  | _ => 0

theorem k_step {cfg : Cfg} {p r g : Nat} {s : St} (h : K p r s g) : ∀ op, K p r (step cfg s op) (g + gives p r op)
  | .call q c => by
    simp only [step, gives, Nat.add_zero]
    split
    · exact h
    · exact k_begin h
  | .step q ok => by
    simp only [step, gives, Nat.add_zero]
    split
    · exact h
    · exact k_advance h
  | .release q x => by
    simp only [step, gives]
    split
    · exact Kept.mono h (by omega)
    · exact k_giveUp h
  | .drop q x => by
    simp only [step, gives]
    split
    · exact Kept.mono h (by omega)
    · exact k_giveUp h
  | .destroy q x => by
    simp only [step, gives, Nat.add_zero]
    split
    · exact h
    · unfold destroy
      dsimp only
      split
      · refine k_quiet h rfl rfl ?_
        rintro rfl
        refine Kept.same h ?_ rfl h.pc
        intro y
        by_cases e : y = x
        · subst e; simp [upd]
        · simp [upd, e]
      · exact h
  | .remove q => by
    simp only [step, gives, Nat.add_zero]
    split
    · exact h
    · unfold remove
      split
      · refine k_quiet h rfl rfl ?_
        rintro rfl
        exact Kept.same h (fun _ => rfl) rfl h.pc
      · refine k_quiet h rfl rfl ?_
        rintro rfl
        exact Kept.same h (fun _ => rfl) rfl h.pc
  | .stale q => by
    simp only [step, gives, Nat.add_zero]
    split
    · exact h
    · unfold stale
      dsimp only
      split
      · split
        · exact h
        · split
          · exact k_finish h
          · refine k_quiet h rfl rfl ?_
            rintro rfl
            exact Kept.same h (fun _ => rfl) rfl h.pc
      · refine k_quiet h rfl rfl ?_
        rintro rfl
        exact Kept.same h (fun _ => rfl) rfl h.pc
      · refine k_quiet h rfl rfl ?_
        rintro rfl
        exact Kept.same h (fun _ => rfl) rfl h.pc
  | .kill q => by
    simp only [step, gives, Nat.add_zero]
    split
    · exact h
    · exact k_finish h

theorem timesGivenUp_cons (p r : Nat) (op : Op) (ops : List Op) :
    timesGivenUp p r (op :: ops) = gives p r op + timesGivenUp p r ops := by
  cases op <;> simp [timesGivenUp, gives]

theorem k_run {cfg : Cfg} {p r : Nat} : ∀ (ops : List Op) (s : St) (g : Nat), K p r s g →
    K p r (run cfg s ops) (g + timesGivenUp p r ops)
  | [], s, g, h => h
  | op :: ops, s, g, h => by
    rw [timesGivenUp_cons, ← Nat.add_assoc]
    exact k_run ops _ _ (k_step h op)

theorem k_init (p r : Nat) : K p r init 0 :=
  ⟨by simp [init, timesGot], by simp [init, timesGot], by simp [init, Proc.init], by simp [init, Proc.init, pcRes]⟩

end Verif.ShmFactory
