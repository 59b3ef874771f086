import Verif.Proofs.FieldRaceGet

/-! A send that nothing overlaps, and where sent values come from (C112). -/
namespace Verif.FieldRace
variable {V : Type}

/-- The value of a running send. -/
def WPc.val : WPc V → Option V
  | .idle => none
  | .find v _ _ _ => some v
  | .cas v _ _ _ => some v
  | .write v _ => some v
  | .load v _ => some v
  | .store v _ _ => some v
  | .reload v _ => some v
  | .ready v _ _ => some v

/-- Everything that was or is being sent meets `Q`. -/
structure From (Q : V → Prop) (s : St V) : Prop where
  sent : ∀ x ∈ s.sent, Q x.2
  pc : ∀ b v, (s.pc b).val = some v → Q v

theorem from_goto {Q : V → Prop} {s : St V} (h : From Q s) (b : Bool) (p : WPc V) (hp : ∀ v, p.val = some v → Q v) :
    From Q (s.goto b p) where
  sent := by simpa using h.sent
  pc := by
    intro c v hc
    by_cases e : c = b
    · subst e; rw [goto_pc_same] at hc; exact hp v hc
    · rw [goto_pc_other _ _ _ _ e] at hc; exact h.pc c v hc

theorem again_val (v : V) (r : Nat) (w : V) (h : (again v r).val = some w) : w = v := by
  unfold again at h
  split at h
  · cases h; rfl
  · cases h

theorem findOldest_val (n : Nat) (sl : Nat → W) (v : V) (r k : Nat) (best : Option (Nat × W)) (w : V)
    (h : (findOldest n sl v r k best).val = some w) : w = v := by
  unfold findOldest at h
  split at h
  · split at h
    · cases h; rfl
    · cases h; rfl
    · split at h <;> (cases h; rfl)
  · split at h
    · cases h; rfl
    · exact again_val v r w h

theorem from_send {Q : V → Prop} {s : St V} (h : From Q s) (b : Bool) : From Q (s.send b) := by
  unfold St.send
  have hb := h.pc b
  split
  · exact h
  · rename_i v r k best e
    rw [e] at hb
    refine from_goto h b _ (fun w hw => ?_)
    rw [findOldest_val _ _ _ _ _ _ _ hw]; exact hb v rfl
  · rename_i v r i w e
    rw [e] at hb
    split
    · refine from_goto (s := { s with slots := put s.slots i .writing }) ⟨h.sent, h.pc⟩ b (.write v i) (fun w hw => by cases hw; exact hb v rfl)
    · refine from_goto h b _ (fun w hw => by rw [again_val _ _ _ hw]; exact hb v rfl)
  · rename_i v i e
    rw [e] at hb
    exact from_goto (s := { s with data := put s.data i v }) ⟨h.sent, h.pc⟩ b (.load v i) (fun w hw => by cases hw; exact hb v rfl)
  · rename_i v i e
    rw [e] at hb
    exact from_goto h b _ (fun w hw => by cases hw; exact hb v rfl)
  · rename_i v i x e
    rw [e] at hb
    exact from_goto (s := { s with cur := x + 1 }) ⟨h.sent, h.pc⟩ b (.reload v i) (fun w hw => by cases hw; exact hb v rfl)
  · rename_i v i e
    rw [e] at hb
    exact from_goto h b _ (fun w hw => by cases hw; exact hb v rfl)
  · rename_i v i x e
    rw [e] at hb
    refine from_goto (s := { s with slots := put s.slots i (.ready x 0), sent := (x, v) :: s.sent }) ⟨?_, h.pc⟩ b .idle (fun w hw => by cases hw)
    intro y hy
    rcases List.mem_cons.1 hy with e | hy
    · subst e; exact hb v rfl
    · exact h.sent y hy

theorem from_step {Q : V → Prop} {s : St V} (hg : Good s) (h : From Q s) (o : Op V) (ho : ∀ b v, o = .send b v → Q v) :
    From Q (step s o) := by
  have other : o.other = true → From Q (step s o) := fun e => by
    have := refs_step hg o e
    exact ⟨by rw [this.sent]; exact h.sent, fun b v => by rw [this.pc]; exact h.pc b v⟩
  cases o with
  | send b v =>
    unfold step; dsimp only
    split
    · exact from_goto h b _ (fun w hw => by cases hw; exact ho b v rfl)
    · exact h
  | sendStep b => exact from_send h b
  | get => exact other rfl
  | getStep sp => exact other rfl
  | take i => exact other rfl
  | drop i => exact other rfl

theorem from_run {Q : V → Prop} {s : St V} (hg : Good s) (h : From Q s) (ops : List (Op V))
    (ho : ∀ b v, Op.send b v ∈ ops → Q v) : From Q (run s ops) := by
  induction ops generalizing s with
  | nil => exact h
  | cons o ops ih =>
    rw [run_cons]
    exact ih (good_step hg o) (from_step hg h o (fun b v e => ho b v (by rw [e]; exact List.mem_cons_self)))
      (fun b v hm => ho b v (List.mem_cons_of_mem _ hm))

theorem from_start (Q : V → Prop) (n : Nat) (v0 : V) : From Q (start n v0) :=
  ⟨(by intro x h; cases h), (by intro b v h; cases b <;> cases h)⟩

/-- Steps of one thread only. -/
theorem sendSteps_succ (s : St V) (b : Bool) (k : Nat) :
    run s (List.replicate (k + 1) (.sendStep b)) = run (s.send b) (List.replicate k (.sendStep b)) := rfl

/-- Six steps from the exchange on. -/
theorem cas_run {s : St V} {b : Bool} {v : V} {r i : Nat} {w : W} (h : s.pc b = .cas v r i w) (hi : s.slots i = w) :
    ∃ ts, (run s (List.replicate 6 (.sendStep b))).sent = (ts, v) :: s.sent ∧
      (run s (List.replicate 6 (.sendStep b))).pc b = .idle ∧
      (run s (List.replicate 6 (.sendStep b))).slots = put s.slots i (.ready ts 0) ∧
      (run s (List.replicate 6 (.sendStep b))).data = put s.data i v := by
  refine ⟨s.cur + 1, ?_⟩
  cases b with
  | false =>
    have h' : s.upd = .cas v r i w := h
    simp only [List.replicate, run, List.foldl, step]
    simp [St.send, St.pc, St.goto, h', hi]
    funext j; simp only [put]; split <;> rfl
  | true =>
    have h' : s.set = .cas v r i w := h
    simp only [List.replicate, run, List.foldl, step]
    simp [St.send, St.pc, St.goto, h', hi]
    funext j; simp only [put]; split <;> rfl

/-- The search, when nothing else happens. -/
theorem find_run (m : Nat) {s : St V} {b : Bool} {v : V} {r k : Nat} {best : Option (Nat × W)}
    (h : s.pc b = .find v r k best) (hm : s.n - k ≤ m)
    (hb : ∀ i w, best = some (i, w) → s.slots i = w ∧ ∃ t, w = .ready t 0)
    (hf : best ≠ none ∨ ∃ i, k ≤ i ∧ i < s.n ∧ (s.slots i).unused) :
    ∃ j i w, j ≤ m + 1 ∧ (run s (List.replicate j (.sendStep b))).pc b = .cas v r i w ∧ s.slots i = w ∧ w.unused ∧
      (run s (List.replicate j (.sendStep b))).slots = s.slots ∧ (run s (List.replicate j (.sendStep b))).sent = s.sent ∧
      (run s (List.replicate j (.sendStep b))).data = s.data := by
  induction m generalizing s k best with
  | zero =>
    have hk : ¬ k < s.n := by omega
    have hbest : best ≠ none := by
      rcases hf with h | ⟨i, h1, h2, _⟩
      · exact h
      · omega
    obtain ⟨⟨i, w⟩, rfl⟩ := Option.ne_none_iff_exists'.1 hbest
    obtain ⟨hi, t, ht⟩ := hb i w rfl
    refine ⟨1, i, w, Nat.le_refl _, ?_⟩
    have e : run s (List.replicate 1 (.sendStep b)) = s.goto b (.cas v r i w) := by
      show s.send b = _
      unfold St.send; rw [h]; dsimp only; unfold findOldest; rw [if_neg hk]
    rw [e]
    exact ⟨goto_pc_same .., hi, Or.inr ⟨t, ht⟩, by simp, by simp, by simp⟩
  | succ m ih =>
    by_cases hk : k < s.n
    · have e : s.send b = s.goto b (findOldest s.n s.slots v r k best) := by unfold St.send; rw [h]
      have next : ∀ best', findOldest s.n s.slots v r k best = .find v r (k + 1) best' →
          (∀ i w, best' = some (i, w) → s.slots i = w ∧ ∃ t, w = .ready t 0) →
          (best' ≠ none ∨ ∃ i, k + 1 ≤ i ∧ i < s.n ∧ (s.slots i).unused) →
          ∃ j i w, j ≤ m + 1 + 1 ∧ (run s (List.replicate j (.sendStep b))).pc b = .cas v r i w ∧ s.slots i = w ∧ w.unused ∧
            (run s (List.replicate j (.sendStep b))).slots = s.slots ∧ (run s (List.replicate j (.sendStep b))).sent = s.sent ∧
            (run s (List.replicate j (.sendStep b))).data = s.data := by
        intro best' e' hb' hf'
        rw [e'] at e
        obtain ⟨j, i, w, h1, h2, h3, h4, h5, h6, h7⟩ := ih (s := s.send b) (k := k + 1) (best := best')
          (by rw [e]; exact goto_pc_same ..) (by rw [e, goto_n]; omega)
          (by rw [e]; simpa using hb') (by rw [e]; simpa using hf')
        refine ⟨j + 1, i, w, by omega, ?_⟩
        rw [sendSteps_succ]
        rw [e] at h2 h3 h5 h6 h7 ⊢
        exact ⟨h2, by simpa using h3, h4, by simpa using h5, by simpa using h6, by simpa using h7⟩
      cases hs : s.slots k with
      | invalid =>
        refine ⟨1, k, .invalid, by omega, ?_⟩
        have e1 : run s (List.replicate 1 (.sendStep b)) = s.goto b (.cas v r k .invalid) := by
          show s.send b = _
          rw [e]; unfold findOldest; rw [if_pos hk, hs]
        rw [e1]
        exact ⟨goto_pc_same .., hs, Or.inl rfl, by simp, by simp, by simp⟩
      | writing =>
        refine next best (by unfold findOldest; rw [if_pos hk, hs]) hb ?_
        rcases hf with hf | ⟨i, h1, h2, h3⟩
        · exact Or.inl hf
        · refine Or.inr ⟨i, ?_, h2, h3⟩
          by_cases e : i = k
          · subst e; rw [hs] at h3; rcases h3 with h3 | ⟨t, h3⟩ <;> cases h3
          · omega
      | ready ts rc =>
        by_cases hc : rc = 0 ∧ older ts best = true
        · refine next (some (k, .ready ts rc)) (by unfold findOldest; rw [if_pos hk, hs]; dsimp only; rw [if_pos hc]) ?_ (Or.inl (by simp))
          intro i w e
          cases e
          exact ⟨hs, ts, by rw [hc.1]⟩
        · refine next best (by unfold findOldest; rw [if_pos hk, hs]; dsimp only; rw [if_neg hc]) hb ?_
          by_cases hn : best = none
          · subst hn
            have hrc : rc ≠ 0 := fun e => hc ⟨e, rfl⟩
            rcases hf with hf | ⟨i, h1, h2, h3⟩
            · exact absurd rfl hf
            · refine Or.inr ⟨i, ?_, h2, h3⟩
              by_cases e : i = k
              · subst e; rw [hs] at h3
                rcases h3 with h3 | ⟨t, h3⟩
                · cases h3
                · cases h3; exact absurd rfl hrc
              · omega
          · exact Or.inl hn
    · obtain ⟨j, i, w, h1, h2⟩ := ih h (by omega) hb hf
      exact ⟨j, i, w, by omega, h2⟩

end Verif.FieldRace
