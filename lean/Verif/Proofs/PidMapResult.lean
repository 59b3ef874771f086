import Verif.Proofs.PidMap
/-! What a registration returns. -/
namespace Verif.PidMap
open Verif

/-- The call was made while the mapping had an entry in use of this application, with pid `p`. -/
def WithOld (a p : Nat) (s : St) : Prop :=
  ∃ i, s.key i = (.used, a) ∧
    match s.pc a with
    | .done (some r) => r = p
    | .done none => False
    | .idle => False
    | _ => s.pid i = p

/-- The call was made with pid `p` while the mapping had no entry in use of this application. -/
def WithoutOld (a p : Nat) (s : St) : Prop :=
  match s.pc a with
  | .done (some r) => r = p
  | .done none => True
  | .takeKey _ => s.cur a = p
  | .newKey _ => s.cur a = p
  | .readOld _ => False
  | .writeOver _ _ => False
  | .idle => False
  | _ => s.cur a = p ∧ ∀ i, s.key i ≠ (.used, a)

theorem withOld_frame {a p : Nat} {s t : St} (f : Frame a s t) (h : WithOld a p s) : WithOld a p t := by
  obtain ⟨i, hk, h⟩ := h
  have hi := f.key (owns_of_key hk (by simp))
  refine ⟨i, hi.1.trans hk, ?_⟩
  rw [f.pc, hi.2]; exact h

theorem withoutOld_frame {a p : Nat} {s t : St} (f : Frame a s t) (h : WithoutOld a p s) : WithoutOld a p t := by
  have hk : (∀ i, s.key i ≠ (.used, a)) → ∀ i, t.key i ≠ (.used, a) := by
    intro hs i ht
    have ho := (f.owns i).mp (owns_of_key ht (by simp))
    exact hs i ((f.key ho).1.symm.trans ht)
  unfold WithoutOld at *
  rw [f.pc, f.cur]
  revert h
  cases s.pc a
  case done r => cases r <;> exact id
  all_goals first
    | exact id
    | exact fun h => ⟨h.1, hk h.2⟩

theorem withOld_go {a p : Nat} {s : St} (hi : AppInv s a) (h : WithOld a p s) (sp : Bool) : WithOld a p (go s a sp) := by
  obtain ⟨i, hk, h⟩ := h
  have ho := owns_of_key hk (by simp)
  have hp := hi.pcs
  unfold PcInv at hp
  cases hpc : s.pc a with
  | idle => rw [hpc] at h; exact h.elim
  | done r => simp only [go, hpc]; exact ⟨i, hk, h⟩
  | find j =>
    rw [hpc] at h hp
    simp only [go, hpc]
    repeat' split
    · exact ⟨i, hk, by dsimp only; rw [upd_self]; exact h⟩
    · exact ⟨i, hk, by dsimp only; rw [upd_self]; exact h⟩
    · exact ⟨i, hk, by dsimp only; rw [upd_self]; exact h⟩
    · exact ⟨i, hk, by dsimp only; rw [upd_self]; exact h⟩
  | readOld j =>
    rw [hpc] at h hp
    simp only [go, hpc]
    exact ⟨i, hk, by dsimp only; rw [upd_self]; exact h⟩
  | writeOver j old =>
    rw [hpc] at h hp
    simp only [go, hpc]
    refine ⟨i, hk, ?_⟩
    dsimp only; rw [upd_self]
    dsimp only at h ⊢
    have : j = i := hi.uniq j i (owns_of_key hp.1 (by simp)) ho
    rw [hp.2.2.1, this, h]
  | takeWrite j =>
    rw [hpc] at hp
    have : j = i := hi.uniq j i (owns_of_key hp.1 (by simp)) ho
    have e := hp.1
    rw [this, hk] at e; simp at e
  | takeKey j =>
    rw [hpc] at hp
    have : j = i := hi.uniq j i (owns_of_key hp.1 (by simp)) ho
    have e := hp.1
    rw [this, hk] at e; simp at e
  | newWrite j =>
    rw [hpc] at hp
    have : j = i := hi.uniq j i (owns_of_key hp.1 (by simp)) ho
    have e := hp.1
    rw [this, hk] at e; simp at e
  | newKey j =>
    rw [hpc] at hp
    have : j = i := hi.uniq j i (owns_of_key hp.1 (by simp)) ho
    have e := hp.1
    rw [this, hk] at e; simp at e
  | scan r j => rw [hpc] at hp; exact absurd ho (hp.1 i)
  | cas r j k => rw [hpc] at hp; exact absurd ho (hp.1 i)

theorem withoutOld_go {a p : Nat} {s : St} (h : WithoutOld a p s) (sp : Bool) : WithoutOld a p (go s a sp) := by
  unfold WithoutOld at h
  cases hpc : s.pc a <;> rw [hpc] at h <;> (try dsimp only at h)
  case done r => simp only [go, hpc]; unfold WithoutOld; rw [hpc]; exact h
  case find j =>
    simp only [go, hpc]
    repeat' split
    · next hu => exact absurd hu (h.2 j)
    all_goals (unfold WithoutOld; dsimp only; rw [upd_self]; exact h)
  case scan r j =>
    simp only [go, hpc]
    repeat' split
    all_goals (unfold WithoutOld; dsimp only; rw [upd_self])
    all_goals first
      | exact h
      | trivial
  case cas r j k =>
    simp only [go, hpc]
    split
    · next hc =>
      unfold WithoutOld; dsimp only; rw [upd_self]
      refine ⟨h.1, ?_⟩
      intro i
      rw [upd_apply]
      split
      · simp
      · exact h.2 i
    · unfold WithoutOld; dsimp only; rw [upd_self]; exact h
  case takeWrite j => simp only [go, hpc]; unfold WithoutOld; dsimp only; rw [upd_self]; exact h.1
  case newWrite j => simp only [go, hpc]; unfold WithoutOld; dsimp only; rw [upd_self]; exact h.1
  case takeKey j => simp only [go, hpc]; unfold WithoutOld; dsimp only; rw [upd_self]; exact h
  case newKey j => simp only [go, hpc]; unfold WithoutOld; dsimp only; rw [upd_self]; exact h
  all_goals exact h.elim

/-- The steps that belong to a call of application `a`, or are steps of others: no new call and no crash of `a`. -/
theorem frame_other {a : Nat} {s : St} (h : ∀ b, AppInv s b) {o : Op} (ho : (∀ p, o ≠ .register a p) ∧ o ≠ .crash a)
    (hg : ∀ sp, o ≠ .go a sp) : Frame a s (step s o) := by
  cases o with
  | register b p =>
    have hb : a ≠ b := fun e => ho.1 p (by rw [e])
    simp only [step]
    split
    · exact ⟨rfl, upd_ne _ _ hb, upd_ne _ _ hb, rfl, upd_ne _ _ hb, fun i => .inl ⟨rfl, rfl⟩⟩
    · exact ⟨rfl, upd_ne _ _ hb, upd_ne _ _ hb, rfl, upd_ne _ _ hb, fun i => .inl ⟨rfl, rfl⟩⟩
    · exact ⟨rfl, rfl, rfl, rfl, rfl, fun i => .inl ⟨rfl, rfl⟩⟩
  | crash b =>
    have hb : a ≠ b := fun e => ho.2 (by rw [e])
    exact ⟨rfl, upd_ne _ _ hb, rfl, rfl, rfl, fun i => .inl ⟨rfl, rfl⟩⟩
  | go b sp =>
    have hb : a ≠ b := fun e => hg sp (by rw [e])
    exact go_frame hb (h b) sp

theorem withOld_run {a p : Nat} {ops : List Op} : ∀ {s : St}, (∀ b, AppInv s b) →
    (∀ o ∈ ops, (∀ p, o ≠ .register a p) ∧ o ≠ .crash a) → WithOld a p s → WithOld a p (run s ops) := by
  induction ops with
  | nil => exact fun _ _ h => h
  | cons o os ih =>
    intro s hi ho h
    refine ih (step_inv hi o) (fun o' ho' => ho o' (by simp [ho'])) ?_
    by_cases hg : ∃ sp, o = .go a sp
    · obtain ⟨sp, rfl⟩ := hg; exact withOld_go (hi a) h sp
    · exact withOld_frame (frame_other hi (ho o (by simp)) (fun sp e => hg ⟨sp, e⟩)) h

theorem withoutOld_run {a p : Nat} {ops : List Op} : ∀ {s : St}, (∀ b, AppInv s b) →
    (∀ o ∈ ops, (∀ p, o ≠ .register a p) ∧ o ≠ .crash a) → WithoutOld a p s → WithoutOld a p (run s ops) := by
  induction ops with
  | nil => exact fun _ _ h => h
  | cons o os ih =>
    intro s hi ho h
    refine ih (step_inv hi o) (fun o' ho' => ho o' (by simp [ho'])) ?_
    by_cases hg : ∃ sp, o = .go a sp
    · obtain ⟨sp, rfl⟩ := hg; exact withoutOld_go h sp
    · exact withoutOld_frame (frame_other hi (ho o (by simp)) (fun sp e => hg ⟨sp, e⟩)) h

end Verif.PidMap
