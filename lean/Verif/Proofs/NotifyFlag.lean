import Verif.Spec.NotifyFlag
namespace Verif.NotifyFlag

/-- The thread will make sure that the flag is set. -/
def Phase.Up (s : St) (e : Nat) : Phase → Prop
  | .notify e' v => e' = e ∧ v = true
  | .offerHandlers e' => e' = e
  | .offerNodes e' l => e' = e ∧ (l = true ∨ s.nodes e ≠ [])
  | _ => False

/-- The thread knows something that is still so. -/
def Phase.Knows (s : St) (e : Nat) : Phase → Prop
  | .notify e' v => e' = e → v = false → ¬ Wanted s e
  | .regMsg e' _ l => e' = e → l = true → s.handlers e ≠ []
  | .unregMsg e' _ l => e' = e → l = !(s.handlers e).isEmpty
  | .resetFlag e' => e' = e → s.offered e = false
  | _ => True

structure InvE (s : St) (e : Nat) : Prop where
  main : s.offered e = true → Wanted s e → s.flag e = true ∨ ∃ t, (s.th t).Up s e
  know : ∀ t, (s.th t).Knows s e
  alone : ∀ t, (s.th t).Withdraws e → ∀ t', t' ≠ t → ¬ (s.th t').Concerns e

theorem Phase.Withdraws.concerns {p : Phase} {e : Nat} (h : p.Withdraws e) : p.Concerns e := by
  cases p <;> simp_all [Phase.Withdraws, Phase.Concerns]

theorem Phase.Up.concerns {s : St} {p : Phase} {e : Nat} (h : p.Up s e) : p.Concerns e := by
  cases p <;> simp_all [Phase.Up, Phase.Concerns]

theorem Phase.knows_of_not_concerns {s : St} {p : Phase} {e : Nat} (h : ¬ p.Concerns e) : p.Knows s e := by
  cases p <;> simp_all [Phase.Knows, Phase.Concerns]

/-- Nothing of the event changes and the thread neither was nor is busy with it. -/
theorem inv_frame {s s' : St} {e t : Nat} {φ : Phase} (h : InvE s e) (h1 : s'.handlers e = s.handlers e)
    (h2 : s'.nodes e = s.nodes e) (h3 : s'.offered e = s.offered e) (h4 : s'.flag e = s.flag e)
    (h5 : s'.th = upd s.th t φ) (h6 : ¬ (s.th t).Concerns e) (h7 : ¬ φ.Concerns e) : InvE s' e := by
  have hup : ∀ p : Phase, p.Up s' e ↔ p.Up s e := by intro p; cases p <;> simp [Phase.Up, h2]
  have hkn : ∀ p : Phase, p.Knows s' e ↔ p.Knows s e := by
    intro p; cases p <;> simp [Phase.Knows, Wanted, h1, h2, h3]
  have hcon : ∀ t', (s'.th t').Concerns e → (s.th t').Concerns e := by
    intro t' hc
    rw [h5, upd_apply] at hc
    split at hc
    · exact absurd hc h7
    · exact hc
  constructor
  · intro ho hw
    rw [h4]
    rcases h.main (h3 ▸ ho) (by unfold Wanted at *; rwa [h1, h2] at hw) with hf | ⟨t', ht'⟩
    · exact .inl hf
    · refine .inr ⟨t', ?_⟩
      have hne : t' ≠ t := by rintro rfl; exact h6 ht'.concerns
      rw [h5, upd_ne _ _ hne]
      exact (hup _).mpr ht'
  · intro t'
    rw [hkn, h5, upd_apply]
    split
    · exact Phase.knows_of_not_concerns h7
    · exact h.know t'
  · intro t1 hw t2 hne hc
    have hne1 : t1 ≠ t := by rintro rfl; rw [h5, upd_self] at hw; exact h7 hw.concerns
    rw [h5, upd_ne _ _ hne1] at hw
    exact h.alone t1 hw t2 hne (hcon _ hc)

/-- A thread that withdraws nothing takes the next phase of an operation that withdraws nothing. -/
theorem inv_up {s s' : St} {e t : Nat} {φ : Phase} (h : InvE s e) (h5 : s'.th = upd s.th t φ)
    (hnw : NotWithdrawing s e) (hnw' : ¬ φ.Withdraws e)
    (hh : s.handlers e ≠ [] → s'.handlers e ≠ []) (hφ : φ.Knows s' e)
    (hmain : s'.offered e = true → Wanted s' e → s'.flag e = true ∨ ∃ t', (s'.th t').Up s' e) : InvE s' e := by
  constructor
  · exact hmain
  · intro t'
    rw [h5, upd_apply]
    split
    · exact hφ
    · have hk := h.know t'
      have hw := hnw t'
      cases hp : s.th t' <;> rw [hp] at hk hw <;> simp_all [Phase.Knows, Phase.Withdraws]
  · intro t1 hw
    rw [h5, upd_apply] at hw
    split at hw
    · exact absurd hw hnw'
    · exact absurd hw (hnw t1)

/-- The only thread busy with the event goes on. -/
theorem inv_alone {s s' : St} {e t : Nat} {φ : Phase} (h5 : s'.th = upd s.th t φ)
    (hal : ∀ t', t' ≠ t → ¬ (s.th t').Concerns e) (hφ : φ.Knows s' e)
    (hmain : s'.offered e = true → Wanted s' e → s'.flag e = true ∨ ∃ t', (s'.th t').Up s' e) : InvE s' e := by
  constructor
  · exact hmain
  · intro t'
    rw [h5, upd_apply]
    split
    · exact hφ
    · rename_i hne
      exact Phase.knows_of_not_concerns (hal t' hne)
  · intro t1 hw t2 hne hc
    rw [h5, upd_apply] at hw hc
    split at hw
    · rename_i h1
      subst h1
      rw [if_neg hne] at hc
      exact hal t2 hne hc
    · rename_i h1
      exact hal t1 h1 hw.concerns

theorem not_concerns_idle {e : Nat} : ¬ Phase.Concerns e .idle := id

theorem alone_of_quiet {s : St} {e : Nat} (h : Quiet s e) (t : Nat) : ∀ t', t' ≠ t → ¬ (s.th t').Concerns e :=
  fun t' _ => h t'

theorem up_mono {s s' : St} {e t : Nat} {φ : Phase} (h5 : s'.th = upd s.th t φ) (hn : s.nodes e ≠ [] → s'.nodes e ≠ [])
    (hno : ¬ (s.th t).Up s e) (h : ∃ t', (s.th t').Up s e) : ∃ t', (s'.th t').Up s' e := by
  obtain ⟨t', ht'⟩ := h
  have hne : t' ≠ t := by rintro rfl; exact hno ht'
  refine ⟨t', ?_⟩
  rw [h5, upd_ne _ _ hne]
  revert ht'
  cases s.th t' <;> simp only [Phase.Up, imp_self]
  rintro ⟨h1, h2 | h2⟩
  · exact ⟨h1, .inl h2⟩
  · exact ⟨h1, .inr (hn h2)⟩

theorem inv_register {s : St} {t e : Nat} (h : ∀ e', InvE s e') (hi : s.th t = .idle) (hc : NotWithdrawing s e) (e' : Nat) :
    InvE (register s t e) e' := by
  by_cases he : e' = e
  · subst he
    refine inv_up (h e') rfl hc ?_ ?_ ?_ ?_
    · split <;> simp [Phase.Withdraws]
    · intro _; simp [register]
    · split <;> simp [Phase.Knows]
    · intro ho hw
      by_cases h1 : s.handlers e' = [] ∧ s.nodes e' = []
      · right
        refine ⟨t, ?_⟩
        simp [register, h1, Phase.Up]
      · have hw' : Wanted s e' := by
          unfold Wanted
          by_cases h2 : s.handlers e' = []
          · exact .inr (fun h3 => h1 ⟨h2, h3⟩)
          · exact .inl h2
        rcases (h e').main ho hw' with h2 | h2
        · exact .inl h2
        · exact .inr (up_mono rfl (fun hn => hn) (by rw [hi]; simp [Phase.Up]) h2)
  · refine inv_frame (h e') ?_ rfl rfl rfl rfl (by rw [hi]; exact not_concerns_idle) ?_
    · simp only [register]; rw [upd_ne _ _ he]
    · split <;> simp [Phase.Concerns, Ne.symm he]

theorem inv_unregister {s : St} {t e no : Nat} (h : ∀ e', InvE s e') (hi : s.th t = .idle) (hc : Quiet s e) (e' : Nat) :
    InvE (unregister s t e no) e' := by
  unfold unregister
  split
  case isFalse => exact h e'
  by_cases he : e' = e
  · subst he
    refine inv_alone rfl (alone_of_quiet hc t) ?_ ?_
    · split
      · rename_i hno hem
        intro _ _ hw
        unfold Wanted at hw
        dsimp only at hw
        rw [upd_self] at hw
        rcases hw with hw | hw
        · exact hw hem.1
        · exact hw hem.2
      · simp [Phase.Knows]
    · intro ho hw
      rename_i hno
      have hw' : Wanted s e' := .inl (List.ne_nil_of_mem hno)
      rcases (h e').main ho hw' with h2 | ⟨t', h2⟩
      · exact .inl h2
      · exact absurd h2.concerns (hc t')
  · refine inv_frame (h e') ?_ rfl rfl rfl rfl (by rw [hi]; exact not_concerns_idle) ?_
    · dsimp only; rw [upd_ne _ _ he]
    · split <;> simp [Phase.Concerns, Ne.symm he]

theorem inv_regMsg {s : St} {t e n : Nat} (h : ∀ e', InvE s e') (hi : s.th t = .idle) (hc : NotWithdrawing s e) (e' : Nat) :
    InvE { s with th := upd s.th t (.regMsg e n (!(s.handlers e).isEmpty)) } e' := by
  by_cases he : e' = e
  · subst he
    refine inv_up (h e') rfl hc ?_ ?_ ?_ ?_
    · simp [Phase.Withdraws]
    · exact fun hh => hh
    · simp [Phase.Knows]
    · intro ho hw
      rcases (h e').main ho hw with h2 | h2
      · exact .inl h2
      · exact .inr (up_mono rfl (fun hn => hn) (by rw [hi]; simp [Phase.Up]) h2)
  · exact inv_frame (h e') rfl rfl rfl rfl rfl (by rw [hi]; exact not_concerns_idle) (by simp [Phase.Concerns, Ne.symm he])

theorem inv_unregMsg {s : St} {t e n : Nat} (h : ∀ e', InvE s e') (hi : s.th t = .idle) (hc : Quiet s e) (e' : Nat) :
    InvE { s with th := upd s.th t (.unregMsg e n (!(s.handlers e).isEmpty)) } e' := by
  by_cases he : e' = e
  · subst he
    refine inv_alone rfl (alone_of_quiet hc t) ?_ ?_
    · simp [Phase.Knows]
    · intro ho hw
      rcases (h e').main ho hw with h2 | ⟨t', h2⟩
      · exact .inl h2
      · exact absurd h2.concerns (hc t')
  · exact inv_frame (h e') rfl rfl rfl rfl rfl (by rw [hi]; exact not_concerns_idle) (by simp [Phase.Concerns, Ne.symm he])

theorem inv_offer {s : St} {t e : Nat} (h : ∀ e', InvE s e') (hi : s.th t = .idle) (hc : NotWithdrawing s e) (e' : Nat) :
    InvE { s with offered := upd s.offered e true, th := upd s.th t (.offerHandlers e) } e' := by
  by_cases he : e' = e
  · subst he
    refine inv_up (h e') rfl hc ?_ ?_ ?_ ?_
    · simp [Phase.Withdraws]
    · exact fun hh => hh
    · simp [Phase.Knows]
    · intro ho hw
      exact .inr ⟨t, by simp [Phase.Up]⟩
  · refine inv_frame (h e') rfl rfl ?_ rfl rfl (by rw [hi]; exact not_concerns_idle) (by simp [Phase.Concerns, Ne.symm he])
    dsimp only; rw [upd_ne _ _ he]

theorem inv_stopOffer {s : St} {t e : Nat} (h : ∀ e', InvE s e') (hi : s.th t = .idle) (hc : Quiet s e) (e' : Nat) :
    InvE { s with offered := upd s.offered e false, th := upd s.th t (.resetFlag e) } e' := by
  by_cases he : e' = e
  · subst he
    refine inv_alone rfl (alone_of_quiet hc t) ?_ ?_
    · simp [Phase.Knows]
    · intro ho hw
      simp at ho
  · refine inv_frame (h e') rfl rfl ?_ rfl rfl (by rw [hi]; exact not_concerns_idle) (by simp [Phase.Concerns, Ne.symm he])
    dsimp only; rw [upd_ne _ _ he]

theorem inv_outdated {s : St} {n : Nat} (h : ∀ e', InvE s e') (hc : ∀ t, ¬ (s.th t).Offers) (e : Nat) :
    InvE (outdated s n) e := by
  have hsub : Wanted (outdated s n) e → Wanted s e := by
    rintro (h1 | h1)
    · exact .inl h1
    · refine .inr (fun h2 => h1 ?_)
      simp [outdated, h2]
  constructor
  · intro ho hw
    rcases (h e).main ho (hsub hw) with h2 | ⟨t, h2⟩
    · exact .inl h2
    · refine .inr ⟨t, ?_⟩
      have hn := hc t
      show ((s.th t)).Up (outdated s n) e
      revert h2 hn
      cases s.th t <;> simp [Phase.Up, Phase.Offers]
  · intro t
    have hk := (h e).know t
    show ((s.th t)).Knows (outdated s n) e
    revert hk
    cases s.th t <;> simp only [Phase.Knows, imp_self, outdated]
    intro h1 h2 h3 hw
    exact h1 h2 h3 (hsub hw)
  · exact (h e).alone

theorem inv_go {s : St} {t : Nat} (h : ∀ e', InvE s e') (e' : Nat) : InvE (step s (.go t)) e' := by
  simp only [step]
  have hknow := (h e').know t
  have halone := (h e').alone t
  cases hp : s.th t with
  | idle => exact h e'
  | notify e v =>
    dsimp only
    rw [hp] at hknow halone
    by_cases he : e' = e
    · subst he
      cases v with
      | false =>
        refine inv_alone rfl (halone ⟨rfl, rfl⟩) (by simp [Phase.Knows]) ?_
        intro ho hw
        exact absurd hw (hknow rfl rfl)
      | true =>
        by_cases hall : NotWithdrawing s e'
        · refine inv_up (h e') rfl hall (by simp [Phase.Withdraws]) (fun hh => hh) (by simp [Phase.Knows]) ?_
          intro ho hw
          left
          have ho' : s.offered e' = true := ho
          simp [notify, ho']
        · exfalso
          unfold NotWithdrawing at hall
          obtain ⟨t1, ht1⟩ := Classical.not_forall.mp hall
          have ht1 := Classical.not_not.mp ht1
          by_cases hne : t = t1
          · subst hne; rw [hp] at ht1; simp [Phase.Withdraws] at ht1
          · refine (h e').alone t1 ht1 t hne ?_
            rw [hp]; rfl
    · refine inv_frame (h e') rfl rfl rfl ?_ rfl (by rw [hp]; exact fun hc => he hc.symm) not_concerns_idle
      simp only [notify]; split
      · rw [upd_ne _ _ he]
      · rfl
  | regMsg e n l =>
    dsimp only
    rw [hp] at hknow
    by_cases he : e' = e
    · subst he
      by_cases hall : NotWithdrawing s e'
      · refine inv_up (h e') rfl hall ?_ (fun hh => hh) ?_ ?_
        · split <;> simp [Phase.Withdraws]
        · split <;> simp [Phase.Knows]
        · intro ho hw
          by_cases h1 : n ∉ s.nodes e' ∧ s.nodes e' = [] ∧ l = false
          · right
            refine ⟨t, ?_⟩
            simp [regNode, h1, Phase.Up]
          · have hw' : Wanted s e' := by
              by_cases h2 : s.nodes e' = []
              · cases l with
                | true => exact .inl (hknow rfl rfl)
                | false => exact absurd ⟨by simp [h2], h2, rfl⟩ h1
              · exact .inr h2
            rcases (h e').main ho hw' with h2 | h2
            · exact .inl h2
            · refine .inr (up_mono rfl ?_ (by rw [hp]; simp [Phase.Up]) h2)
              intro hn
              simp only [regNode, upd_self]
              split
              · exact hn
              · simp
      · exfalso
        obtain ⟨t1, ht1⟩ := Classical.not_forall.mp hall
        have ht1 := Classical.not_not.mp ht1
        by_cases hne : t = t1
        · subst hne; rw [hp] at ht1; simp [Phase.Withdraws] at ht1
        · refine (h e').alone t1 ht1 t hne ?_
          rw [hp]; rfl
    · refine inv_frame (h e') rfl ?_ rfl rfl rfl (by rw [hp]; exact fun hc => he hc.symm) ?_
      · simp only [regNode]; rw [upd_ne _ _ he]
      · split <;> simp [Phase.Concerns, Ne.symm he]
  | unregMsg e n l =>
    dsimp only
    rw [hp] at hknow halone
    by_cases he : e' = e
    · subst he
      have hl := hknow rfl
      have hal := halone rfl
      refine inv_alone rfl hal ?_ ?_
      · split
        · rename_i hem
          intro _ _ hw
          unfold Wanted at hw
          simp only [unregNode, upd_self] at hw
          rcases hw with hw | hw
          · rw [hem.2.2] at hl
            simp at hl
            exact hw hl
          · exact hw hem.2.1
        · simp [Phase.Knows]
      · intro ho hw
        have hw' : Wanted s e' := by
          rcases hw with hw | hw
          · exact .inl hw
          · refine .inr (fun h2 => hw ?_)
            simp [unregNode, h2]
        rcases (h e').main ho hw' with h2 | ⟨t', h2⟩
        · exact .inl h2
        · exfalso
          by_cases hne : t' = t
          · subst hne; rw [hp] at h2; simp [Phase.Up] at h2
          · exact hal t' hne h2.concerns
    · refine inv_frame (h e') rfl ?_ rfl rfl rfl (by rw [hp]; exact fun hc => he hc.symm) ?_
      · simp only [unregNode]; rw [upd_ne _ _ he]
      · split <;> simp [Phase.Concerns, Ne.symm he]
  | offerHandlers e =>
    dsimp only
    by_cases he : e' = e
    · subst he
      have hall : NotWithdrawing s e' := by
        intro t1 ht1
        by_cases hne : t = t1
        · subst hne; rw [hp] at ht1; exact ht1
        · refine (h e').alone t1 ht1 t hne ?_
          rw [hp]; rfl
      refine inv_up (h e') rfl hall (by simp [Phase.Withdraws]) (fun hh => hh) (by simp [Phase.Knows]) ?_
      intro ho hw
      right
      refine ⟨t, ?_⟩
      simp only [upd_self, Phase.Up, true_and]
      rcases hw with hw | hw
      · left
        have hw' : s.handlers e' ≠ [] := hw
        simp [hw']
      · exact .inr hw
    · exact inv_frame (h e') rfl rfl rfl rfl rfl (by rw [hp]; exact fun hc => he hc.symm)
        (by simp [Phase.Concerns, Ne.symm he])
  | offerNodes e l =>
    dsimp only
    by_cases he : e' = e
    · subst he
      have hall : NotWithdrawing s e' := by
        intro t1 ht1
        by_cases hne : t = t1
        · subst hne; rw [hp] at ht1; exact ht1
        · refine (h e').alone t1 ht1 t hne ?_
          rw [hp]; rfl
      refine inv_up (h e') rfl hall (by split <;> simp [Phase.Withdraws]) (fun hh => hh) (by split <;> simp [Phase.Knows]) ?_
      intro ho hw
      by_cases h1 : l = true ∨ s.nodes e' ≠ []
      · right
        refine ⟨t, ?_⟩
        have h2 : (l || !(s.nodes e').isEmpty) = true := by
          rcases h1 with h1 | h1
          · simp [h1]
          · simp [h1]
        simp [h2, Phase.Up]
      · rcases (h e').main ho hw with h2 | h2
        · exact .inl h2
        · refine .inr (up_mono rfl (fun hn => hn) ?_ h2)
          rw [hp]
          rintro ⟨_, h3⟩
          exact h1 h3
    · refine inv_frame (h e') rfl rfl rfl rfl rfl (by rw [hp]; exact fun hc => he hc.symm) ?_
      split <;> simp [Phase.Concerns, Ne.symm he]
  | resetFlag e =>
    dsimp only
    rw [hp] at hknow halone
    by_cases he : e' = e
    · subst he
      refine inv_alone rfl (halone rfl) (by simp [Phase.Knows]) ?_
      intro ho hw
      have := hknow rfl
      rw [show s.offered e' = true from ho] at this
      exact absurd this (by decide)
    · refine inv_frame (h e') rfl rfl rfl ?_ rfl (by rw [hp]; exact fun hc => he hc.symm) not_concerns_idle
      dsimp only; rw [upd_ne _ _ he]

theorem inv_step {s : St} {o : Op} (h : ∀ e, InvE s e) (hc : Calm s o) : ∀ e, InvE (step s o) e := by
  intro e
  cases o with
  | go t => exact inv_go h e
  | outdated n => exact inv_outdated h hc e
  | register t e0 => simp only [step]; split; (next hi => exact inv_register h hi hc e); exact h e
  | unregister t e0 no => simp only [step]; split; (next hi => exact inv_unregister h hi hc e); exact h e
  | regMsg t e0 n => simp only [step]; split; (next hi => exact inv_regMsg h hi hc e); exact h e
  | unregMsg t e0 n => simp only [step]; split; (next hi => exact inv_unregMsg h hi hc e); exact h e
  | offer t e0 => simp only [step]; split; (next hi => exact inv_offer h hi hc e); exact h e
  | stopOffer t e0 => simp only [step]; split; (next hi => exact inv_stopOffer h hi hc e); exact h e

theorem inv_run {ops : List Op} : ∀ {s : St}, (∀ e, InvE s e) → CalmRun s ops → ∀ e, InvE (run s ops) e := by
  induction ops with
  | nil => intro s h _; exact h
  | cons o os ih => intro s h hc; exact ih (inv_step h hc.1) hc.2

theorem inv_init (e : Nat) : InvE init e := by
  constructor
  · intro h; simp [init] at h
  · intro t; simp [init, Phase.Knows]
  · intro t h; simp [init, Phase.Withdraws] at h

/-- The tables say what the book says. -/
structure Faithful (s : St) (b : Book) : Prop where
  handlers : ∀ e no, no ∈ s.handlers e ↔ b.locals e no = true
  nodes : ∀ e n, n ∈ s.nodes e ↔ b.remote e n = true
  offered : ∀ e, s.offered e = b.offered e
  nodup : ∀ e, (s.handlers e).Nodup
  fresh : ∀ e, ∀ no ∈ s.handlers e, no < s.nextNo

theorem faithful_step {s : St} {b : Book} (h : Faithful s b) (o : Op) : Faithful (step s o) (b.note s o) := by
  obtain ⟨h1, h2, h3, h4, h5⟩ := h
  cases o with
  | register t e =>
    by_cases hi : s.th t = .idle
    · rw [show step s (.register t e) = register s t e by simp [step, hi],
        show b.note s (.register t e) = { b with locals := upd b.locals e (upd (b.locals e) s.nextNo true) } by
          simp [Book.note, hi]]
      constructor
      · intro e' no
        dsimp only [register]
        rw [upd_apply, upd_apply]
        split
        · subst e'
          rw [upd_apply, List.mem_append, h1]
          by_cases hn : no = s.nextNo <;> simp [hn]
        · exact h1 e' no
      · exact h2
      · exact h3
      · intro e'
        dsimp only [register]
        rw [upd_apply]
        split
        · rw [List.nodup_append]
          refine ⟨h4 e, by simp, ?_⟩
          intro a ha c hc
          have := h5 e a ha
          simp only [List.mem_singleton] at hc
          omega
        · exact h4 e'
      · intro e' no
        dsimp only [register]
        rw [upd_apply]
        split
        · intro hm
          rcases List.mem_append.mp hm with hm | hm
          · have := h5 e no hm; omega
          · simp only [List.mem_singleton] at hm; omega
        · intro hm; have := h5 e' no hm; omega
    · rw [show step s (.register t e) = s by simp [step, hi], show b.note s (.register t e) = b by simp [Book.note, hi]]
      exact ⟨h1, h2, h3, h4, h5⟩
  | unregister t e no =>
    by_cases hi : s.th t = .idle
    · rw [show step s (.unregister t e no) = unregister s t e no by simp [step, hi],
        show b.note s (.unregister t e no) = { b with locals := upd b.locals e (upd (b.locals e) no false) } by
          simp [Book.note, hi]]
      unfold unregister
      split
      · next hm =>
        constructor
        · intro e' k
          dsimp only
          rw [upd_apply, upd_apply]
          split
          · subst e'
            rw [upd_apply, (h4 e).mem_erase_iff, h1]
            by_cases hk : k = no <;> simp [hk]
          · exact h1 e' k
        · exact h2
        · exact h3
        · intro e'
          dsimp only
          rw [upd_apply]
          split
          · exact (h4 e).erase no
          · exact h4 e'
        · intro e' k
          dsimp only
          rw [upd_apply]
          split
          · exact fun hk => h5 e k (List.mem_of_mem_erase hk)
          · exact h5 e' k
      · next hm =>
        refine ⟨?_, h2, h3, h4, h5⟩
        intro e' k
        dsimp only
        rw [upd_apply]
        split
        · subst e'
          rw [upd_apply]
          split
          · subst k; simp [hm]
          · exact h1 e k
        · exact h1 e' k
    · rw [show step s (.unregister t e no) = s by simp [step, hi], show b.note s (.unregister t e no) = b by simp [Book.note, hi]]
      exact ⟨h1, h2, h3, h4, h5⟩
  | regMsg t e n =>
    by_cases hi : s.th t = .idle <;> simp only [step, hi, Book.note, if_true, if_false] <;> exact ⟨h1, h2, h3, h4, h5⟩
  | unregMsg t e n =>
    by_cases hi : s.th t = .idle <;> simp only [step, hi, Book.note, if_true, if_false] <;> exact ⟨h1, h2, h3, h4, h5⟩
  | outdated n =>
    refine ⟨h1, ?_, h3, h4, h5⟩
    intro e k
    show k ∈ (s.nodes e).filter (· != n) ↔ upd (b.remote e) n false k = true
    rw [upd_apply, List.mem_filter, h2]
    by_cases hk : k = n <;> simp [hk]
  | offer t e =>
    by_cases hi : s.th t = .idle <;> simp only [step, hi, Book.note, if_true, if_false]
    · refine ⟨h1, h2, ?_, h4, h5⟩
      intro e'
      dsimp only
      rw [upd_apply, upd_apply, h3]
    · exact ⟨h1, h2, h3, h4, h5⟩
  | stopOffer t e =>
    by_cases hi : s.th t = .idle <;> simp only [step, hi, Book.note, if_true, if_false]
    · refine ⟨h1, h2, ?_, h4, h5⟩
      intro e'
      dsimp only
      rw [upd_apply, upd_apply, h3]
    · exact ⟨h1, h2, h3, h4, h5⟩
  | go t =>
    cases hp : s.th t with
    | regMsg e n l =>
      simp only [step, Book.note, hp]
      refine ⟨h1, ?_, h3, h4, h5⟩
      intro e' k
      dsimp only [regNode]
      rw [upd_apply, upd_apply]
      split
      · subst e'
        rw [upd_apply]
        by_cases hm : n ∈ s.nodes e <;> by_cases hk : k = n <;> simp [hm, hk, h2] <;> simpa [h2] using hm
      · exact h2 e' k
    | unregMsg e n l =>
      simp only [step, Book.note, hp]
      refine ⟨h1, ?_, h3, h4, h5⟩
      intro e' k
      dsimp only [unregNode]
      rw [upd_apply, upd_apply]
      split
      · subst e'
        rw [upd_apply, List.mem_filter, h2]
        by_cases hk : k = n <;> simp [hk]
      · exact h2 e' k
    | _ => simp only [step, Book.note, hp, notify]; exact ⟨h1, h2, h3, h4, h5⟩

theorem faithful_run {ops : List Op} : ∀ {s : St} {b : Book}, Faithful s b → Faithful (run s ops) (watch s b ops) := by
  induction ops with
  | nil => exact id
  | cons o os ih => exact fun h => ih (faithful_step h o)

theorem faithful_init : Faithful init Book.empty :=
  ⟨fun _ _ => by simp [init, Book.empty], fun _ _ => by simp [init, Book.empty], fun _ => rfl, fun _ => List.nodup_nil,
    fun _ _ h => by simp [init] at h⟩

theorem wanted_of_interested {s : St} {b : Book} (h : Faithful s b) {e : Nat} (hi : b.Interested e) : Wanted s e := by
  rcases hi with ⟨no, hn⟩ | ⟨n, hn⟩
  · exact .inl (List.ne_nil_of_mem ((h.handlers e no).mpr hn))
  · exact .inr (List.ne_nil_of_mem ((h.nodes e n).mpr hn))

/-- A flag that is set belongs to an offered event or is about to be reset. -/
def FlagOk (s : St) : Prop := ∀ e, s.flag e = true → s.offered e = true ∨ ∃ t, s.th t = .resetFlag e

theorem flagOk_frame {s s' : St} {t : Nat} {φ : Phase} (h : FlagOk s) (ht : ∀ e, s.th t ≠ .resetFlag e)
    (h1 : ∀ e, s'.flag e = true → s.flag e = true ∨ s.offered e = true) (h2 : ∀ e, s.offered e = true → s'.offered e = true)
    (h3 : s'.th = upd s.th t φ) : FlagOk s' := by
  intro e hf
  have key : s.offered e = true ∨ ∃ t, s.th t = .resetFlag e := (h1 e hf).elim (h e) .inl
  rcases key with ho | ⟨t', ht'⟩
  · exact .inl (h2 e ho)
  · have hne : t' ≠ t := by rintro rfl; exact ht e ht'
    exact .inr ⟨t', by rw [h3, upd_ne _ _ hne]; exact ht'⟩

theorem flagOk_step {s : St} (h : FlagOk s) (o : Op) : FlagOk (step s o) := by
  cases o with
  | register t e =>
    simp only [step]; split
    · next hi => exact flagOk_frame (t := t) h (by simp [hi]) (fun _ => .inl) (fun _ => id) rfl
    · exact h
  | unregister t e no =>
    simp only [step]; split
    · next hi =>
      unfold unregister; split
      · exact flagOk_frame (t := t) h (by simp [hi]) (fun _ => .inl) (fun _ => id) rfl
      · exact h
    · exact h
  | regMsg t e n =>
    simp only [step]; split
    · next hi => exact flagOk_frame (t := t) h (by simp [hi]) (fun _ => .inl) (fun _ => id) rfl
    · exact h
  | unregMsg t e n =>
    simp only [step]; split
    · next hi => exact flagOk_frame (t := t) h (by simp [hi]) (fun _ => .inl) (fun _ => id) rfl
    · exact h
  | outdated n => exact h
  | offer t e =>
    simp only [step]; split
    · next hi =>
      refine flagOk_frame (t := t) h (by simp [hi]) (fun _ => .inl) ?_ rfl
      intro e' ho; dsimp only; rw [upd_apply]; split
      · rfl
      · exact ho
    · exact h
  | stopOffer t e =>
    simp only [step]; split
    · next hi =>
      intro e' hf
      dsimp only at hf ⊢
      by_cases he : e' = e
      · subst he; exact .inr ⟨t, upd_self ..⟩
      · rcases h e' hf with ho | ⟨t', ht'⟩
        · exact .inl (by rw [upd_ne _ _ he]; exact ho)
        · have hne : t' ≠ t := by rintro rfl; rw [hi] at ht'; cases ht'
          exact .inr ⟨t', by rw [upd_ne _ _ hne]; exact ht'⟩
    · exact h
  | go t =>
    cases hp : s.th t with
    | idle => simp only [step, hp]; exact h
    | notify e v =>
      simp only [step, hp]
      refine flagOk_frame (t := t) h (by simp [hp]) ?_ (fun _ => id) rfl
      intro e'; dsimp only [notify]; split
      · next ho =>
        rw [upd_apply]; split
        · next he => subst he; exact fun _ => .inr ho
        · exact .inl
      · exact .inl
    | resetFlag e =>
      simp only [step, hp]
      intro e' hf
      dsimp only at hf ⊢
      rw [upd_apply] at hf
      split at hf
      · cases hf
      · next he =>
        rcases h e' hf with ho | ⟨t', ht'⟩
        · exact .inl ho
        · have hne : t' ≠ t := by
            rintro rfl; rw [hp] at ht'; injection ht' with ht'; exact he ht'.symm
          exact .inr ⟨t', by rw [upd_ne _ _ hne]; exact ht'⟩
    | _ => simp only [step, hp]; exact flagOk_frame (t := t) h (by simp [hp]) (fun _ => .inl) (fun _ => id) rfl

theorem flagOk_run {ops : List Op} : ∀ {s : St}, FlagOk s → FlagOk (run s ops) := by
  induction ops with
  | nil => exact id
  | cons o os ih => exact fun h => ih (flagOk_step h o)

end Verif.NotifyFlag
