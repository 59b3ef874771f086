import Verif.Proofs.MethodSub
/-! Registered method call handlers are found and are kept. -/
namespace Verif.MethodSub

/-- At most one handler for a proxy's method at a level. -/
def KeyOnce (regs : List Reg) : Prop :=
  ∀ r ∈ regs, ∀ r' ∈ regs, r.lvl = r'.lvl → r.proxy = r'.proxy → r.method = r'.method → r = r'

theorem keyOnce_sub {regs regs' : List Reg} (h : KeyOnce regs) (hs : ∀ r ∈ regs', r ∈ regs) : KeyOnce regs' :=
  fun r hr r' hr' => h r (hs r hr) r' (hs r' hr')

theorem registerOne_keyOnce {regs regs' : List Reg} {n : Reg} (hk : KeyOnce regs) (h : registerOne regs n = .ok regs') :
    KeyOnce regs' := by
  have he := registerOne_ok h
  have hno : ∀ o ∈ cleanHandlers regs n.skel n.method n.proxy.app n.pid,
      ¬ (o.lvl = n.lvl ∧ o.proxy = n.proxy ∧ o.method = n.method) := by
    unfold registerOne at h
    dsimp only at h
    split at h
    · cases h
    · rename_i hf
      intro o ho hc
      have := List.find?_eq_none.mp hf o ho
      simp [hc] at this
  rw [he]
  intro r hr r' hr' h1 h2 h3
  rcases List.mem_cons.mp hr with rfl | hr <;> rcases List.mem_cons.mp hr' with rfl | hr'
  · rfl
  · exact absurd ⟨h1.symm, h2.symm, h3.symm⟩ (hno r' hr')
  · exact absurd ⟨h1, h2, h3⟩ (hno r hr)
  · exact keyOnce_sub hk (fun _ => cleanHandlers_sub) r hr r' hr' h1 h2 h3

theorem registerAll_keyOnce {c : Cfg} {mk : Nat → Reg} {ms : List Nat} : ∀ {regs regs' new : List Reg},
    KeyOnce regs → registerAll c regs mk ms = .ok (regs', new) → KeyOnce regs' := by
  induction ms with
  | nil =>
    intro regs regs' new hk h
    simp only [registerAll, Except.ok.injEq, Prod.mk.injEq] at h
    obtain ⟨rfl, rfl⟩ := h
    exact hk
  | cons m ms ih =>
    intro regs regs' new hk h
    unfold registerAll at h
    split at h
    · cases h
    · split at h
      · cases h
      · rename_i regs1 h1
        split at h
        · cases h
        · rename_i regs2 new2 h2
          simp only [Except.ok.injEq, Prod.mk.injEq] at h
          obtain ⟨rfl, rfl⟩ := h
          exact ih (registerOne_keyOnce hk h1) h2

/-- The clean-up keeps what is not of another process of the same application and service. -/
theorem cleanHandlers_keeps {regs : List Reg} {k m app pid : Nat} {r : Reg} (hr : r ∈ regs)
    (hp : ¬ (r.skel = k ∧ r.proxy.app = app ∧ r.pid ≠ pid)) : r ∈ cleanHandlers regs k m app pid := by
  unfold cleanHandlers
  split
  · exact hr
  · rename_i hn
    refine List.mem_filter.mpr ⟨hr, ?_⟩
    by_cases hc : r.skel = k ∧ r.method = m ∧ r.proxy.app = app
    · exfalso
      apply hn
      refine List.any_eq_true.mpr ⟨r, hr, ?_⟩
      have : r.pid = pid := Decidable.not_not.mp (fun h => hp ⟨hc.1, hc.2.2, h⟩)
      simp [hc, this]
    · by_cases h1 : r.skel = k
      · by_cases h2 : r.method = m
        · by_cases h3 : r.proxy.app = app
          · exact absurd ⟨h1, h2, h3⟩ hc
          · simp [h3]
        · simp [h2]
      · simp [h1]

theorem registerAll_keeps {c : Cfg} {mk : Nat → Reg} {k app pid : Nat} (hmk : ∀ m, (mk m).skel = k ∧ (mk m).proxy.app = app ∧ (mk m).pid = pid)
    {ms : List Nat} : ∀ {regs regs' new : List Reg}, registerAll c regs mk ms = .ok (regs', new) →
    (∀ r ∈ regs, ¬ (r.skel = k ∧ r.proxy.app = app ∧ r.pid ≠ pid) → r ∈ regs') ∧ ∀ m ∈ ms, mk m ∈ regs' := by
  induction ms with
  | nil =>
    intro regs regs' new h
    simp only [registerAll, Except.ok.injEq, Prod.mk.injEq] at h
    obtain ⟨rfl, rfl⟩ := h
    exact ⟨fun r hr _ => hr, fun m hm => by simp at hm⟩
  | cons m ms ih =>
    intro regs regs' new h
    unfold registerAll at h
    split at h
    · cases h
    · split at h
      · cases h
      · rename_i regs1 h1
        split at h
        · cases h
        · rename_i regs2 new2 h2
          simp only [Except.ok.injEq, Prod.mk.injEq] at h
          obtain ⟨rfl, rfl⟩ := h
          obtain ⟨g1, g2⟩ := ih h2
          have e := registerOne_ok h1
          refine ⟨fun r hr hp => g1 r ?_ hp, fun x hx => ?_⟩
          · rw [e, (hmk m).1, (hmk m).2.1, (hmk m).2.2]
            exact List.mem_cons_of_mem _ (cleanHandlers_keeps hr hp)
          · rcases List.mem_cons.mp hx with rfl | hx
            · refine g1 _ (by rw [e]; exact List.mem_cons_self ..) ?_
              rintro ⟨_, _, h3⟩; exact h3 (hmk _).2.2
            · exact g2 x hx

theorem keyOnce_step {c : Cfg} {s : St} (h : KeyOnce s.regs) (o : Op) : KeyOnce (step c s o).regs := by
  unfold step
  split
  · exact h
  · cases o with
    | offer k => unfold stepCore; dsimp only; split <;> exact h
    | stop k =>
      show KeyOnce (stopStep s k _).regs
      unfold stopStep
      split
      · exact h
      · exact h
      · exact keyOnce_sub h (fun r hr => (List.mem_filter.mp hr).1)
      · exact h
      · split <;> exact h
      · exact h
    | subMsg t k l p uid pid =>
      unfold stepCore; dsimp only
      split
      · exact h
      · split
        · exact h
        · split
          · split <;> exact h
          · exact h
    | subRun t opened =>
      unfold stepCore; dsimp only
      split
      · split
        · unfold onSubscribed; dsimp only
          split
          · exact h
          · split
            · exact h
            · split
              · exact h
              · rename_i regs new hr; exact registerAll_keyOnce h hr
        · exact h
      · exact h
    | unsubMsg t k l p =>
      unfold stepCore; dsimp only
      split
      · exact h
      · split <;> exact h
    | unsubRun t =>
      unfold stepCore; dsimp only
      split
      · split
        · exact keyOnce_sub h (fun r hr => (List.mem_filter.mp hr).1)
        · exact h
      · exact h
    | callMsg t l p m uid =>
      unfold stepCore; dsimp only
      split
      · exact h
      · split <;> exact h
    | callEnter t =>
      unfold stepCore; dsimp only
      split
      · split
        · exact h
        · split <;> exact h
      · exact h
    | callUse t => unfold stepCore; dsimp only; split <;> exact h

theorem keyOnce_of_reachable {c : Cfg} {s : St} (h : Reachable c s) : KeyOnce s.regs := by
  obtain ⟨ops, rfl⟩ := h
  suffices ∀ s : St, KeyOnce s.regs → KeyOnce (run c s ops).regs from this init (fun r hr => by simp [init] at hr)
  induction ops with
  | nil => exact fun _ h => h
  | cons o os ih => exact fun s h => ih _ (keyOnce_step h o)

theorem lookup_of_mem {regs : List Reg} (hk : KeyOnce regs) {r : Reg} (hr : r ∈ regs) :
    lookup regs r.lvl r.proxy r.method = some r := by
  cases hl : lookup regs r.lvl r.proxy r.method with
  | none =>
    have := List.find?_eq_none.mp hl r hr
    simp at this
  | some x =>
    obtain ⟨h1, h2, h3⟩ := lookup_key hl
    rw [hk x (lookup_mem hl) r hr h1 h2 h3]

/-- A handler that can be called is still there and can still be called after a step, unless the service is stopped, another
process of the application subscribes or the proxy is unsubscribed. -/
theorem kept_step {c : Cfg} {s : St} {r : Reg} (hr : r ∈ s.regs) (ha : s.callAlive r.skel r.gen = true) (o : Op)
    (ho : o ≠ .stop r.skel) : ∃ ext, (step c s o).log = ext ++ s.log ∧
      ((r ∈ (step c s o).regs ∧ (step c s o).callAlive r.skel r.gen = true) ∨
        ∃ e ∈ ext, e.OtherProcess r ∨ e.Unsubscribes r) := by
  have same : ∀ s' : St, s'.log = s.log → s'.regs = s.regs → s'.phase = s.phase → s'.gen = s.gen →
      ∃ ext, s'.log = ext ++ s.log ∧ ((r ∈ s'.regs ∧ s'.callAlive r.skel r.gen = true) ∨
        ∃ e ∈ ext, e.OtherProcess r ∨ e.Unsubscribes r) :=
    fun s' h1 h2 h3 h4 => ⟨[], h1, .inl ⟨h2 ▸ hr, by rw [callAlive_eq h4 h3]; exact ha⟩⟩
  unfold step
  split
  · exact same s rfl rfl rfl rfl
  · cases o with
    | offer k =>
      unfold stepCore; dsimp only; split
      · rename_i hp
        refine ⟨[], rfl, .inl ⟨hr, ?_⟩⟩
        by_cases hk : r.skel = k
        · exfalso; rw [hk] at ha; simp [St.callAlive, hp] at ha
        · simp only [St.callAlive] at ha ⊢
          rw [upd_ne _ _ hk, upd_ne _ _ hk]; exact ha
      · exact same s rfl rfl rfl rfl
    | stop k =>
      have hk : r.skel ≠ k := fun h => ho (by rw [h])
      have key : ∀ (s' : St) (ph : Phase), s'.log = s.log → r ∈ s'.regs → s'.phase = upd s.phase k ph → s'.gen = s.gen →
          ∃ ext, s'.log = ext ++ s.log ∧ ((r ∈ s'.regs ∧ s'.callAlive r.skel r.gen = true) ∨
            ∃ e ∈ ext, e.OtherProcess r ∨ e.Unsubscribes r) := by
        intro s' ph h1 h2 h3 h4
        refine ⟨[], h1, .inl ⟨h2, ?_⟩⟩
        simp only [St.callAlive] at ha ⊢
        rw [h3, h4, upd_ne _ _ hk]; exact ha
      unfold stepCore; dsimp only; unfold stopStep
      split
      · exact same s rfl rfl rfl rfl
      · exact key _ _ rfl hr rfl rfl
      · refine key _ _ rfl (List.mem_filter.mpr ⟨hr, by simp [hk]⟩) rfl rfl
      · exact key _ _ rfl hr rfl rfl
      · split
        · exact same s rfl rfl rfl rfl
        · exact key _ _ rfl hr rfl rfl
      · exact key _ _ rfl hr rfl rfl
    | subMsg t k l p uid pid =>
      unfold stepCore; dsimp only
      split
      · exact same s rfl rfl rfl rfl
      · split
        · exact same s rfl rfl rfl rfl
        · split
          · split <;> exact same _ rfl rfl rfl rfl
          · exact same _ rfl rfl rfl rfl
    | subRun t opened =>
      unfold stepCore; dsimp only
      split
      · rename_i k l p uid pid g hpc
        split
        · have hev : (r.skel = k ∧ r.proxy.app = p.app ∧ r.pid ≠ pid) →
              Ev.OtherProcess (.subscribed k l p uid pid) r := by
            rintro ⟨h1, h2, h3⟩; exact ⟨l, p, uid, pid, by rw [h1], h2.symm, fun h => h3 h.symm⟩
          unfold onSubscribed; dsimp only
          split
          · exact ⟨[.subscribed k l p uid pid], rfl, .inl ⟨hr, ha⟩⟩
          · split
            · exact ⟨[.subscribed k l p uid pid], rfl, .inl ⟨hr, ha⟩⟩
            · rename_i ms
              split
              · exact ⟨[.subscribed k l p uid pid], rfl, .inl ⟨hr, ha⟩⟩
              · rename_i regs new hra
                refine ⟨new.reverse.map .registered ++ [.subscribed k l p uid pid], by simp, ?_⟩
                by_cases hp : r.skel = k ∧ r.proxy.app = p.app ∧ r.pid ≠ pid
                · exact .inr ⟨.subscribed k l p uid pid, by simp, .inl (hev hp)⟩
                · exact .inl ⟨(registerAll_keeps (k := k) (app := p.app) (pid := pid) (fun m => ⟨rfl, rfl, rfl⟩) hra).1 r hr hp, ha⟩
        · exact same _ rfl rfl rfl rfl
      · exact same s rfl rfl rfl rfl
    | unsubMsg t k l p =>
      unfold stepCore; dsimp only
      split
      · exact same s rfl rfl rfl rfl
      · split <;> exact same _ rfl rfl rfl rfl
    | unsubRun t =>
      unfold stepCore; dsimp only
      split
      · rename_i k p g hpc
        split
        · refine ⟨[.unsubscribed k p], rfl, ?_⟩
          by_cases hk : r.skel = k ∧ r.proxy = p
          · exact .inr ⟨_, List.mem_cons_self .., .inr (by rw [Ev.Unsubscribes, hk.1, hk.2])⟩
          · refine .inl ⟨List.mem_filter.mpr ⟨hr, ?_⟩, ha⟩
            by_cases h1 : r.skel = k
            · by_cases h2 : r.proxy = p
              · exact absurd ⟨h1, h2⟩ hk
              · simp [h2]
            · simp [h1]
        · exact same _ rfl rfl rfl rfl
      · exact same s rfl rfl rfl rfl
    | callMsg t l p m uid =>
      unfold stepCore; dsimp only
      split
      · exact same s rfl rfl rfl rfl
      · split <;> exact same _ rfl rfl rfl rfl
    | callEnter t =>
      unfold stepCore; dsimp only
      split
      · split
        · exact same _ rfl rfl rfl rfl
        · split
          · exact ⟨[_], rfl, .inl ⟨hr, ha⟩⟩
          · exact same _ rfl rfl rfl rfl
      · exact same s rfl rfl rfl rfl
    | callUse t =>
      unfold stepCore; dsimp only
      split
      · exact ⟨[_], rfl, .inl ⟨hr, ha⟩⟩
      · exact same s rfl rfl rfl rfl

theorem log_step (c : Cfg) (s : St) (o : Op) : ∃ ext, (step c s o).log = ext ++ s.log := by
  unfold step
  split
  · exact ⟨[], rfl⟩
  · cases o with
    | offer k => unfold stepCore; dsimp only; split <;> exact ⟨[], rfl⟩
    | stop k =>
      unfold stepCore; dsimp only; unfold stopStep
      split <;> try exact ⟨[], rfl⟩
      split <;> exact ⟨[], rfl⟩
    | subMsg t k l p uid pid =>
      unfold stepCore; dsimp only
      split
      · exact ⟨[], rfl⟩
      · split
        · exact ⟨[], rfl⟩
        · split
          · split <;> exact ⟨[], rfl⟩
          · exact ⟨[], rfl⟩
    | subRun t opened =>
      unfold stepCore; dsimp only
      split
      · rename_i k l p uid pid g hpc
        split
        · unfold onSubscribed; dsimp only
          split
          · exact ⟨[_], rfl⟩
          · split
            · exact ⟨[_], rfl⟩
            · split
              · exact ⟨[_], rfl⟩
              · rename_i regs new hra
                exact ⟨new.reverse.map .registered ++ [.subscribed k l p uid pid], by simp⟩
        · exact ⟨[], rfl⟩
      · exact ⟨[], rfl⟩
    | unsubMsg t k l p =>
      unfold stepCore; dsimp only
      split
      · exact ⟨[], rfl⟩
      · split <;> exact ⟨[], rfl⟩
    | unsubRun t =>
      unfold stepCore; dsimp only
      split
      · split
        · exact ⟨[_], rfl⟩
        · exact ⟨[], rfl⟩
      · exact ⟨[], rfl⟩
    | callMsg t l p m uid =>
      unfold stepCore; dsimp only
      split
      · exact ⟨[], rfl⟩
      · split <;> exact ⟨[], rfl⟩
    | callEnter t =>
      unfold stepCore; dsimp only
      split
      · split
        · exact ⟨[], rfl⟩
        · split
          · exact ⟨[_], rfl⟩
          · exact ⟨[], rfl⟩
      · exact ⟨[], rfl⟩
    | callUse t =>
      unfold stepCore; dsimp only
      split
      · exact ⟨[_], rfl⟩
      · exact ⟨[], rfl⟩

theorem log_run (c : Cfg) (ops : List Op) : ∀ s : St, ∃ ext, (run c s ops).log = ext ++ s.log := by
  induction ops with
  | nil => exact fun s => ⟨[], rfl⟩
  | cons o os ih =>
    intro s
    obtain ⟨e1, h1⟩ := log_step c s o
    obtain ⟨e2, h2⟩ := ih (step c s o)
    exact ⟨e2 ++ e1, by rw [run, h2, h1, List.append_assoc]⟩

theorem kept_run {c : Cfg} {r : Reg} (ops : List Op) : ∀ {s : St}, r ∈ s.regs → s.callAlive r.skel r.gen = true →
    .stop r.skel ∉ ops → ∃ ext, (run c s ops).log = ext ++ s.log ∧
      ((r ∈ (run c s ops).regs ∧ (run c s ops).callAlive r.skel r.gen = true) ∨
        ∃ e ∈ ext, e.OtherProcess r ∨ e.Unsubscribes r) := by
  induction ops with
  | nil => exact fun hr ha _ => ⟨[], rfl, .inl ⟨hr, ha⟩⟩
  | cons o os ih =>
    intro s hr ha ho
    obtain ⟨e1, h1, h2⟩ := kept_step (c := c) hr ha o (fun h => ho (by rw [h]; exact List.mem_cons_self ..))
    rcases h2 with ⟨h3, h4⟩ | ⟨e, he, h3⟩
    · obtain ⟨e2, g1, g2⟩ := ih h3 h4 (fun h => ho (List.mem_cons_of_mem _ h))
      refine ⟨e2 ++ e1, by rw [run, g1, h1, List.append_assoc], ?_⟩
      rcases g2 with g2 | ⟨e, he, g2⟩
      · exact .inl g2
      · exact .inr ⟨e, List.mem_append_left _ he, g2⟩
    · obtain ⟨e2, g1⟩ := log_run c os (step c s o)
      exact ⟨e2 ++ e1, by rw [run, g1, h1, List.append_assoc], .inr ⟨e, List.mem_append_right _ he, h3⟩⟩

end Verif.MethodSub
