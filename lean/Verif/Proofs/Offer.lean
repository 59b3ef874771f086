import Verif.Spec.Offer
/-! Proofs about offering services. -/
namespace Verif.Offer

theorem run_append (c : Cfg) (s : St) (a b : List Op) : run c s (a ++ b) = run c (run c s a) b := by
  induction a generalizing s with
  | nil => rfl
  | cons o os ih => exact ih _

/-! ## Every file is held by an offer or by a call, or is left over -/

def Pc.Holds (pc : Pc) (p : Nat) (f : File) : Prop :=
  f.pid = p ∧
  match pc with
  | .idle => False
  | .list j | .remove j _ _ | .mkdir j | .create j => f.inst = j.inst ∧ f.dis = j.dis ∧ f.q ∈ j.made
  | .perm j => f.inst = j.inst ∧ f.dis = j.dis ∧ (f.q ∈ j.made ∨ f.q = j.q)
  | .insert i d _ made => f.inst = i ∧ f.dis = d ∧ f.q ∈ made
  | .undo i d qs _ _ => f.inst = i ∧ f.dis = d ∧ f.q ∈ qs

def Held (c : Cfg) (s : St) (f : File) : Prop :=
  (∃ o, s.tbl f.pid f.inst = some o ∧ o.dis = f.dis ∧ f.q ∈ o.quals) ∨ ∃ t, (s.pc t).Holds (c t) f

structure Acc (c : Cfg) (s : St) : Prop where
  made : ∀ f ∈ s.files, Ev.created f ∈ s.log
  held : ∀ f ∈ s.files, LeftOver s.log f ∨ Held c s f

theorem LeftOver.cons {log : List Ev} {f : File} (h : LeftOver log f) {e : Ev} (he : e ≠ .created f) : LeftOver (e :: log) f := by
  obtain ⟨post, pre, h1, h2, h3⟩ := h
  refine ⟨e :: post, pre, by rw [h1]; rfl, ?_, ?_⟩
  · intro hm
    rcases List.mem_cons.mp hm with h | h
    · exact he h.symm
    · exact h2 h
  · rcases h3 with h | h
    · exact .inl (List.mem_cons_of_mem _ h)
    · exact .inr (List.mem_cons_of_mem _ h)

theorem leftOver_new {log : List Ev} {f : File} (h : Ev.created f ∈ log) {e : Ev} (he : e = .crashed f.pid ∨ e = .leaked f) :
    LeftOver (e :: log) f := by
  obtain ⟨post, pre, h1, h2⟩ := List.eq_append_cons_of_mem h
  refine ⟨e :: post, pre, by rw [h1]; rfl, ?_, ?_⟩
  · intro hm
    rcases List.mem_cons.mp hm with h | h
    · rcases he with he | he <;> rw [he] at h <;> cases h
    · exact h2 h
  · rcases he with he | he <;> rw [he]
    · exact .inl List.mem_cons_self
    · exact .inr List.mem_cons_self

/-- The pc of one thread changes and it still holds what it held among the files that remain. -/
theorem acc_pc {c : Cfg} {s s' : St} (h : Acc c s) (t : Nat) (pc : Pc) (hp : s'.pc = upd s.pc t pc) (ht : s'.tbl = s.tbl)
    (hf : ∀ f ∈ s'.files, f ∈ s.files) (hl : ∀ f ∈ s'.files, Ev.created f ∈ s.log → Ev.created f ∈ s'.log)
    (hlo : ∀ f ∈ s'.files, LeftOver s.log f → LeftOver s'.log f)
    (hk : ∀ f ∈ s'.files, (s.pc t).Holds (c t) f → pc.Holds (c t) f ∨ LeftOver s'.log f) : Acc c s' := by
  refine ⟨fun f hm => hl f hm (h.made f (hf f hm)), fun f hm => ?_⟩
  rcases h.held f (hf f hm) with h1 | ⟨o, ho⟩ | ⟨t', h1⟩
  · exact .inl (hlo f hm h1)
  · exact .inr (.inl ⟨o, by rw [ht]; exact ho⟩)
  · by_cases e : t' = t
    · subst e
      rcases hk f hm h1 with h2 | h2
      · exact .inr (.inr ⟨t', by rw [hp, upd_self]; exact h2⟩)
      · exact .inl h2
    · exact .inr (.inr ⟨t', by rw [hp, upd_ne _ _ e]; exact h1⟩)

theorem acc_pc_only {c : Cfg} {s : St} (h : Acc c s) (t : Nat) (pc : Pc)
    (hk : ∀ f ∈ s.files, (s.pc t).Holds (c t) f → pc.Holds (c t) f) : Acc c { s with pc := upd s.pc t pc } :=
  acc_pc h t pc rfl rfl (fun _ h => h) (fun _ _ h => h) (fun _ _ h => h) (fun f hm h => .inl (hk f hm h))

theorem acc_log {c : Cfg} {s : St} (h : Acc c s) (e : Ev) (he : ∀ f, e ≠ .created f) : Acc c { s with log := e :: s.log } := by
  refine ⟨fun f hm => List.mem_cons_of_mem _ (h.made f hm), fun f hm => ?_⟩
  rcases h.held f hm with h1 | h1
  · exact .inl (h1.cons (he f))
  · exact .inr h1

theorem acc_crash {c : Cfg} {s : St} (h : Acc c s) (p : Nat) : Acc c (crash c s p) := by
  refine ⟨fun f hm => List.mem_cons_of_mem _ (h.made f hm), fun f hm => ?_⟩
  by_cases e : f.pid = p
  · exact .inl (leftOver_new (h.made f hm) (.inl (by rw [e])))
  · rcases h.held f hm with h1 | ⟨o, ho⟩ | ⟨t, h1⟩
    · exact .inl (h1.cons (by intro h; cases h))
    · refine .inr (.inl ⟨o, ?_⟩)
      show upd s.tbl p _ f.pid f.inst = _ ∧ _
      rw [upd_ne _ _ e]
      exact ho
    · refine .inr (.inr ⟨t, ?_⟩)
      show Pc.Holds (if c t = p then .idle else s.pc t) (c t) f
      rw [if_neg (by rw [← h1.1]; exact e)]
      exact h1

theorem mem_drop {fs : List File} {f g : File} : g ∈ fs.filter (fun x => x != f) ↔ g ∈ fs ∧ g ≠ f := by
  simp [List.mem_filter]

theorem acc_finish {c : Cfg} {s : St} (h : Acc c s) (t inst : Nat) (locked : Bool) (res : Res) (i d : Nat) (l : Bool) (r : Res)
    (hpc : s.pc t = .undo i d [] l r) : Acc c (finish s (c t) t inst locked res) := by
  have key : ∀ f ∈ s.files, (s.pc t).Holds (c t) f → Pc.idle.Holds (c t) f := by
    intro f _ h1
    rw [hpc] at h1
    exact absurd h1.2.2.2 List.not_mem_nil
  have h' := acc_pc_only h t .idle key
  cases res with
  | offered b => exact acc_log h' _ (by intro f h; cases h)
  | failed => exact acc_log h' _ (by intro f h; cases h)
  | stopped => exact ⟨h'.made, h'.held⟩

theorem acc_next {c : Cfg} {s : St} (h : Acc c s) (t : Nat) (ok : Bool) : Acc c (next c s t ok) := by
  unfold next
  dsimp only
  split
  · exact h
  · next j hpc => exact acc_pc_only h t _ (by intro f _ hh; rw [hpc] at hh; exact hh)
  · next j failed hpc =>
    split
    · exact acc_pc_only h t _ (by intro f _ hh; rw [hpc] at hh; exact hh)
    · exact acc_pc_only h t _ (by intro f _ hh; rw [hpc] at hh; exact hh)
  · next j f fs failed hpc =>
    split
    · exact acc_pc h t _ rfl rfl (fun g hg => (mem_drop.mp hg).1) (fun _ _ h => h) (fun _ _ h => h)
        (fun g _ hh => .inl (by rw [hpc] at hh; exact hh))
    · exact acc_pc_only h t _ (by intro f _ hh; rw [hpc] at hh; exact hh)
  · next j hpc =>
    split
    · exact acc_pc_only h t _ (by intro f _ hh; rw [hpc] at hh; exact hh)
    · exact acc_pc_only h t _ (by intro f _ hh; rw [hpc] at hh; exact hh)
  · next j hpc =>
    split
    · refine ⟨fun f hm => ?_, fun f hm => ?_⟩
      · rcases List.mem_cons.mp hm with e | e
        · rw [e]; exact List.mem_cons_self
        · exact List.mem_cons_of_mem _ (h.made f (mem_drop.mp e).1)
      · rcases List.mem_cons.mp hm with e | e
        · refine .inr (.inr ⟨t, ?_⟩)
          show (upd s.pc t _ t).Holds _ _
          rw [upd_self, e]
          exact ⟨rfl, rfl, rfl, .inr rfl⟩
        · obtain ⟨e1, e2⟩ := mem_drop.mp e
          rcases h.held f e1 with h1 | ⟨o, ho⟩ | ⟨t', h1⟩
          · exact .inl (h1.cons (by intro hh; injection hh with hh; exact e2 hh.symm))
          · exact .inr (.inl ⟨o, ho⟩)
          · refine .inr (.inr ⟨t', ?_⟩)
            show (upd s.pc t _ t').Holds _ _
            by_cases e3 : t' = t
            · subst e3
              rw [upd_self]
              rw [hpc] at h1
              exact ⟨h1.1, h1.2.1, h1.2.2.1, .inl h1.2.2.2⟩
            · rw [upd_ne _ _ e3]
              exact h1
    · exact acc_pc_only h t _ (by intro f _ hh; rw [hpc] at hh; exact hh)
  · next j hpc =>
    split
    · split
      · refine acc_pc_only h t _ ?_
        intro f _ hh
        rw [hpc] at hh
        refine ⟨hh.1, hh.2.1, hh.2.2.1, ?_⟩
        rcases hh.2.2.2 with h1 | h1
        · exact List.mem_append_left _ h1
        · exact List.mem_append_right _ (by rw [h1]; exact List.mem_cons_self)
      · refine acc_pc_only h t _ ?_
        intro f _ hh
        rw [hpc] at hh
        refine ⟨hh.1, hh.2.1, hh.2.2.1, ?_⟩
        rcases hh.2.2.2 with h1 | h1
        · exact List.mem_append_left _ h1
        · exact List.mem_append_right _ (by rw [h1]; exact List.mem_cons_self)
    · refine acc_pc h t _ rfl rfl (fun _ h => h) (fun _ _ h => List.mem_cons_of_mem _ h)
        (fun f _ h => h.cons (by intro hh; cases hh)) ?_
      intro f hm hh
      rw [hpc] at hh
      rcases hh.2.2.2 with h1 | h1
      · exact .inl ⟨hh.1, hh.2.1, hh.2.2.1, h1⟩
      · refine .inr (leftOver_new (h.made f hm) (.inr ?_))
        obtain ⟨a, b, d, -⟩ := hh
        cases f
        simp only at a b d h1
        rw [a, b, d, h1]
  · next inst dis b made hpc =>
    split
    · exact h
    · split
      · next hn =>
        refine ⟨fun f hm => List.mem_cons_of_mem _ (h.made f hm), fun f hm => ?_⟩
        rcases h.held f hm with h1 | ⟨o, ho, ho2⟩ | ⟨t', h1⟩
        · exact .inl (h1.cons (by intro hh; cases hh))
        · refine .inr (.inl ⟨o, ?_, ho2⟩)
          show upd s.tbl (c t) _ f.pid f.inst = _
          by_cases e : f.pid = c t
          · rw [e, upd_self]
            by_cases e2 : f.inst = inst
            · rw [e, e2, hn] at ho; cases ho
            · rw [upd_ne _ _ e2, ← e]; exact ho
          · rw [upd_ne _ _ e]; exact ho
        · by_cases e : t' = t
          · subst e
            rw [hpc] at h1
            obtain ⟨a, b', d, m⟩ := h1
            refine .inr (.inl ⟨⟨dis, made⟩, ?_, d.symm, m⟩)
            show upd s.tbl (c t') _ f.pid f.inst = _
            rw [a, upd_self, b', upd_self]
          · refine .inr (.inr ⟨t', ?_⟩)
            show (upd s.pc t _ t').Holds _ _
            rw [upd_ne _ _ e]; exact h1
      · exact acc_pc_only h t _ (by intro f _ hh; rw [hpc] at hh; exact hh)
  · next inst d locked res hpc => exact acc_finish h t inst locked res _ _ _ _ hpc
  · next inst dis q qs locked res hpc =>
    split
    · refine acc_pc h t _ rfl rfl (fun g hg => (mem_drop.mp hg).1) (fun _ _ h => h) (fun _ _ h => h) ?_
      intro f hm hh
      rw [hpc] at hh
      obtain ⟨a, b, d, m⟩ := hh
      refine .inl ⟨a, b, d, ?_⟩
      rcases List.mem_cons.mp m with m | m
      · exfalso
        apply (mem_drop.mp hm).2
        cases f
        simp only at a b d m
        rw [a, b, d, m]
      · exact m
    · exact acc_crash (acc_log h _ (by intro f hh; cases hh)) _

theorem acc_step {c : Cfg} {s : St} (h : Acc c s) (o : Op) : Acc c (step c s o) := by
  cases o with
  | start p d =>
    unfold step; dsimp only
    split
    · exact h
    · exact ⟨h.made, h.held⟩
  | crash p =>
    unfold step; dsimp only
    split
    · exact acc_crash h p
    · exact h
  | offer t inst b =>
    unfold step; dsimp only
    split
    · exact h
    · next hc =>
      have hi : s.pc t = .idle := Classical.byContradiction fun hn => hc (.inr (.inl hn))
      split
      · have := acc_log h (.failed (c t) inst) (by intro f hh; cases hh)
        exact ⟨this.made, this.held⟩
      · have := acc_pc_only h t (.list (firstJob inst (s.dis (c t)) b)) (by
          intro f _ hh; rw [hi] at hh; exact hh.2.elim)
        exact ⟨this.made, this.held⟩
  | stop t inst both =>
    unfold step; dsimp only
    split
    · exact h
    · next hc =>
      have hi : s.pc t = .idle := Classical.byContradiction fun hn => hc (.inr (.inl hn))
      split
      · exact acc_log h _ (by intro f hh; cases hh)
      · next o ho =>
        have other : ∀ (e : Ev) (pc : Pc) (x : Option Offer), (∀ f, e ≠ .created f) →
            (∀ f : File, f.pid = c t → f.inst = inst → o.dis = f.dis → f.q ∈ o.quals →
              (∃ o', x = some o' ∧ o'.dis = f.dis ∧ f.q ∈ o'.quals) ∨ pc.Holds (c t) f) →
            Acc c { s with
              tbl := upd s.tbl (c t) (upd (s.tbl (c t)) inst x), lock := upd s.lock (c t) true, pc := upd s.pc t pc,
              log := e :: s.log } := by
          intro e pc x he hx
          refine ⟨fun f hm => List.mem_cons_of_mem _ (h.made f hm), fun f hm => ?_⟩
          rcases h.held f hm with h1 | ⟨o', ho', h2, h3⟩ | ⟨t', h1⟩
          · exact .inl (h1.cons (he f))
          · by_cases e1 : f.pid = c t
            · by_cases e2 : f.inst = inst
              · rw [e1, e2, ho] at ho'
                injection ho' with ho'
                subst ho'
                rcases hx f e1 e2 h2 h3 with ⟨o2, h4, h5⟩ | h4
                · refine .inr (.inl ⟨o2, ?_, h5⟩)
                  show upd s.tbl (c t) _ f.pid f.inst = _
                  rw [e1, upd_self, e2, upd_self, h4]
                · refine .inr (.inr ⟨t, ?_⟩)
                  show (upd s.pc t _ t).Holds _ _
                  rw [upd_self]; exact h4
              · refine .inr (.inl ⟨o', ?_, h2, h3⟩)
                show upd s.tbl (c t) _ f.pid f.inst = _
                rw [e1, upd_self, upd_ne _ _ e2, ← e1]; exact ho'
            · refine .inr (.inl ⟨o', ?_, h2, h3⟩)
              show upd s.tbl (c t) _ f.pid f.inst = _
              rw [upd_ne _ _ e1]; exact ho'
          · refine .inr (.inr ⟨t', ?_⟩)
            show (upd s.pc t _ t').Holds _ _
            have e : t' ≠ t := by intro e; rw [e, hi] at h1; exact h1.2
            rw [upd_ne _ _ e]; exact h1
        split
        · exact other _ _ none (by intro f hh; cases hh) (fun f a b d m => .inr ⟨a, b, d.symm, m⟩)
        · refine other _ _ (some _) (by intro f hh; cases hh) (fun f a b d m => ?_)
          by_cases e : f.q = .qm
          · exact .inr ⟨a, b, d.symm, List.mem_filter.mpr ⟨m, by simp [e]⟩⟩
          · exact .inl ⟨_, rfl, d, List.mem_filter.mpr ⟨m, by simp [e]⟩⟩
  | next t ok => exact acc_next h t ok

theorem acc_run {c : Cfg} {s : St} (h : Acc c s) (ops : List Op) : Acc c (run c s ops) := by
  induction ops generalizing s with
  | nil => exact h
  | cons o os ih => exact ih (acc_step h o)

theorem acc_init (c : Cfg) : Acc c init := ⟨fun _ h => absurd h List.not_mem_nil, fun _ h => absurd h List.not_mem_nil⟩

end Verif.Offer
