import Verif.Proofs.OfferOrderly
/-! A call of OfferService that is left alone succeeds. -/
namespace Verif.Offer

structure Fit (c : Cfg) (s : St) : Prop where
  files : s.files.Nodup
  lock : ∀ p, s.lock p = true → ∃ t i d qs, c t = p ∧ s.pc t = .undo i d qs true .stopped

theorem fit_pc {c : Cfg} {s s' : St} (h : Fit c s) (t : Nat) (pc : Pc) (hp : s'.pc = upd s.pc t pc) (hl : s'.lock = s.lock)
    (hf : s'.files.Nodup)
    (hk : ∀ i d qs, s.pc t = .undo i d qs true .stopped → ∃ i d qs, pc = .undo i d qs true .stopped) : Fit c s' := by
  refine ⟨hf, fun p hpl => ?_⟩
  rw [hl] at hpl
  obtain ⟨t', i, d, qs, h1, h2⟩ := h.lock p hpl
  by_cases e : t' = t
  · subst e
    obtain ⟨i', d', qs', h3⟩ := hk i d qs h2
    exact ⟨t', i', d', qs', h1, by rw [hp, upd_self]; exact h3⟩
  · exact ⟨t', i, d, qs, h1, by rw [hp, upd_ne _ _ e]; exact h2⟩

theorem fit_crash {c : Cfg} {s : St} (h : Fit c s) (p : Nat) : Fit c (crash c s p) := by
  refine ⟨h.files, fun p' hp => ?_⟩
  change upd s.lock p false p' = true at hp
  by_cases e : p' = p
  · rw [e, upd_self] at hp; cases hp
  · rw [upd_ne _ _ e] at hp
    obtain ⟨t, i, d, qs, h1, h2⟩ := h.lock p' hp
    refine ⟨t, i, d, qs, h1, ?_⟩
    show (if c t = p then Pc.idle else s.pc t) = _
    rw [if_neg (by rw [h1]; exact e)]
    exact h2

theorem fit_next {c : Cfg} {s : St} (h : Fit c s) (t : Nat) (ok : Bool) : Fit c (next c s t ok) := by
  unfold next
  dsimp only
  split
  · exact h
  · next j hpc => exact fit_pc h t _ rfl rfl h.files (by intro i d qs e; rw [hpc] at e; cases e)
  · next j failed hpc =>
    split
    · exact fit_pc h t _ rfl rfl h.files (by intro i d qs e; rw [hpc] at e; cases e)
    · exact fit_pc h t _ rfl rfl h.files (by intro i d qs e; rw [hpc] at e; cases e)
  · next j f fs failed hpc =>
    split
    · exact fit_pc h t _ rfl rfl (h.files.filter _) (by intro i d qs e; rw [hpc] at e; cases e)
    · exact fit_pc h t _ rfl rfl h.files (by intro i d qs e; rw [hpc] at e; cases e)
  · next j hpc =>
    split
    · exact fit_pc h t _ rfl rfl h.files (by intro i d qs e; rw [hpc] at e; cases e)
    · exact fit_pc h t _ rfl rfl h.files (by intro i d qs e; rw [hpc] at e; cases e)
  · next j hpc =>
    split
    · refine fit_pc h t _ rfl rfl ?_ (by intro i d qs e; rw [hpc] at e; cases e)
      exact List.nodup_cons.mpr ⟨fun hm => (mem_drop.mp hm).2 rfl, h.files.filter _⟩
    · exact fit_pc h t _ rfl rfl h.files (by intro i d qs e; rw [hpc] at e; cases e)
  · next j hpc =>
    split
    · split
      · exact fit_pc h t _ rfl rfl h.files (by intro i d qs e; rw [hpc] at e; cases e)
      · exact fit_pc h t _ rfl rfl h.files (by intro i d qs e; rw [hpc] at e; cases e)
    · exact fit_pc h t _ rfl rfl h.files (by intro i d qs e; rw [hpc] at e; cases e)
  · next inst dis b made hpc =>
    split
    · exact h
    · split
      · exact fit_pc h t _ rfl rfl h.files (by intro i d qs e; rw [hpc] at e; cases e)
      · exact fit_pc h t _ rfl rfl h.files (by intro i d qs e; rw [hpc] at e; cases e)
  · next inst d locked res hpc =>
    cases res with
    | offered b => exact fit_pc h t .idle rfl rfl h.files (by intro i d qs e; rw [hpc] at e; cases e)
    | failed => exact fit_pc h t .idle rfl rfl h.files (by intro i d qs e; rw [hpc] at e; cases e)
    | stopped =>
      cases locked with
      | false => exact fit_pc h t .idle rfl rfl h.files (by intro i d qs e; rw [hpc] at e; cases e)
      | true =>
        refine ⟨h.files, fun p hp => ?_⟩
        change upd s.lock (c t) false p = true at hp
        by_cases e : p = c t
        · rw [e, upd_self] at hp; cases hp
        · rw [upd_ne _ _ e] at hp
          obtain ⟨t', i, d', qs, h1, h2⟩ := h.lock p hp
          refine ⟨t', i, d', qs, h1, ?_⟩
          show upd s.pc t .idle t' = _
          rw [upd_ne _ _ (by intro e2; rw [e2] at h1; exact e h1.symm)]
          exact h2
  · next inst dis q qs locked res hpc =>
    split
    · refine fit_pc h t _ rfl rfl (h.files.filter _) ?_
      intro i d qs' e
      rw [hpc] at e
      injection e with e1 e2 e3 e4 e5
      exact ⟨inst, dis, qs, by rw [e4, e5]⟩
    · exact fit_crash (s := { s with log := .terminated (c t) :: s.log }) ⟨h.files, h.lock⟩ _

theorem fit_step {c : Cfg} {s : St} (h : Fit c s) (o : Op) : Fit c (step c s o) := by
  cases o with
  | start p d =>
    unfold step; dsimp only
    split
    · exact h
    · exact ⟨h.files, h.lock⟩
  | crash p =>
    unfold step; dsimp only
    split
    · exact fit_crash h p
    · exact h
  | offer t inst b =>
    unfold step; dsimp only
    split
    · exact h
    · next hc =>
      have hi : s.pc t = .idle := Classical.byContradiction fun hn => hc (.inr (.inl hn))
      split
      · exact ⟨h.files, h.lock⟩
      · exact fit_pc h t _ rfl rfl h.files (by intro i d qs e; rw [hi] at e; cases e)
  | stop t inst both =>
    unfold step; dsimp only
    split
    · exact h
    · next hc =>
      have hi : s.pc t = .idle := Classical.byContradiction fun hn => hc (.inr (.inl hn))
      have go : ∀ (tb : Nat → Nat → Option Offer) (log : List Ev) (i d : Nat) (qs : List Qual),
          Fit c { s with tbl := tb, lock := upd s.lock (c t) true, pc := upd s.pc t (.undo i d qs true .stopped), log := log } := by
        intro tb log i d qs
        refine ⟨h.files, fun p hp => ?_⟩
        change upd s.lock (c t) true p = true at hp
        by_cases e : p = c t
        · exact ⟨t, i, d, qs, e.symm, upd_self _ _ _⟩
        · rw [upd_ne _ _ e] at hp
          obtain ⟨t', i', d', qs', h1, h2⟩ := h.lock p hp
          refine ⟨t', i', d', qs', h1, ?_⟩
          show upd s.pc t _ t' = _
          rw [upd_ne _ _ (by intro e2; rw [e2] at h1; exact e h1.symm)]
          exact h2
      split
      · exact ⟨h.files, h.lock⟩
      · split
        · exact go _ _ _ _ _
        · exact go _ _ _ _ _
  | next t ok => exact fit_next h t ok

theorem fit_run {c : Cfg} {s : St} (h : Fit c s) (ops : List Op) : Fit c (run c s ops) := by
  induction ops generalizing s with
  | nil => exact h
  | cons o os ih => exact ih (fit_step h o)

theorem fit_init (c : Cfg) : Fit c init := ⟨List.nodup_nil, fun _ h => by cases h⟩

/-- `n` successful steps of one thread. -/
def alone (t n : Nat) : List Op := List.replicate n (.next t true)

theorem run_alone_succ (c : Cfg) (s : St) (t n : Nat) : run c s (alone t (n + 1)) = run c (next c s t true) (alone t n) := rfl

theorem run_alone_add (c : Cfg) (s : St) (t a b : Nat) : run c s (alone t (a + b)) = run c (run c s (alone t a)) (alone t b) := by
  unfold alone
  rw [← List.replicate_append_replicate, run_append]

theorem orderly_alone (c : Cfg) (s : St) (t n : Nat) : OrderlyRun c s (alone t n) := by
  induction n generalizing s with
  | zero => trivial
  | succ n ih => exact ⟨trivial, ih _⟩

theorem remove_alone {c : Cfg} {t : Nat} {j : Job} (fs : List File) :
    ∀ {s : St}, s.pc t = .remove j fs false → fs.Nodup → (∀ f ∈ fs, f ∈ s.files) →
      ∃ n, (run c s (alone t n)).pc t = .mkdir j ∧ (run c s (alone t n)).tbl = s.tbl ∧ (run c s (alone t n)).lock = s.lock := by
  induction fs with
  | nil =>
    intro s hpc _ _
    refine ⟨1, ?_⟩
    show (next c s t true).pc t = _ ∧ (next c s t true).tbl = _ ∧ (next c s t true).lock = _
    unfold next; rw [hpc]
    exact ⟨upd_self _ _ _, rfl, rfl⟩
  | cons f fs ih =>
    intro s hpc hnd hsub
    obtain ⟨h1, h2⟩ := List.nodup_cons.mp hnd
    have hn : next c s t true =
        { s with files := s.files.filter (fun g => g != f), pc := upd s.pc t (.remove j fs false) } := by
      unfold next; rw [hpc]; dsimp only
      rw [if_pos (by simpa using hsub f List.mem_cons_self)]
    obtain ⟨n, h3, h4, h5⟩ := ih (s := next c s t true) (by rw [hn]; exact upd_self _ _ _) h2 (by
      intro g hg
      rw [hn]
      exact mem_drop.mpr ⟨hsub g (List.mem_cons_of_mem _ hg), fun e => h1 (by rw [← e]; exact hg)⟩)
    refine ⟨n + 1, ?_⟩
    rw [run_alone_succ]
    exact ⟨h3, h4.trans (by rw [hn]), h5.trans (by rw [hn])⟩

theorem make_alone {c : Cfg} {s : St} {t : Nat} {j : Job} (h : Fit c s) (hpc : s.pc t = .list j) :
    ∃ n, (run c s (alone t n)).pc t = .perm j ∧ (run c s (alone t n)).tbl = s.tbl ∧ (run c s (alone t n)).lock = s.lock := by
  have h1 : next c s t true =
      { s with pc := upd s.pc t (.remove j (s.files.filter (fun f => f.inst == j.inst && f.q == j.q)) false) } := by
    unfold next; rw [hpc]
  obtain ⟨n, a1, a2, a3⟩ := remove_alone (c := c) (s := next c s t true) (t := t) (j := j) _ (by rw [h1]; exact upd_self _ _ _)
    (h.files.filter _) (by intro f hf; rw [h1]; exact (List.mem_filter.mp hf).1)
  have e : ∀ s1 : St, s1.pc t = .mkdir j → (run c s1 (alone t 2)).pc t = .perm j ∧ (run c s1 (alone t 2)).tbl = s1.tbl ∧
      (run c s1 (alone t 2)).lock = s1.lock := by
    intro s1 hp
    have e1 : next c s1 t true = { s1 with pc := upd s1.pc t (.create j) } := by unfold next; rw [hp]; rfl
    show (next c (next c s1 t true) t true).pc t = _ ∧ (next c (next c s1 t true) t true).tbl = _ ∧
      (next c (next c s1 t true) t true).lock = _
    rw [e1]
    unfold next
    dsimp only
    rw [upd_self]
    exact ⟨upd_self _ _ _, rfl, rfl⟩
  obtain ⟨b1, b2, b3⟩ := e _ a1
  refine ⟨1 + n + 2, ?_⟩
  rw [run_alone_add, run_alone_add]
  refine ⟨b1, b2.trans (a2.trans (by rw [h1])), b3.trans (a3.trans (by rw [h1]))⟩

theorem offer_alone {c : Cfg} {b : Bool} {i d t : Nat} {s : St} (h : Fit c s) (hpc : s.pc t = .list (firstJob i d b))
    (hl : s.lock (c t) = false) (ht : s.tbl (c t) i = none) :
    ∃ n log, (run c s (alone t n)).pc t = .idle ∧ (run c s (alone t n)).log = .offered (c t) i b :: log := by
  have fin : ∀ (s1 : St) (j : Job), s1.pc t = .perm j → j.rest = [] → j.inst = i → j.asilB = b → s1.lock (c t) = false →
      s1.tbl (c t) i = none → (run c s1 (alone t 2)).pc t = .idle ∧ (run c s1 (alone t 2)).log = .offered (c t) i b :: s1.log := by
    intro s1 j hp hr hi hb hl ht
    have e1 : next c s1 t true = { s1 with pc := upd s1.pc t (.insert i j.dis b (j.made ++ [j.q])) } := by
      unfold next; rw [hp]; dsimp only; rw [if_pos rfl, hr, hi, hb]
    show (next c (next c s1 t true) t true).pc t = _ ∧ (next c (next c s1 t true) t true).log = _
    rw [e1]
    unfold next
    dsimp only
    rw [upd_self]
    dsimp only
    rw [if_neg (by rw [hl]; decide), ht]
    exact ⟨upd_self _ _ _, rfl⟩
  obtain ⟨n, a1, a2, a3⟩ := make_alone h hpc
  cases b with
  | false =>
    obtain ⟨b1, b2⟩ := fin _ _ a1 rfl rfl rfl (by rw [a3]; exact hl) (by rw [a2]; exact ht)
    exact ⟨n + 2, _, by rw [run_alone_add]; exact b1, by rw [run_alone_add]; exact b2⟩
  | true =>
    let s1 := run c s (alone t n)
    have f1 : Fit c s1 := fit_run h _
    have e1 : next c s1 t true = { s1 with pc := upd s1.pc t (.list ⟨i, d, true, .qm, [], [.b]⟩) } := by
      unfold next
      rw [show s1.pc t = _ from a1]
      rfl
    obtain ⟨m, b1, b2, b3⟩ := make_alone (c := c) (s := next c s1 t true) (t := t) (j := ⟨i, d, true, .qm, [], [.b]⟩)
      (fit_next f1 t true) (by rw [e1]; exact upd_self _ _ _)
    obtain ⟨c1, c2⟩ := fin _ _ b1 rfl rfl rfl
      (by rw [b3, e1]; show s1.lock (c t) = false; rw [show s1.lock = _ from a3]; exact hl)
      (by rw [b2, e1]; show s1.tbl (c t) i = none; rw [show s1.tbl = _ from a2]; exact ht)
    refine ⟨n + (1 + m) + 2, (run c (next c s1 t true) (alone t m)).log, ?_, ?_⟩
    · rw [run_alone_add, run_alone_add, run_alone_add]; exact c1
    · rw [run_alone_add, run_alone_add, run_alone_add]; exact c2

end Verif.Offer
