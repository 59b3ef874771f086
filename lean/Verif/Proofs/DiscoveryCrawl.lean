/- What a crawl finds, whatever happens between its system calls. -/
import Verif.Proofs.DiscoveryFs

namespace Verif.Discovery

theorem checks_ok (pre : List Ev) (s : Nat) (l : List (Nat × Q)) (w : World) (env : List (List Act)) (found : List (Nat × Q)) :
    Fine pre w (checks s l w env found).1 ∧
    (∀ p ∈ found, p ∈ (checks s l w env found).2.2) ∧
    (∀ i q, (i, q) ∈ (checks s l w env found).2.2 → (i, q) ∈ found ∨ ((i, q) ∈ l ∧ ∃ mid, Fine pre w mid ∧
      Fine pre mid (checks s l w env found).1 ∧ mid.file s i q = true)) ∧
    (∀ i q, (i, q) ∈ l → (i, q) ∉ (checks s l w env found).2.2 → ∃ mid, Fine pre w mid ∧
      Fine pre mid (checks s l w env found).1 ∧ mid.file s i q = false) := by
  induction l generalizing w env found with
  | nil => exact ⟨.refl pre w, fun _ h => h, fun _ _ h => .inl h, fun _ _ h => by simp at h⟩
  | cons p l ih =>
    obtain ⟨i, q⟩ := p
    have hf := acts_fine pre w (env.headD [])
    have e : checks s ((i, q) :: l) w env found = checks s l (acts w (env.headD [])) env.tail
      (if (acts w (env.headD [])).file s i q = true then (i, q) :: found else found) := rfl
    rw [e]
    generalize acts w (env.headD []) = w1 at hf ⊢
    obtain ⟨h1, h2, h3, h4⟩ := ih w1 env.tail (if w1.file s i q = true then (i, q) :: found else found)
    generalize checks s l w1 env.tail (if w1.file s i q = true then (i, q) :: found else found) = r at h1 h2 h3 h4 ⊢
    refine ⟨hf.trans h1, ?_, ?_, ?_⟩
    · intro p hp
      refine h2 p ?_
      split
      · exact List.mem_cons_of_mem _ hp
      · exact hp
    · intro i' q' hm
      rcases h3 i' q' hm with h | ⟨h, mid, m1, m2, m3⟩
      · by_cases hc : w1.file s i q = true
        · rw [if_pos hc] at h
          rcases List.mem_cons.mp h with h | h
          · injection h with a b
            subst a; subst b
            exact .inr ⟨List.mem_cons_self, w1, hf, h1, hc⟩
          · exact .inl h
        · rw [if_neg hc] at h; exact .inl h
      · exact .inr ⟨List.mem_cons_of_mem _ h, mid, hf.trans m1, m2, m3⟩
    · intro i' q' hm hn
      rcases List.mem_cons.mp hm with h | h
      · injection h with a b
        subst a; subst b
        by_cases hc : w1.file s i' q' = true
        · exact absurd (h2 (i', q') (by rw [if_pos hc]; exact List.mem_cons_self)) hn
        · exact ⟨w1, hf, h1, by simpa using hc⟩
      · obtain ⟨mid, m1, m2, m3⟩ := h4 i' q' h hn
        exact ⟨mid, hf.trans m1, m2, m3⟩

theorem addWatches_ok (pre : List Ev) (s : Nat) (l : List Nat) (w : World) (env : List (List Act)) (acc : List (Nat × Dir)) :
    Fine pre w (addWatches s l w env acc).1 ∧
    (∀ p ∈ acc, p ∈ (addWatches s l w env acc).2.2) ∧
    (∀ p ∈ (addWatches s l w env acc).2.2, p ∈ acc ∨ ∃ i ∈ l, p.2 = ⟨s, some i⟩ ∧ (addWatches s l w env acc).1.wdOf p.2 = some p.1) ∧
    (∀ i ∈ l, ∃ wd, (wd, (⟨s, some i⟩ : Dir)) ∈ (addWatches s l w env acc).2.2) := by
  induction l generalizing w env acc with
  | nil => exact ⟨.refl pre w, fun _ h => h, fun _ h => .inl h, fun _ h => by simp at h⟩
  | cons i l ih =>
    have hf := acts_fine pre w (env.headD [])
    have ha := addWatch_fine pre (acts w (env.headD [])) ⟨s, some i⟩
    have e : addWatches s (i :: l) w env acc = addWatches s l (addWatch (acts w (env.headD [])) ⟨s, some i⟩).1 env.tail
      (acc ++ [((addWatch (acts w (env.headD [])) ⟨s, some i⟩).2, ⟨s, some i⟩)]) := rfl
    rw [e]
    generalize addWatch (acts w (env.headD [])) ⟨s, some i⟩ = r at ha ⊢
    obtain ⟨h1, h2, h3, h4⟩ := ih r.1 env.tail (acc ++ [(r.2, ⟨s, some i⟩)])
    generalize addWatches s l r.1 env.tail (acc ++ [(r.2, ⟨s, some i⟩)]) = z at h1 h2 h3 h4 ⊢
    refine ⟨hf.trans (ha.1.trans h1), fun p hp => h2 p (List.mem_append_left _ hp), ?_, ?_⟩
    · intro p hp
      rcases h3 p hp with h | ⟨j, hj, a, b⟩
      · rcases List.mem_append.mp h with h | h
        · exact .inl h
        · rw [List.mem_singleton.mp h]
          exact .inr ⟨i, List.mem_cons_self, rfl, h1.grow.wd _ _ ha.2⟩
      · exact .inr ⟨j, List.mem_cons_of_mem _ hj, a, b⟩
    · intro j hj
      rcases List.mem_cons.mp hj with rfl | hj
      · exact ⟨r.2, h2 _ (List.mem_append_right _ (by simp))⟩
      · exact h4 j hj

theorem mem_bothQualities {l : List Nat} {i : Nat} {q : Q} : (i, q) ∈ bothQualities l ↔ i ∈ l := by
  unfold bothQualities
  simp only [List.mem_flatMap, List.mem_cons, Prod.mk.injEq, List.not_mem_nil, or_false]
  constructor
  · rintro ⟨a, ha, ⟨rfl, _⟩ | ⟨rfl, _⟩⟩ <;> exact ha
  · intro h
    refine ⟨i, h, ?_⟩
    cases q
    · exact .inl ⟨rfl, rfl⟩
    · exact .inr ⟨rfl, rfl⟩

structure CrawlOk (pre : List Ev) (w : World) (d : Dir) (c : Crawled) : Prop where
  fine : Fine pre w c.w
  wds : ∀ p ∈ c.wds, p.2.svc = d.svc ∧ (d.inst = none ∨ p.2 = d) ∧ c.w.wdOf p.2 = some p.1
  main : ∃ wd, (wd, d) ∈ c.wds
  complete : d.inst = none → ∀ i ∈ c.w.dirs d.svc, (∃ wd, (wd, (⟨d.svc, some i⟩ : Dir)) ∈ c.wds) ∨
    ∃ wd0, c.w.wdOf ⟨d.svc, none⟩ = some wd0 ∧ ⟨wd0, .mkdir i⟩ ∈ c.w.queue
  found : ∀ i q, (i, q) ∈ c.found → ∃ wd mid, (wd, (⟨d.svc, some i⟩ : Dir)) ∈ c.wds ∧ Fine pre w mid ∧ Fine pre mid c.w ∧
    mid.wdOf ⟨d.svc, some i⟩ = some wd ∧ mid.file d.svc i q = true
  missed : ∀ wd i q, (wd, (⟨d.svc, some i⟩ : Dir)) ∈ c.wds → (i, q) ∉ c.found → ∃ mid, Fine pre w mid ∧ Fine pre mid c.w ∧
    mid.wdOf ⟨d.svc, some i⟩ = some wd ∧ mid.file d.svc i q = false

theorem crawl_ok (pre : List Ev) (w : World) (env : List (List Act)) (d : Dir) : CrawlOk pre w d (crawl w env d) := by
  have hf := acts_fine pre w (env.headD [])
  have ha := addWatch_fine pre (acts w (env.headD [])) d
  obtain ⟨s, inst⟩ := d
  cases inst with
  | some i =>
    have e : crawl w env ⟨s, some i⟩ =
      { w := (checks s (bothQualities [i]) (addWatch (acts w (env.headD [])) ⟨s, some i⟩).1 env.tail []).1,
        wds := [((addWatch (acts w (env.headD [])) ⟨s, some i⟩).2, ⟨s, some i⟩)],
        found := (checks s (bothQualities [i]) (addWatch (acts w (env.headD [])) ⟨s, some i⟩).1 env.tail []).2.2 } := rfl
    rw [e]
    generalize addWatch (acts w (env.headD [])) ⟨s, some i⟩ = r at ha ⊢
    obtain ⟨h1, h2, h3, h4⟩ := checks_ok pre s (bothQualities [i]) r.1 env.tail []
    generalize checks s (bothQualities [i]) r.1 env.tail [] = z at h1 h2 h3 h4 ⊢
    have h0 := hf.trans ha.1
    refine ⟨h0.trans h1, ?_, ⟨r.2, by simp⟩, (fun h => by cases h), ?_, ?_⟩
    · intro p hp
      rw [List.mem_singleton.mp hp]
      exact ⟨rfl, .inr rfl, h1.grow.wd _ _ ha.2⟩
    · intro j q hj
      rcases h3 j q hj with h | ⟨h, mid, m1, m2, m3⟩
      · simp at h
      · rw [mem_bothQualities, List.mem_singleton] at h
        subst h
        exact ⟨r.2, mid, by simp, h0.trans m1, m2, m1.grow.wd _ _ ha.2, m3⟩
    · intro wd j q hj hn
      simp only [List.mem_singleton, Prod.mk.injEq, Dir.mk.injEq, Option.some.injEq, true_and] at hj
      obtain ⟨rfl, rfl⟩ := hj
      obtain ⟨mid, m1, m2, m3⟩ := h4 j q (by simp [mem_bothQualities]) hn
      exact ⟨mid, h0.trans m1, m2, m1.grow.wd _ _ ha.2, m3⟩
  | none =>
    have e : crawl w env ⟨s, none⟩ =
      (let r := addWatch (acts w (env.headD [])) ⟨s, none⟩
       let w2 := acts r.1 (env.tail.headD [])
       let a := addWatches s (w2.dirs s) w2 env.tail.tail []
       let c := checks s (bothQualities (w2.dirs s)) a.1 a.2.1 []
       { w := c.1, wds := (r.2, ⟨s, none⟩) :: a.2.2, found := c.2.2 }) := rfl
    rw [e]
    generalize addWatch (acts w (env.headD [])) ⟨s, none⟩ = r at ha ⊢
    have hf2 := acts_fine pre r.1 (env.tail.headD [])
    dsimp only
    generalize acts r.1 (env.tail.headD []) = w2 at hf2 ⊢
    obtain ⟨a1, _, a3, a4⟩ := addWatches_ok pre s (w2.dirs s) w2 env.tail.tail []
    generalize addWatches s (w2.dirs s) w2 env.tail.tail [] = a at a1 a3 a4 ⊢
    obtain ⟨h1, h2, h3, h4⟩ := checks_ok pre s (bothQualities (w2.dirs s)) a.1 a.2.1 []
    generalize checks s (bothQualities (w2.dirs s)) a.1 a.2.1 [] = z at h1 h2 h3 h4 ⊢
    have h0 := hf.trans (ha.1.trans hf2)
    have hall := h0.trans a1
    have hw2 := hf2.grow.wd _ _ ha.2
    refine ⟨hall.trans h1, ?_, ⟨r.2, by simp⟩, ?_, ?_, ?_⟩
    · intro p hp
      rcases List.mem_cons.mp hp with rfl | hp
      · exact ⟨rfl, .inl rfl, h1.grow.wd _ _ (a1.grow.wd _ _ hw2)⟩
      · rcases a3 p hp with h | ⟨i, _, h, h'⟩
        · simp at h
        · exact ⟨by rw [h], .inl rfl, h1.grow.wd _ _ h'⟩
    · intro _ i hi
      have hg := a1.trans h1
      obtain ⟨new, hq, _, hd⟩ := hg.grow.queue
      rcases hd s i r.2 hw2 hi with h | h
      · obtain ⟨wd, hwd⟩ := a4 i h
        exact .inl ⟨wd, List.mem_cons_of_mem _ hwd⟩
      · refine .inr ⟨r.2, hg.grow.wd _ _ hw2, ?_⟩
        dsimp only
        rw [hq]; exact List.mem_append_right _ h
    · intro i q hi
      rcases h3 i q hi with h | ⟨h, mid, m1, m2, m3⟩
      · simp at h
      · rw [mem_bothQualities] at h
        obtain ⟨wd, hwd⟩ := a4 i h
        rcases a3 _ hwd with h' | ⟨j, _, hj, hj'⟩
        · simp at h'
        · exact ⟨wd, mid, List.mem_cons_of_mem _ hwd, hall.trans m1, m2, m1.grow.wd _ _ hj', m3⟩
    · intro wd i q hi hn
      rcases List.mem_cons.mp hi with h | hi
      · simp at h
      · rcases a3 _ hi with h | ⟨j, hj, hj', hw⟩
        · simp at h
        · simp only [Dir.mk.injEq, Option.some.injEq, true_and] at hj'
          subst hj'
          obtain ⟨mid, m1, m2, m3⟩ := h4 i q (by rw [mem_bothQualities]; exact hj) hn
          exact ⟨mid, hall.trans m1, m2, m1.grow.wd _ _ hw, m3⟩

end Verif.Discovery
