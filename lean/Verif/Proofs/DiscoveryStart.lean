/- StartFindService, and whole runs. -/
import Verif.Proofs.DiscoveryRun

namespace Verif.Discovery

theorem SInv.count {pre w} (v : SInv pre none w) : SInv pre none { w with nextH := w.nextH + 1 } :=
  ⟨v.k.only rfl rfl rfl rfl rfl, v.ab, v.wk, v.ne, v.ls, v.sl, fun h S e => Nat.lt_succ_of_lt (v.sh h S e), v.mainL, v.dirL, v.id0, v.id1,
    v.id2, v.id3, v.kw, v.pv, v.nd⟩

/-- A new search, without watches. -/
theorem SInv.newSearch {pre w h S} (v : SInv pre none w) (hn : w.searches h = none) (hlt : h < w.nextH) (hwds : S.wds = [])
    (hpv : ∀ i ∈ S.prev, S.inst = none ∨ S.inst = some i) : SInv pre (some h) { w with searches := upd w.searches h (some S) } := by
  have scase : ∀ h' S', upd w.searches h (some S) h' = some S' → (h' = h ∧ S' = S) ∨ (h' ≠ h ∧ w.searches h' = some S') := by
    intro h' S' e
    by_cases c : h' = h
    · subst c; rw [upd_self] at e; injection e with e; exact .inl ⟨rfl, e.symm⟩
    · rw [upd_ne _ _ c] at e; exact .inr ⟨c, e⟩
  refine ⟨v.k.only rfl rfl rfl rfl rfl, v.ab, v.wk, v.ne, ?_, ?_, ?_, ?_, ?_, v.id0, v.id1, v.id2, v.id3, v.kw, ?_, ?_⟩
  · intro wd d hs h' e hm
    obtain ⟨S', a, b⟩ := v.ls _ _ _ _ e hm
    have : h' ≠ h := by rintro rfl; rw [hn] at a; cases a
    exact ⟨S', by dsimp only; rw [upd_ne _ _ this]; exact a, b⟩
  · intro h' S' wd e hm
    rcases scase _ _ e with ⟨rfl, rfl⟩ | ⟨_, e⟩
    · rw [hwds] at hm; simp at hm
    · exact v.sl _ _ _ e hm
  · intro h' S' e
    rcases scase _ _ e with ⟨rfl, rfl⟩ | ⟨_, e⟩
    · exact hlt
    · exact v.sh _ _ e
  · intro h' S' e hex
    rcases scase _ _ e with ⟨rfl, rfl⟩ | ⟨_, e⟩
    · exact absurd rfl hex
    · exact v.mainL _ _ e (by simp)
  · intro h' S' e hex
    rcases scase _ _ e with ⟨rfl, rfl⟩ | ⟨_, e⟩
    · exact absurd rfl hex
    · exact v.dirL _ _ e (by simp)
  · intro h' S' i e hm
    rcases scase _ _ e with ⟨rfl, rfl⟩ | ⟨_, e⟩
    · exact hpv i hm
    · exact v.pv _ _ _ e hm
  · intro h' S' e
    rcases scase _ _ e with ⟨rfl, rfl⟩ | ⟨_, e⟩
    · rw [hwds]; exact List.nodup_nil
    · exact v.nd _ _ e

theorem CInv.newSearch {pre imp w h S} (c : CInv pre none imp w) : CInv pre (some h) imp { w with searches := upd w.searches h (some S) } := by
  refine ⟨c.truth, c.p2, fun h' S' i e hex ho hi => ?_⟩
  have hne : h' ≠ h := fun x => hex (by rw [x])
  have e' : upd w.searches h (some S) h' = some S' := e
  rw [upd_ne _ _ hne] at e'
  exact c.r h' S' i e' (by simp) ho hi

theorem SInv.finish {pre w h S} (v : SInv pre (some h) w) (hS : w.searches h = some S) (hm : ∃ wd ∈ S.wds, w.wdOf ⟨S.svc, S.inst⟩ = some wd)
    (hd : S.inst = none → ∀ i ∈ w.dirs S.svc, (∃ wd ∈ S.wds, w.wdOf ⟨S.svc, some i⟩ = some wd) ∨
      ∃ wd0, w.wdOf ⟨S.svc, none⟩ = some wd0 ∧ ⟨wd0, .mkdir i⟩ ∈ pre ++ w.queue) : SInv pre none w := by
  refine ⟨v.k, v.ab, v.wk, v.ne, v.ls, v.sl, v.sh, ?_, ?_, v.id0, v.id1, v.id2, v.id3, v.kw, v.pv, v.nd⟩
  · intro h' S' e _
    by_cases c : h' = h
    · subst c; rw [hS] at e; injection e with e; subst e; exact hm
    · exact v.mainL _ _ e (fun x => c (by injection x with x; exact x.symm))
  · intro h' S' e _
    by_cases c : h' = h
    · subst c; rw [hS] at e; injection e with e; subst e; exact hd
    · exact v.dirL _ _ e (fun x => c (by injection x with x; exact x.symm))

theorem CInv.finish {pre imp w h S} (c : CInv pre (some h) imp w) (hS : w.searches h = some S)
    (hr : ∀ i, (S.inst = none ∨ S.inst = some i) → (i ∈ w.known S.q S.svc ↔ i ∈ S.prev) ∨ h ∈ imp ∨ Pend pre w S i) : CInv pre none imp w := by
  refine ⟨c.truth, c.p2, fun h' S' i e _ ho hi => ?_⟩
  by_cases hc : h' = h
  · subst hc; rw [hS] at e; injection e with e; subst e; exact hr i hi
  · exact c.r h' S' i e (fun x => hc (by injection x with x; exact x.symm)) ho hi

/-- The state before the synchronous call of the handler. -/
theorem start_crawl {pre w} (s : Nat) (inst : Option Nat) (q : Q) (env : List (List Act)) (h : Nat) (v : SInv pre none w)
    (hn : w.searches h = none) (hlt : h < w.nextH) :
    let c := crawl w env ⟨s, inst⟩
    let handles := select ((c.found.filter (fun p => p.2 = q)).map Prod.fst) inst
    let w3 := merge (storeAndLink { c.w with searches := upd c.w.searches h (some { svc := s, inst, q, wds := [], prev := handles }) } h c.wds) s c.found
    SInv pre none w3 ∧ (∀ imp, CInv pre none imp w → CInv pre none imp w3) ∧
    (∃ S, w3.searches h = some S ∧ S.svc = s ∧ S.inst = inst ∧ S.q = q ∧ S.prev = handles) ∧
    (∀ h' S', h' ≠ h → w3.searches h' = some S' → ∃ S0, w.searches h' = some S0 ∧ S'.svc = S0.svc ∧ S'.inst = S0.inst ∧ S'.q = S0.q ∧
      S'.prev = S0.prev) ∧
    (∀ h' S0, w.searches h' = some S0 → ∃ S', w3.searches h' = some S') ∧
    w3.log = w.log ∧ w3.nextH = w.nextH ∧ w3.obsolete = w.obsolete ∧ w3.batch = w.batch := by
  intro c handles w3
  have o : CrawlOk pre w ⟨s, inst⟩ c := crawl_ok pre w env ⟨s, inst⟩
  have v1 := v.fine o.fine
  have hn1 : c.w.searches h = none := by rw [o.fine.grow.searches]; exact hn
  have hlt1 : h < c.w.nextH := by rw [o.fine.grow.nextH]; exact hlt
  have v1' := v1.newSearch (S := { svc := s, inst, q, wds := [], prev := handles }) hn1 hlt1 rfl (fun i hi => (mem_select.mp hi).2)
  have hS1 : ({ c.w with searches := upd c.w.searches h (some { svc := s, inst, q, wds := [], prev := handles }) } : World).searches h =
      some { svc := s, inst, q, wds := [], prev := handles } := by dsimp only; rw [upd_self]
  obtain ⟨v2, K⟩ := storeAndLink_links v1' hS1 c.wds (fun p hp => by
    obtain ⟨a, b, d⟩ := o.wds p hp
    exact ⟨d, a, b.imp id (fun e => by rw [e])⟩)
  have F0 := o.toFound
  have F : Found pre s c.wds c.found { c.w with searches := upd c.w.searches h (some { svc := s, inst, q, wds := [], prev := handles }) } :=
    ⟨F0.dir, F0.hit, F0.miss⟩
  have v3 := merged_S K v2 F ⟨h, by simp, _, hS1⟩
  have om := merge_only (storeAndLink { c.w with searches := upd c.w.searches h (some { svc := s, inst, q, wds := [], prev := handles }) } h c.wds) s c.found
  have hknown : ∀ q' s' i', i' ∈ w3.known q' s' ↔ (s' = s ∧ (i', q') ∈ c.found) ∨ i' ∈ c.w.known q' s' := by
    intro q' s' i'
    show i' ∈ (merge _ s c.found).known q' s' ↔ _
    rw [mem_merge, K.known]
  obtain ⟨S, hS, e1, e2, e3, e4, _, e6⟩ := K.forth _ _ hS1
  have hS3 : w3.searches h = some S := by rw [om.searches]; exact hS
  have hwd3 : w3.wdOf = c.w.wdOf := om.wdOf.trans K.wdOf
  have hq3 : w3.queue = c.w.queue := om.queue.trans K.queue
  have hdirs3 : w3.dirs = c.w.dirs := om.dirs.trans K.dirs
  have e6' := e6 (by simp)
  refine ⟨?_, ?_, ⟨S, hS3, e1, e2, e3, e4⟩, ?_, ?_, ?_, ?_, ?_, ?_⟩
  · refine v3.finish hS3 ?_ ?_
    · obtain ⟨wd, a⟩ := o.main
      exact ⟨wd, e6' _ a, by rw [om.wdOf, K.wdOf, e1, e2]; exact (o.wds _ a).2.2⟩
    · intro hin i hi
      rw [om.dirs, K.dirs, e1] at hi
      rw [e2] at hin
      rw [om.wdOf, K.wdOf, om.queue, K.queue, e1]
      rcases o.complete hin i hi with ⟨wd, a⟩ | ⟨wd, a, b⟩
      · exact .inl ⟨wd, e6' _ a, (o.wds _ a).2.2⟩
      · exact .inr ⟨wd, a, List.mem_append_right _ b⟩
  · intro imp cc
    have c1 := cc.fine v o.fine
    have c3 := merged_C v1' (c1.newSearch (h := h) (S := { svc := s, inst, q, wds := [], prev := handles })) K F
    refine c3.finish hS3 ?_
    intro i hi
    rw [e2] at hi
    rw [e1, e3, e4]
    by_cases hf : (i, q) ∈ c.found
    · left
      refine ⟨fun _ => ?_, fun _ => (hknown _ _ _).mpr (.inl ⟨rfl, hf⟩)⟩
      refine mem_select.mpr ⟨?_, hi⟩
      rw [List.mem_map]
      exact ⟨(i, q), List.mem_filter.mpr ⟨hf, by simp⟩, rfl⟩
    · have hnp : i ∉ handles := by
        intro hm
        have := (mem_select.mp hm).1
        rw [List.mem_map] at this
        obtain ⟨⟨a, b⟩, hab, rfl⟩ := this
        rw [List.mem_filter] at hab
        have : b = q := by simpa using hab.2
        subst this
        exact hf hab.1
      by_cases hk : i ∈ c.w.known q s
      · right; right
        obtain ⟨wd, l, hw⟩ := v1.kw _ _ _ hk
        have hwd := v1.wk _ _ _ hw
        -- is the watch among those of the crawl?
        have hcase : (wd, (⟨s, some i⟩ : Dir)) ∈ c.wds ∨ (inst = none ∧ ∃ wd0, c.w.wdOf ⟨s, none⟩ = some wd0 ∧ ⟨wd0, .mkdir i⟩ ∈ c.w.queue) := by
          rcases hi with hi | hi
          · rcases o.complete hi i (v1.k.wdir _ _ _ hwd) with ⟨x, a⟩ | a
            · have := (o.wds _ a).2.2
              rw [hwd] at this; injection this with this
              exact .inl (by rw [this]; exact a)
            · exact .inr ⟨hi, a⟩
          · obtain ⟨x, a⟩ := o.main
            have hi : inst = some i := hi
            rw [hi] at a
            have := (o.wds _ a).2.2
            rw [hwd] at this; injection this with this
            exact .inl (by rw [this]; exact a)
        rcases hcase with hmem | ⟨hin, wd0, a, b⟩
        · refine .inl ⟨wd, e6' _ hmem, by rw [hwd3, e1]; exact hwd, fun hn' => ?_⟩
          rw [hq3, e3] at hn'
          have h1 := F0.miss wd i q hmem hf hn'
          have h2 := (c1.p2 _ _ _ _ q hw hn').mp hk
          have h1' : c.w.file s i q = false := h1
          rw [h2] at h1'; cases h1'
        · exact .inr ⟨by rw [e2]; exact hin, wd0, by rw [hwd3, e1]; exact a, by rw [hq3]; exact List.mem_append_right _ b⟩
      · left
        refine ⟨fun h => ?_, fun h => absurd h hnp⟩
        rcases (hknown _ _ _).mp h with ⟨_, h⟩ | h
        · exact absurd h hf
        · exact absurd h hk
  · intro h' S' hne e
    rw [om.searches] at e
    obtain ⟨S0, a, b1, b2, b3, b4, _⟩ := K.back _ _ e
    have a' : upd c.w.searches h _ h' = some S0 := a
    rw [upd_ne _ _ hne, o.fine.grow.searches] at a'
    exact ⟨S0, a', b1, b2, b3, b4⟩
  · intro h' S0 e
    have hne : h' ≠ h := by rintro rfl; rw [hn] at e; cases e
    obtain ⟨S', a, _⟩ := K.forth h' S0 (by dsimp only; rw [upd_ne _ _ hne, o.fine.grow.searches]; exact e)
    exact ⟨S', by rw [om.searches]; exact a⟩
  · exact om.log.trans (K.log.trans o.fine.grow.log)
  · exact om.nextH.trans (K.nextH.trans o.fine.grow.nextH)
  · exact om.obsolete.trans (K.obsolete.trans o.fine.grow.obsolete)
  · exact om.batch.trans (K.batch.trans o.fine.grow.batch)

theorem CInv.links {pre ex imp w1 w2 hs wds} (c1 : CInv pre ex imp w1) (K : Links w1 hs wds w2)
    (hw : ∀ p ∈ wds, ∃ l, w1.watches p.1 = some (p.2, l)) : CInv pre ex imp w2 := by
  refine ⟨?_, ?_, ?_⟩
  · intro s' i wd q b h1 h2
    rw [K.wdOf] at h1; rw [K.queue] at h2; rw [K.file]
    exact c1.truth _ _ _ _ _ h1 h2
  · intro wd s' i l q he hn
    rw [K.queue] at hn
    rw [K.file, K.known]
    obtain ⟨l0, e⟩ : ∃ l0, w1.watches wd = some (⟨s', some i⟩, l0) := by
      rcases K.watches _ _ _ he with e | e
      · exact e
      · exact hw _ e
    exact c1.p2 _ _ _ _ _ e hn
  · intro h S' i hS' hex ho hi
    rw [K.obsolete] at ho
    obtain ⟨S, hS, e1, e2, e3, e4, e5⟩ := K.back _ _ hS'
    rw [K.known, e1, e3, e4]
    rw [e2] at hi
    refine (c1.r h S i hS hex ho hi).imp id (Or.imp id ?_)
    rintro (⟨wd, a, b, c⟩ | ⟨a, wd, b, c⟩)
    · exact .inl ⟨wd, e5 _ a, by rw [K.wdOf, e1]; exact b, by rw [K.queue, e3]; exact c⟩
    · exact .inr ⟨e2.trans a, wd, by rw [K.wdOf, e1]; exact b, by rw [K.queue]; exact c⟩

theorem start_shared {pre w} (s : Nat) (inst : Option Nat) (q : Q) (h wd : Nat) (ch : List Nat) (v : SInv pre none w)
    (hn : w.searches h = none) (hlt : h < w.nextH) (hsh : w.ids ⟨s, inst⟩ = some (some wd, ch)) :
    let handles := select (w.known q s) inst
    let wds := (wd :: ch).map fun x => (w.watches x).map fun e => (x, e.1)
    let w3 := storeAndLink { w with searches := upd w.searches h (some { svc := s, inst, q, wds := [], prev := handles }) } h (wds.filterMap id)
    wds.any (fun o => o.isNone) = false ∧
    SInv pre none w3 ∧ (∀ imp, CInv pre none imp w → CInv pre none imp w3) ∧
    (∃ S, w3.searches h = some S ∧ S.svc = s ∧ S.inst = inst ∧ S.q = q ∧ S.prev = handles) ∧
    (∀ h' S', h' ≠ h → w3.searches h' = some S' → ∃ S0, w.searches h' = some S0 ∧ S'.svc = S0.svc ∧ S'.inst = S0.inst ∧ S'.q = S0.q ∧
      S'.prev = S0.prev) ∧
    (∀ h' S0, w.searches h' = some S0 → ∃ S', w3.searches h' = some S') ∧
    w3.log = w.log ∧ w3.nextH = w.nextH ∧ w3.obsolete = w.obsolete ∧ w3.batch = w.batch := by
  intro handles wds w3
  have hwatch : ∀ x ∈ wd :: ch, ∃ d l, w.watches x = some (d, l) ∧ d.svc = s ∧ (inst = none ∨ d.inst = inst) := by
    intro x hx
    cases inst with
    | some i =>
      obtain ⟨hc, wd', l, e, e'⟩ := v.id2 _ _ _ _ hsh
      injection e with e; subst e; subst hc
      rw [List.mem_singleton.mp hx]
      exact ⟨_, l, e', rfl, .inr rfl⟩
    | none =>
      obtain ⟨a, b⟩ := v.id3 _ _ _ hsh
      rcases List.mem_cons.mp hx with rfl | hx
      · obtain ⟨l, e⟩ := b x rfl
        exact ⟨_, l, e, rfl, .inl rfl⟩
      · obtain ⟨i, l, e⟩ := a x hx
        exact ⟨_, l, e, rfl, .inl rfl⟩
  have hmem : ∀ x d, (x, d) ∈ wds.filterMap id ↔ x ∈ wd :: ch ∧ ∃ l, w.watches x = some (d, l) := by
    intro x d
    show (x, d) ∈ List.filterMap id (List.map _ (wd :: ch)) ↔ _
    rw [List.mem_filterMap]
    constructor
    · rintro ⟨o, ho, hoe⟩
      rw [List.mem_map] at ho
      obtain ⟨y, hy, rfl⟩ := ho
      obtain ⟨d', l, e, _⟩ := hwatch y hy
      rw [e] at hoe
      simp only [Option.map_some, id_eq, Option.some.injEq, Prod.mk.injEq] at hoe
      obtain ⟨rfl, rfl⟩ := hoe
      exact ⟨hy, l, e⟩
    · rintro ⟨hx, l, e⟩
      exact ⟨some (x, d), List.mem_map.mpr ⟨x, hx, by rw [e]; rfl⟩, rfl⟩
  have v1' := v.newSearch (S := { svc := s, inst, q, wds := [], prev := handles }) hn hlt rfl (fun i hi => (mem_select.mp hi).2)
  have hS1 : ({ w with searches := upd w.searches h (some { svc := s, inst, q, wds := [], prev := handles }) } : World).searches h =
      some { svc := s, inst, q, wds := [], prev := handles } := by dsimp only; rw [upd_self]
  obtain ⟨v3, K⟩ := storeAndLink_links v1' hS1 (wds.filterMap id) (fun p hp => by
    obtain ⟨x, d⟩ := p
    obtain ⟨hx, l, e⟩ := (hmem x d).mp hp
    obtain ⟨d', l', e', a, b⟩ := hwatch x hx
    rw [e] at e'; injection e' with e'; injection e' with e' _
    subst e'
    exact ⟨v.wk _ _ _ e, a, b⟩)
  obtain ⟨S, hS, e1, e2, e3, e4, _, e6⟩ := K.forth _ _ hS1
  have e6' := e6 (by simp)
  refine ⟨?_, ?_, ?_, ⟨S, hS, e1, e2, e3, e4⟩, ?_, ?_, K.log, K.nextH, K.obsolete, K.batch⟩
  · rw [List.any_eq_false]
    intro o ho
    obtain ⟨y, hy, rfl⟩ := List.mem_map.mp ho
    obtain ⟨d', l, e, _⟩ := hwatch y hy
    rw [e]; simp
  · refine v3.finish hS ?_ ?_
    · have : ∃ l, w.watches wd = some (⟨s, inst⟩, l) := by
        cases inst with
        | some i =>
          obtain ⟨_, wd', l, e, e'⟩ := v.id2 _ _ _ _ hsh
          injection e with e; subst e
          exact ⟨l, e'⟩
        | none => exact (v.id3 _ _ _ hsh).2 wd rfl
      obtain ⟨l, hl⟩ := this
      exact ⟨wd, e6' (wd, ⟨s, inst⟩) ((hmem _ _).mpr ⟨List.mem_cons_self, l, hl⟩), by rw [K.wdOf, e1, e2]; exact v.wk _ _ _ hl⟩
    · intro hin i hi
      have hinst : inst = none := by
        have : S.inst = inst := e2
        rw [← this]; exact hin
      subst hinst
      rw [K.dirs, e1] at hi
      rw [K.wdOf, K.queue, e1]
      obtain ⟨l, hl⟩ := (v.id3 _ _ _ hsh).2 wd rfl
      -- some other search of the service watches the directory
      obtain ⟨h0, hh0⟩ : ∃ h0, h0 ∈ l := List.exists_mem_of_ne_nil _ (v.ne _ _ _ hl)
      obtain ⟨S0, hS0, hw0⟩ := v.ls _ _ _ _ hl hh0
      obtain ⟨d, l', x, _, z1, z2⟩ := v.sl _ _ _ hS0 hw0
      rw [hl] at x; injection x with x; injection x with x _
      subst x
      have hin0 : S0.inst = none := by
        rcases z2 with z2 | z2
        · exact z2
        · exact z2.symm
      have z1' : s = S0.svc := z1
      rcases v.dirL _ _ hS0 (by simp) hin0 i (by rw [← z1']; exact hi) with ⟨y, a, b⟩ | a
      · obtain ⟨l2, b2, _⟩ := v.linked hS0 a b
        rw [← z1'] at b b2
        obtain ⟨_, m, ch', c1, c2⟩ := v.id1 _ _ _ _ b2
        rw [hsh] at c1; injection c1 with c1; injection c1 with _ c1
        subst c1
        exact .inl ⟨y, e6' (y, ⟨s, some i⟩) ((hmem _ _).mpr ⟨List.mem_cons_of_mem _ c2, l2, b2⟩), b⟩
      · rw [← z1'] at a
        exact .inr a
  · intro imp cc
    have c1 := cc.newSearch (h := h) (S := { svc := s, inst, q, wds := [], prev := handles })
    have c3 := c1.links K (fun p hp => by
      obtain ⟨x, d⟩ := p
      obtain ⟨_, l, e⟩ := (hmem x d).mp hp
      exact ⟨l, e⟩)
    refine c3.finish hS ?_
    intro i hi
    left
    rw [e1, e3, e4]
    show i ∈ (storeAndLink _ h _).known q s ↔ _
    rw [K.known, mem_select]
    rw [e2] at hi
    exact ⟨fun h => ⟨h, hi⟩, fun h => h.1⟩
  · intro h' S' hne e
    obtain ⟨S0, a, b1, b2, b3, b4, _⟩ := K.back _ _ e
    have a' : upd w.searches h _ h' = some S0 := a
    rw [upd_ne _ _ hne] at a'
    exact ⟨S0, a', b1, b2, b3, b4⟩
  · intro h' S0 e
    have hne : h' ≠ h := by rintro rfl; rw [hn] at e; cases e
    obtain ⟨S', a, _⟩ := K.forth h' S0 (by dsimp only; rw [upd_ne _ _ hne]; exact e)
    exact ⟨S', a⟩

end Verif.Discovery
