/- Handling of events and calls of handlers. -/
import Verif.Proofs.DiscoveryContent

namespace Verif.Discovery

theorem SInv.frame {pre ex w w'} (v : SInv pre ex w) (hd : w'.dirs = w.dirs) (hf : w'.file = w.file) (hw : w'.wdOf = w.wdOf)
    (hn : w'.nextWd = w.nextWd) (hq : w'.queue = w.queue) (h1 : w'.watches = w.watches) (h2 : w'.ids = w.ids) (h3 : w'.known = w.known)
    (h4 : w'.searches = w.searches) (h5 : w'.nextH = w.nextH) (h6 : w'.aborted = w.aborted) : SInv pre ex w' := by
  refine ⟨v.k.only hd hf hw hn hq, ?_, ?_, ?_, ?_, ?_, ?_, ?_, ?_, ?_, ?_, ?_, ?_, ?_, ?_, ?_⟩
  · rw [h6]; exact v.ab
  · rw [h1, hw]; exact v.wk
  · rw [h1]; exact v.ne
  · rw [h1, h4]; exact v.ls
  · rw [h1, h4]; exact v.sl
  · rw [h5, h4]; exact v.sh
  · rw [hw, h4]; exact v.mainL
  · rw [hw, h4, hd, hq]; exact v.dirL
  · rw [h1, h2]; exact v.id0
  · rw [h1, h2]; exact v.id1
  · rw [h1, h2]; exact v.id2
  · rw [h1, h2]; exact v.id3
  · rw [h1, h3]; exact v.kw
  · rw [h4]; exact v.pv
  · rw [h4]; exact v.nd

/-- Stopping searches. -/
structure Stops (w w' : World) : Prop where
  dirs : w'.dirs = w.dirs
  file : w'.file = w.file
  wdOf : w'.wdOf = w.wdOf
  nextWd : w'.nextWd = w.nextWd
  queue : w'.queue = w.queue
  batch : w'.batch = w.batch
  watches : w'.watches = w.watches
  ids : w'.ids = w.ids
  known : w'.known = w.known
  searches : w'.searches = w.searches
  nextH : w'.nextH = w.nextH
  aborted : w'.aborted = w.aborted
  obsolete : ∀ h ∈ w.obsolete, h ∈ w'.obsolete

theorem stopFind_stops (w : World) (h : Nat) : Stops w (stopFind w h) := by
  unfold stopFind
  split
  · exact ⟨rfl, rfl, rfl, rfl, rfl, rfl, rfl, rfl, rfl, rfl, rfl, rfl, fun x hx => mem_insertNew.mpr (.inr hx)⟩
  · exact ⟨rfl, rfl, rfl, rfl, rfl, rfl, rfl, rfl, rfl, rfl, rfl, rfl, fun _ h => h⟩

theorem Stops.trans {a b c : World} (h : Stops a b) (h' : Stops b c) : Stops a c :=
  ⟨h'.dirs.trans h.dirs, h'.file.trans h.file, h'.wdOf.trans h.wdOf, h'.nextWd.trans h.nextWd, h'.queue.trans h.queue,
    h'.batch.trans h.batch, h'.watches.trans h.watches, h'.ids.trans h.ids, h'.known.trans h.known, h'.searches.trans h.searches,
    h'.nextH.trans h.nextH, h'.aborted.trans h.aborted, fun x hx => h'.obsolete x (h.obsolete x hx)⟩

theorem SInv.stops {pre ex w w'} (v : SInv pre ex w) (s : Stops w w') : SInv pre ex w' :=
  v.frame s.dirs s.file s.wdOf s.nextWd s.queue s.watches s.ids s.known s.searches s.nextH s.aborted

theorem CInv.stops {pre ex imp w w'} (c : CInv pre ex imp w) (s : Stops w w') : CInv pre ex imp w' := by
  refine ⟨?_, ?_, ?_⟩
  · unfold Truth; rw [s.wdOf, s.queue, s.file]; exact c.truth
  · rw [s.watches, s.queue, s.known, s.file]; exact c.p2
  · intro h S i hS hex ho hi
    rw [s.searches] at hS
    rw [s.known]
    refine (c.r h S i hS hex (fun hm => ho (s.obsolete h hm)) hi).imp id (Or.imp id ?_)
    unfold Pend; rw [s.wdOf, s.queue]; exact id

theorem mem_select {l : List Nat} {inst : Option Nat} {i : Nat} : i ∈ select l inst ↔ i ∈ l ∧ (inst = none ∨ inst = some i) := by
  cases inst with
  | none => simp [select]
  | some j =>
    unfold select
    dsimp only
    split
    · next h =>
      rw [List.mem_singleton]
      constructor
      · rintro rfl; exact ⟨h, .inr rfl⟩
      · rintro ⟨_, h | h⟩
        · cases h
        · injection h with h; exact h.symm
    · next h =>
      constructor
      · intro h; simp at h
      · rintro ⟨a, b | b⟩
        · cases b
        · injection b with b; rw [b] at h; exact absurd a h

theorem sameSet_iff {a b : List Nat} : sameSet a b = true ↔ ∀ x, x ∈ a ↔ x ∈ b := by
  unfold sameSet
  simp only [Bool.and_eq_true, List.all_eq_true, decide_eq_true_eq]
  exact ⟨fun ⟨h, h'⟩ x => ⟨h x, h' x⟩, fun h => ⟨fun x => (h x).mp, fun x => (h x).mpr⟩⟩

theorem SInv.told {pre ex w h S} (v : SInv pre ex w) (hS : w.searches h = some S) :
    SInv pre ex { w with searches := upd w.searches h (some { S with prev := select (w.known S.q S.svc) S.inst }) } := by
  have scase : ∀ h' S', upd w.searches h (some { S with prev := select (w.known S.q S.svc) S.inst }) h' = some S' →
      ∃ S0, w.searches h' = some S0 ∧ S'.svc = S0.svc ∧ S'.inst = S0.inst ∧ S'.wds = S0.wds ∧
        (S'.prev = S0.prev ∨ S'.prev = select (w.known S0.q S0.svc) S0.inst) := by
    intro h' S' e
    by_cases c : h' = h
    · subst c; rw [upd_self] at e; injection e with e; subst e
      exact ⟨S, hS, rfl, rfl, rfl, .inr rfl⟩
    · rw [upd_ne _ _ c] at e; exact ⟨S', e, rfl, rfl, rfl, .inl rfl⟩
  refine ⟨v.k.only rfl rfl rfl rfl rfl, v.ab, v.wk, v.ne, ?_, ?_, ?_, ?_, ?_, v.id0, v.id1, v.id2, v.id3, v.kw, ?_, ?_⟩
  · intro wd d hs h' e hm
    obtain ⟨S', a, b⟩ := v.ls _ _ _ _ e hm
    dsimp only
    by_cases c : h' = h
    · subst c
      rw [hS] at a; injection a with a; subst a
      exact ⟨{ S with prev := select (w.known S.q S.svc) S.inst }, by rw [upd_self], b⟩
    · exact ⟨S', by rw [upd_ne _ _ c]; exact a, b⟩
  · intro h' S' wd e hm
    obtain ⟨S0, a, b1, b2, b3, _⟩ := scase _ _ e
    rw [b1, b2]; exact v.sl _ _ _ a (b3 ▸ hm)
  · intro h' S' e
    obtain ⟨S0, a, _⟩ := scase _ _ e
    exact v.sh _ _ a
  · intro h' S' e hex
    obtain ⟨S0, a, b1, b2, b3, _⟩ := scase _ _ e
    rw [b1, b2, b3]; exact v.mainL _ _ a hex
  · intro h' S' e hex hin
    obtain ⟨S0, a, b1, b2, b3, _⟩ := scase _ _ e
    rw [b1, b3]; exact v.dirL _ _ a hex (b2 ▸ hin)
  · intro h' S' i e hm
    obtain ⟨S0, a, b1, b2, b3, b4⟩ := scase _ _ e
    rw [b2]
    rcases b4 with b4 | b4
    · exact v.pv _ _ _ a (b4 ▸ hm)
    · rw [b4, mem_select] at hm; exact hm.2
  · intro h' S' e
    obtain ⟨S0, a, _, _, b3, _⟩ := scase _ _ e
    rw [b3]; exact v.nd _ _ a

/-! ### Events -/

theorem CInv.weaken {pre ex imp imp' w} (c : CInv pre ex imp w) (h : ∀ x ∈ imp, x ∈ imp') : CInv pre ex imp' w :=
  ⟨c.truth, c.p2, fun a S i e hex ho hi => (c.r a S i e hex ho hi).imp id (Or.imp (h _) id)⟩

/-- An event without effect. -/
theorem CInv.skip {pre imp w e} (v : SInv (e :: pre) none w) (c : CInv (e :: pre) none imp w) (hk : w.watches e.wd = none) : CInv pre none imp w := by
  have hne : ∀ h S wd, w.searches h = some S → wd ∈ S.wds → e.wd ≠ wd := by
    rintro h S wd hS hm rfl
    obtain ⟨d, hs, x, _⟩ := v.sl _ _ _ hS hm
    rw [hk] at x; cases x
  refine ⟨?_, ?_, ?_⟩
  · intro s i wd q b h1 h2
    refine c.truth s i wd q b h1 ?_
    rw [List.cons_append]
    simp [lastOf, h2]
  · intro wd s i hs q hw hn
    refine c.p2 wd s i hs q hw ?_
    rw [List.cons_append]
    have : e.wd ≠ wd := by rintro rfl; rw [hk] at hw; cases hw
    simp [lastOf, hn, fileEv, this]
  · intro h S i hS hex ho hi
    refine (c.r h S i hS hex ho hi).imp id (Or.imp id ?_)
    rintro (⟨wd, a, b, d⟩ | ⟨a, wd, b, d⟩)
    · refine .inl ⟨wd, a, b, fun hn => d ?_⟩
      rw [List.cons_append]
      simp [lastOf, hn, fileEv, hne h S wd hS a]
    · refine .inr ⟨a, wd, b, ?_⟩
      rw [List.cons_append] at d
      rcases List.mem_cons.mp d with d | d
      · obtain ⟨x, y, z⟩ := v.mainL _ _ hS hex
        rw [a, b] at z; injection z with z
        exact absurd (by rw [← d]; exact z) (hne h S x hS y)
      · exact d

/-- Handling of an event about a flag file. -/
theorem fileEvent {pre imp w e s i hs q b w'} (v : SInv (e :: pre) none w) (hw : w.watches e.wd = some (⟨s, some i⟩, hs))
    (he : e.kind = if b then .create q else .delete q) (o : OnlyKnown w w')
    (hk : ∀ q' s' i', i' ∈ w'.known q' s' ↔ if q' = q ∧ s' = s ∧ i' = i then b = true else i' ∈ w.known q' s') :
    SInv pre none w' ∧ (CInv (e :: pre) none imp w → CInv pre none (imp ++ hs) w') := by
  have hev : ∀ wd' q', fileEv e wd' q' = if e.wd = wd' ∧ q = q' then some b else none := by
    intro wd' q'
    unfold fileEv
    rw [he]
    cases b <;> by_cases h1 : e.wd = wd' <;> by_cases h2 : q = q' <;> simp [h1, h2]
  have hwd := v.wk _ _ _ hw
  refine ⟨(v.known o ?_).drop_file ?_, fun c => ⟨?_, ?_, ?_⟩⟩
  · intro q' s' i' hm
    rw [hk] at hm
    split at hm
    · next h => obtain ⟨_, rfl, rfl⟩ := h; exact ⟨_, _, hw⟩
    · exact v.kw _ _ _ hm
  · intro j h
    rw [he] at h
    cases b <;> simp at h
  · intro s' i' wd q' b' h1 h2
    rw [o.wdOf] at h1; rw [o.queue] at h2; rw [o.file]
    refine c.truth _ _ _ _ _ h1 ?_
    rw [List.cons_append]
    simp [lastOf, h2]
  · intro wd s' i' hs' q' hw' hn
    rw [o.watches] at hw'; rw [o.queue] at hn; rw [o.file, hk]
    by_cases hc : q' = q ∧ s' = s ∧ i' = i
    · rw [if_pos hc]
      obtain ⟨rfl, rfl, rfl⟩ := hc
      have := (v.uniq hw hw').1
      have h2 : lastOf ((e :: pre) ++ w.queue) e.wd q' = some b := by
        rw [List.cons_append]
        rw [← this] at hn
        simp [lastOf, hn, hev]
      rw [c.truth _ _ _ _ _ hwd h2]
    · rw [if_neg hc]
      refine c.p2 _ _ _ _ _ hw' ?_
      rw [List.cons_append]
      have : ¬(e.wd = wd ∧ q = q') := by
        rintro ⟨rfl, rfl⟩
        rw [hw] at hw'; injection hw' with hw'; injection hw' with hw' _
        injection hw' with x y; injection y with y
        exact hc ⟨rfl, x.symm, y.symm⟩
      simp [lastOf, hn, hev, this]
  · intro h S j hS hex ho hi
    rw [o.searches] at hS; rw [o.obsolete] at ho
    by_cases hl : h ∈ hs
    · exact .inr (.inl (List.mem_append_right _ hl))
    · have hnl : e.wd ∉ S.wds := by
        intro hm
        obtain ⟨d, l, a, b, _⟩ := v.sl _ _ _ hS hm
        rw [hw] at a; injection a with a; injection a with _ a
        exact hl (a ▸ b)
      have hP : Pend (e :: pre) w S j → Pend pre w' S j := by
        rintro (⟨wd, a, b', d⟩ | ⟨a, wd, b', d⟩)
        · refine .inl ⟨wd, a, by rw [o.wdOf]; exact b', fun hn => d ?_⟩
          rw [o.queue] at hn
          rw [List.cons_append]
          have : ¬(e.wd = wd ∧ q = S.q) := by rintro ⟨rfl, _⟩; exact hnl a
          simp [lastOf, hn, hev, this]
        · refine .inr ⟨a, wd, by rw [o.wdOf]; exact b', ?_⟩
          rw [o.queue]
          rw [List.cons_append] at d
          rcases List.mem_cons.mp d with d | d
          · rw [← d] at he; cases b <;> simp at he
          · exact d
      by_cases hc : S.q = q ∧ S.svc = s ∧ j = i
      · -- not linked to the watch: it is about to be
        obtain ⟨_, rfl, rfl⟩ := hc
        refine .inr (.inr (hP ?_))
        have hnl' : ¬∃ x ∈ S.wds, w.wdOf ⟨S.svc, some j⟩ = some x := by
          rintro ⟨x, hx, hx'⟩
          rw [hwd] at hx'; injection hx' with hx'; exact hnl (hx' ▸ hx)
        have hany : S.inst = none := by
          rcases hi with hi | hi
          · exact hi
          · obtain ⟨x, y, z⟩ := v.mainL _ _ hS hex
            rw [hi] at z; exact absurd ⟨x, y, z⟩ hnl'
        rcases v.dirL _ _ hS hex hany j (v.k.wdir _ _ _ hwd) with h | ⟨x, y, z⟩
        · exact absurd h hnl'
        · exact .inr ⟨hany, x, y, z⟩
      · rw [hk, if_neg hc]
        exact (c.r h S j hS hex ho hi).imp id (Or.imp (List.mem_append_left _) hP)

theorem deletions_ok {post : List Ev} (evs : List Ev) {w imp} (hd : ∀ e ∈ evs, e.isDelete = true) (v : SInv (evs ++ post) none w) :
    SInv post none (deletions evs w imp).1 ∧ (CInv (evs ++ post) none imp w → CInv post none (deletions evs w imp).2 (deletions evs w imp).1) := by
  induction evs generalizing w imp with
  | nil => exact ⟨v, id⟩
  | cons e evs ih =>
    have hd' : ∀ e ∈ evs, e.isDelete = true := fun x hx => hd x (List.mem_cons_of_mem _ hx)
    obtain ⟨q, hq⟩ : ∃ q, e.kind = .delete q := by
      have := hd e List.mem_cons_self
      unfold Ev.isDelete at this
      cases h : e.kind with
      | delete q => exact ⟨q, rfl⟩
      | create q => rw [h] at this; cases this
      | mkdir i => rw [h] at this; cases this
    unfold deletions
    cases hw : w.watches e.wd with
    | none =>
      dsimp only
      obtain ⟨a, b⟩ := ih (imp := imp) hd' (SInv.drop_unwatched v hw)
      exact ⟨a, fun c => b (CInv.skip v c hw)⟩
    | some p =>
      obtain ⟨⟨s, inst⟩, hs⟩ := p
      rw [hq]
      cases inst with
      | none =>
        have := v.k.fit e (by simp) _ (v.wk _ _ _ hw)
        rw [hq] at this
        exact absurd rfl this
      | some i =>
        dsimp only
        obtain ⟨a, b⟩ := fileEvent (imp := imp) (b := false) v hw hq (forget_only w s i q) (fun q' s' i' => by
          rw [mem_forget]; split <;> simp_all)
        obtain ⟨a', b'⟩ := ih (imp := imp ++ hs) hd' a
        exact ⟨a', fun c => b' (b c)⟩

theorem dirCreated_ok {pre imp w e s i hs} (env : List (List Act)) (v : SInv (e :: pre) none w) (hw : w.watches e.wd = some (⟨s, none⟩, hs))
    (he : e.kind = .mkdir i) :
    SInv pre none (dirCreated w env ⟨s, none⟩ hs i) ∧
      (CInv (e :: pre) none imp w → CInv pre none (imp ++ hs) (dirCreated w env ⟨s, none⟩ hs i)) := by
  have o := crawl_ok (e :: pre) w env ⟨s, some i⟩
  have hshape : ∃ wd, (crawl w env ⟨s, some i⟩).wds = [(wd, ⟨s, some i⟩)] := ⟨_, rfl⟩
  unfold dirCreated
  dsimp only
  generalize crawl w env ⟨s, some i⟩ = c at o hshape ⊢
  obtain ⟨wd, hwds⟩ := hshape
  rw [hwds]
  dsimp only
  have F := o.toFound
  rw [hwds] at F
  have v1 := v.fine o.fine
  have hw1 : c.w.watches e.wd = some (⟨s, none⟩, hs) := by rw [o.fine.grow.watches]; exact hw
  have hcw : c.w.wdOf ⟨s, some i⟩ = some wd := (F.dir (wd, ⟨s, some i⟩) (by simp)).1
  have hlk : ∀ h ∈ hs, ∃ S, c.w.searches h = some S ∧ s = S.svc ∧ S.inst = none := by
    intro h hh
    obtain ⟨S, a, b⟩ := v1.ls _ _ _ _ hw1 hh
    obtain ⟨d, l, x, y, z1, z2⟩ := v1.sl _ _ _ a b
    rw [hw1] at x; injection x with x; injection x with x _
    subst x
    refine ⟨S, a, z1, ?_⟩
    rcases z2 with z2 | z2
    · exact z2
    · exact z2.symm
  -- the links
  have hlinks : SInv (e :: pre) none (linkAll (storeWatch c.w wd ⟨s, some i⟩) wd hs) ∧
      Links c.w hs [(wd, ⟨s, some i⟩)] (linkAll (storeWatch c.w wd ⟨s, some i⟩) wd hs) := by
    cases hs with
    | nil => exact absurd rfl (v.ne _ _ _ hw)
    | cons h t =>
      obtain ⟨S, hS, hsv, hin⟩ := hlk h List.mem_cons_self
      have L := storeLink v1 hS hcw
      have v2 := v1.link hS hcw hsv (.inl hin) L
      have k := Linked.links hS L
      obtain ⟨l0, hl0, _⟩ := L.watches
      have hw2 : (link (storeWatch c.w wd ⟨s, some i⟩) wd h).watches wd = some (⟨s, some i⟩, insertNew h l0) := by rw [hl0, upd_self]
      obtain ⟨a, b⟩ := linkAll_links v2 hw2 t (fun h' hh => by
        obtain ⟨S', e', x, y⟩ := hlk h' (List.mem_cons_of_mem _ hh)
        obtain ⟨S2, e2, b1, b2, _⟩ := k.forth _ _ e'
        exact ⟨S2, e2, x.trans b1.symm, by rw [b2]; exact .inl y⟩)
      exact ⟨a, k.hs_trans b⟩
  generalize linkAll (storeWatch c.w wd ⟨s, some i⟩) wd hs = w2 at hlinks ⊢
  obtain ⟨v2, K⟩ := hlinks
  have hsome : ∃ h ∈ hs, ∃ S, c.w.searches h = some S := by
    cases hs with
    | nil => exact absurd rfl (v.ne _ _ _ hw)
    | cons h t =>
      obtain ⟨S, hS, _⟩ := hlk h List.mem_cons_self
      exact ⟨h, List.mem_cons_self, S, hS⟩
  have v3 := merged_S K v2 F hsome
  have hwd3 : (merge w2 s c.found).wdOf = c.w.wdOf := (merge_only w2 s c.found).wdOf.trans K.wdOf
  have hmain : ∀ h S, (merge w2 s c.found).searches h = some S → S.inst = none → (merge w2 s c.found).wdOf ⟨S.svc, none⟩ = some e.wd →
      h ∈ hs ∧ wd ∈ S.wds ∧ S.svc = s := by
    intro h S hS hin hm
    rw [(merge_only w2 s c.found).searches] at hS
    obtain ⟨S0, hS0, e1, e2, _⟩ := K.back _ _ hS
    rw [hwd3] at hm
    obtain ⟨x, y, z⟩ := v1.mainL _ _ hS0 (by simp)
    rw [← e1, ← e2, hin, hm] at z
    injection z with z; subst z
    have hh : h ∈ hs := by
      obtain ⟨d, l, a, b, _⟩ := v1.sl _ _ _ hS0 y
      rw [hw1] at a; injection a with a; injection a with _ a; exact a ▸ b
    obtain ⟨S2, hS2, _, _, _, _, _, hl⟩ := K.forth _ _ hS0
    rw [hS] at hS2; injection hS2 with hS2; subst hS2
    have hsv := v1.k.inj _ _ _ hm (v1.wk _ _ _ hw1)
    injection hsv with hsv _
    exact ⟨hh, hl hh (wd, ⟨s, some i⟩) (by simp), hsv⟩
  refine ⟨v3.drop ?_, fun cc => ?_⟩
  · intro h S j hS _ hin hm hk
    obtain ⟨_, a, b⟩ := hmain h S hS hin hm
    rw [he] at hk; injection hk with hk; subst hk
    exact ⟨wd, a, by rw [hwd3, b]; exact hcw⟩
  · have c3 := merged_C v1 (cc.fine v o.fine) K F
    have hev : ∀ wd' q', fileEv e wd' q' = none := by intro wd' q'; unfold fileEv; rw [he]; simp
    have hlast : ∀ l wd' q', lastOf (e :: l) wd' q' = lastOf l wd' q' := by intro l wd' q'; simp [lastOf, hev]
    refine ⟨?_, ?_, ?_⟩
    · intro s' i' wd' q b h1 h2
      exact c3.truth s' i' wd' q b h1 (by rw [List.cons_append, hlast]; exact h2)
    · intro wd' s' i' l q h1 h2
      exact c3.p2 wd' s' i' l q h1 (by rw [List.cons_append, hlast]; exact h2)
    · intro h S j hS hex ho hi
      rcases c3.r h S j hS hex ho hi with x | x | ⟨x, y, z, u⟩ | ⟨x, y, z, u⟩
      · exact .inl x
      · exact .inr (.inl (List.mem_append_left _ x))
      · exact .inr (.inr (.inl ⟨x, y, z, by rw [List.cons_append, hlast] at u; exact u⟩))
      · rw [List.cons_append] at u
        rcases List.mem_cons.mp u with u | u
        · have : y = e.wd := by rw [← u]
          subst this
          exact .inr (.inl (List.mem_append_right _ (hmain h S hS x z).1))
        · exact .inr (.inr (.inr ⟨x, y, z, u⟩))

theorem creations_ok {post : List Ev} (evs : List Ev) {w imp} (env : List (List (List Act))) (hd : ∀ e ∈ evs, e.isDelete = false)
    (v : SInv (evs ++ post) none w) :
    SInv post none (creations evs w env imp).1 ∧
      (CInv (evs ++ post) none imp w → CInv post none (creations evs w env imp).2 (creations evs w env imp).1) := by
  induction evs generalizing w imp env with
  | nil => exact ⟨v, id⟩
  | cons e evs ih =>
    have hd' : ∀ e ∈ evs, e.isDelete = false := fun x hx => hd x (List.mem_cons_of_mem _ hx)
    unfold creations
    cases hw : w.watches e.wd with
    | none =>
      dsimp only
      obtain ⟨a, b⟩ := ih (imp := imp) env.tail hd' (SInv.drop_unwatched v hw)
      exact ⟨a, fun c => b (CInv.skip v c hw)⟩
    | some p =>
      obtain ⟨⟨s, inst⟩, hs⟩ := p
      have hfit := v.k.fit e (by simp) _ (v.wk _ _ _ hw)
      cases hk : e.kind with
      | delete q =>
        have := hd e List.mem_cons_self
        unfold Ev.isDelete at this
        rw [hk] at this; cases this
      | create q =>
        rw [hk] at hfit
        cases inst with
        | none => exact absurd rfl hfit
        | some i =>
          dsimp only
          obtain ⟨a, b⟩ := fileEvent (imp := imp) (b := true) v hw hk (learn_only w s i q) (fun q' s' i' => by
            rw [mem_learn]; split <;> simp_all)
          obtain ⟨a', b'⟩ := ih (imp := imp ++ hs) env.tail hd' a
          exact ⟨a', fun c => b' (b c)⟩
      | mkdir i =>
        rw [hk] at hfit
        cases inst with
        | some j => cases hfit
        | none =>
          dsimp only
          obtain ⟨a, b⟩ := dirCreated_ok (imp := imp) (env.headD []) v hw hk
          obtain ⟨a', b'⟩ := ih (imp := imp ++ hs) env.tail hd' a
          exact ⟨a', fun c => b' (b c)⟩

end Verif.Discovery
