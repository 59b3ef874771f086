/- Taking a search down. -/
import Verif.Proofs.DiscoveryTables

namespace Verif.Discovery

theorem mem_without {x y : Nat} {l : List Nat} : x ∈ l.filter (· ≠ y) ↔ x ∈ l ∧ x ≠ y := by simp [List.mem_filter]

/-- The effect of unlinking a watch from an obsolete search. -/
structure Dropped (w : World) (h wd : Nat) (S : Search) (d : Dir) (hs : List Nat) (w' : World) : Prop where
  dirs : w'.dirs = w.dirs
  file : w'.file = w.file
  nextWd : w'.nextWd = w.nextWd
  queue : w'.queue = w.queue
  batch : w'.batch = w.batch
  obsolete : w'.obsolete = w.obsolete
  nextH : w'.nextH = w.nextH
  log : w'.log = w.log
  aborted : w'.aborted = w.aborted
  searches : w'.searches = upd w.searches h (some { S with wds := S.wds.filter (· ≠ wd) })
  rest : (hs.filter (· ≠ h) ≠ [] ∧ w'.watches = upd w.watches wd (some (d, hs.filter (· ≠ h))) ∧ w'.wdOf = w.wdOf ∧ w'.ids = w.ids ∧
      w'.known = w.known) ∨
    (hs.filter (· ≠ h) = [] ∧ w'.watches = upd w.watches wd none ∧ (∀ d', w'.wdOf d' = if w.wdOf d' = some wd then none else w.wdOf d') ∧
      (∀ q s i, i ∈ w'.known q s ↔ i ∈ w.known q s ∧ d ≠ ⟨s, some i⟩) ∧
      ((d.inst ≠ none ∧ w'.ids d = none ∧ (∀ d', d' ≠ d → d' ≠ ⟨d.svc, none⟩ → w'.ids d' = w.ids d') ∧
          w'.ids ⟨d.svc, none⟩ = (w.ids ⟨d.svc, none⟩).map fun p => (p.1, p.2.filter (· ≠ wd))) ∨
        (d.inst = none ∧ (∀ d', d' ≠ d → w'.ids d' = w.ids d') ∧ w'.ids d = (w.ids d).map fun p => (none, p.2))))

theorem eraseWatch_some (w : World) (wd s i : Nat) :
    let w' := eraseWatch w wd ⟨s, some i⟩
    w'.dirs = w.dirs ∧ w'.file = w.file ∧ w'.nextWd = w.nextWd ∧ w'.queue = w.queue ∧ w'.batch = w.batch ∧ w'.obsolete = w.obsolete ∧
    w'.nextH = w.nextH ∧ w'.log = w.log ∧ w'.aborted = w.aborted ∧ w'.searches = w.searches ∧ w'.watches = upd w.watches wd none ∧
    (∀ d', w'.wdOf d' = if w.wdOf d' = some wd then none else w.wdOf d') ∧
    (∀ q' s' i', i' ∈ w'.known q' s' ↔ i' ∈ w.known q' s' ∧ (⟨s, some i⟩ : Dir) ≠ ⟨s', some i'⟩) ∧
    w'.ids ⟨s, some i⟩ = none ∧ (∀ d', d' ≠ ⟨s, some i⟩ → d' ≠ ⟨s, none⟩ → w'.ids d' = w.ids d') ∧
    w'.ids ⟨s, none⟩ = (w.ids ⟨s, none⟩).map fun p => (p.1, p.2.filter (· ≠ wd)) := by
  have hne : (⟨s, none⟩ : Dir) ≠ ⟨s, some i⟩ := by intro h; injection h with _ h; cases h
  have hne' : (⟨s, some i⟩ : Dir) ≠ ⟨s, none⟩ := fun h => hne h.symm
  have hk : ∀ q' s' i', i' ∈ (forget (forget w s i .b) s i .qm).known q' s' ↔ i' ∈ w.known q' s' ∧ (⟨s, some i⟩ : Dir) ≠ ⟨s', some i'⟩ := by
    intro q' s' i'
    rw [mem_forget, mem_forget]
    constructor
    · rintro ⟨a, b, c⟩
      refine ⟨c, fun e => ?_⟩
      injection e with e1 e2; injection e2 with e2
      subst e1; subst e2
      cases q'
      · exact b ⟨rfl, rfl, rfl⟩
      · exact a ⟨rfl, rfl, rfl⟩
    · rintro ⟨a, b⟩
      exact ⟨fun ⟨_, x, y⟩ => b (by rw [x, y]), fun ⟨_, x, y⟩ => b (by rw [x, y]), a⟩
  cases ha : w.ids ⟨s, none⟩ with
  | none =>
    have e : eraseWatch w wd ⟨s, some i⟩ = { w with
        known := (forget (forget w s i .b) s i .qm).known
        wdOf := fun d' => if w.wdOf d' = some wd then none else w.wdOf d'
        ids := updD w.ids ⟨s, some i⟩ none
        watches := upd w.watches wd none } := by
      simp [eraseWatch, forget, updD_ne _ _ hne, ha]
    rw [e]
    exact ⟨rfl, rfl, rfl, rfl, rfl, rfl, rfl, rfl, rfl, rfl, rfl, fun _ => rfl, hk, by simp, fun d' h _ => updD_ne _ _ h,
      by simp [updD_ne _ _ hne, ha]⟩
  | some x =>
    obtain ⟨m, ch⟩ := x
    have e : eraseWatch w wd ⟨s, some i⟩ = { w with
        known := (forget (forget w s i .b) s i .qm).known
        wdOf := fun d' => if w.wdOf d' = some wd then none else w.wdOf d'
        ids := updD (updD w.ids ⟨s, some i⟩ none) ⟨s, none⟩ (some (m, ch.filter (· ≠ wd)))
        watches := upd w.watches wd none } := by
      simp [eraseWatch, forget, updD_ne _ _ hne, ha]
    rw [e]
    exact ⟨rfl, rfl, rfl, rfl, rfl, rfl, rfl, rfl, rfl, rfl, rfl, fun _ => rfl, hk, by simp [updD_ne _ _ hne'],
      fun d' h h' => by simp [updD_ne _ _ h, updD_ne _ _ h'], by simp⟩

theorem eraseWatch_none (w : World) (wd s : Nat) :
    let w' := eraseWatch w wd ⟨s, none⟩
    w'.dirs = w.dirs ∧ w'.file = w.file ∧ w'.nextWd = w.nextWd ∧ w'.queue = w.queue ∧ w'.batch = w.batch ∧ w'.obsolete = w.obsolete ∧
    w'.nextH = w.nextH ∧ w'.log = w.log ∧ w'.aborted = w.aborted ∧ w'.searches = w.searches ∧ w'.watches = upd w.watches wd none ∧
    (∀ d', w'.wdOf d' = if w.wdOf d' = some wd then none else w.wdOf d') ∧
    w'.known = w.known ∧ (∀ d', d' ≠ ⟨s, none⟩ → w'.ids d' = w.ids d') ∧
    w'.ids ⟨s, none⟩ = (w.ids ⟨s, none⟩).map fun p => (none, p.2) := by
  cases ha : w.ids ⟨s, none⟩ with
  | none =>
    have e : eraseWatch w wd ⟨s, none⟩ = { w with
        wdOf := fun d' => if w.wdOf d' = some wd then none else w.wdOf d'
        watches := upd w.watches wd none } := by
      simp [eraseWatch, ha]
    rw [e]
    exact ⟨rfl, rfl, rfl, rfl, rfl, rfl, rfl, rfl, rfl, rfl, rfl, fun _ => rfl, rfl, fun d' _ => rfl, by simp [ha]⟩
  | some x =>
    obtain ⟨m, ch⟩ := x
    have e : eraseWatch w wd ⟨s, none⟩ = { w with
        wdOf := fun d' => if w.wdOf d' = some wd then none else w.wdOf d'
        ids := updD w.ids ⟨s, none⟩ (some (none, ch))
        watches := upd w.watches wd none } := by
      simp [eraseWatch, ha]
    rw [e]
    exact ⟨rfl, rfl, rfl, rfl, rfl, rfl, rfl, rfl, rfl, rfl, rfl, fun _ => rfl, rfl, fun d' h => updD_ne _ _ h, by simp⟩

theorem dropWatch_effect {pre ex w} (v : SInv pre ex w) {h wd S} (hS : w.searches h = some S) (hm : wd ∈ S.wds) :
    ∃ d hs, w.watches wd = some (d, hs) ∧ h ∈ hs ∧ Dropped w h wd S d hs (dropWatch w h wd) := by
  obtain ⟨d, hs, hw, hh, _⟩ := v.sl _ _ _ hS hm
  refine ⟨d, hs, hw, hh, ?_⟩
  have hupd : ∀ x y : Option (Dir × List Nat), upd (upd w.watches wd x) wd y = upd w.watches wd y := by
    intro x y
    funext z
    by_cases h : z = wd
    · subst h; simp
    · simp [upd_ne _ _ h]
  unfold dropWatch
  rw [hw, hS]
  dsimp only
  rw [if_pos ⟨hh, hm⟩]
  by_cases hc : hs.filter (· ≠ h) = []
  · rw [if_pos hc]
    obtain ⟨s, inst⟩ := d
    cases inst with
    | some i =>
      obtain ⟨a1, a2, a3, a4, a5, a6, a7, a8, a9, a10, a11, a12, a13, a14, a15, a16⟩ := eraseWatch_some
        { w with watches := upd w.watches wd (some (⟨s, some i⟩, hs.filter (· ≠ h))),
                 searches := upd w.searches h (some { S with wds := S.wds.filter (· ≠ wd) }) } wd s i
      exact ⟨a1, a2, a3, a4, a5, a6, a7, a8, a9, a10, .inr ⟨hc, by rw [a11]; exact hupd _ _, a12, a13,
        .inl ⟨by simp, a14, a15, a16⟩⟩⟩
    | none =>
      obtain ⟨a1, a2, a3, a4, a5, a6, a7, a8, a9, a10, a11, a12, a13, a14, a15⟩ := eraseWatch_none
        { w with watches := upd w.watches wd (some (⟨s, none⟩, hs.filter (· ≠ h))),
                 searches := upd w.searches h (some { S with wds := S.wds.filter (· ≠ wd) }) } wd s
      refine ⟨a1, a2, a3, a4, a5, a6, a7, a8, a9, a10, .inr ⟨hc, by rw [a11]; exact hupd _ _, a12, ?_,
        .inr ⟨rfl, a14, a15⟩⟩⟩
      intro q s' i'
      rw [a13]
      exact ⟨fun x => ⟨x, fun e => by injection e with _ e; cases e⟩, fun x => x.1⟩
  · rw [if_neg hc]
    exact ⟨rfl, rfl, rfl, rfl, rfl, rfl, rfl, rfl, rfl, rfl, .inl ⟨hc, rfl, rfl, rfl, rfl⟩⟩

theorem SInv.dropped {pre w} {h : Nat} (v : SInv pre (some h) w) {wd S d hs w'} (hS : w.searches h = some S)
    (hw : w.watches wd = some (d, hs)) (D : Dropped w h wd S d hs w') : SInv pre (some h) w' := by
  have hdw := v.wk _ _ _ hw
  -- facts that hold in both cases
  have wcase : ∀ wd' d' hs', w'.watches wd' = some (d', hs') →
      (wd' = wd ∧ d' = d ∧ hs' = hs.filter (· ≠ h) ∧ hs' ≠ []) ∨ (wd' ≠ wd ∧ w.watches wd' = some (d', hs')) := by
    intro wd' d' hs' e
    rcases D.rest with ⟨hc, e1, _⟩ | ⟨hc, e1, _⟩
    · rw [e1] at e
      by_cases c : wd' = wd
      · subst c; rw [upd_self] at e
        injection e with e; injection e with e1 e2
        exact .inl ⟨rfl, e1.symm, e2.symm, e2 ▸ hc⟩
      · rw [upd_ne _ _ c] at e; exact .inr ⟨c, e⟩
    · rw [e1] at e
      by_cases c : wd' = wd
      · subst c; rw [upd_self] at e; cases e
      · rw [upd_ne _ _ c] at e; exact .inr ⟨c, e⟩
  have wdsub : ∀ d' x, w'.wdOf d' = some x → w.wdOf d' = some x := by
    intro d' x e
    rcases D.rest with ⟨_, _, e1, _⟩ | ⟨_, _, e1, _⟩
    · rw [e1] at e; exact e
    · rw [e1] at e
      split at e
      · cases e
      · exact e
  have wdkeep : ∀ d' x, w.wdOf d' = some x → (∃ d0 hs0, w'.watches x = some (d0, hs0)) → w'.wdOf d' = some x := by
    intro d' x e hx
    rcases D.rest with ⟨_, _, e1, _⟩ | ⟨_, e0, e1, _⟩
    · rw [e1]; exact e
    · rw [e1]
      rw [if_neg, e]
      rw [e]; intro hh; injection hh with hh; subst hh
      obtain ⟨_, _, hx⟩ := hx
      rw [e0, upd_self] at hx; cases hx
  have wother : ∀ wd', wd' ≠ wd → w'.watches wd' = w.watches wd' := by
    intro wd' c
    rcases D.rest with ⟨_, e1, _⟩ | ⟨_, e1, _⟩ <;> rw [e1, upd_ne _ _ c]
  -- a watch with another search stays
  have wlink : ∀ wd' d' hs' h', w.watches wd' = some (d', hs') → h' ∈ hs' → h' ≠ h → ∃ hs'', w'.watches wd' = some (d', hs'') ∧ h' ∈ hs'' := by
    intro wd' d' hs' h' e hm hne
    by_cases c : wd' = wd
    · subst c
      rw [hw] at e; injection e with e; injection e with e1 e2
      subst e1; subst e2
      have hm' : h' ∈ hs.filter (· ≠ h) := mem_without.mpr ⟨hm, hne⟩
      rcases D.rest with ⟨_, e1, _⟩ | ⟨hc, _⟩
      · exact ⟨_, by rw [e1, upd_self], hm'⟩
      · rw [hc] at hm'; simp at hm'
    · exact ⟨hs', by rw [wother _ c]; exact e, hm⟩
  have scase : ∀ h' S', w'.searches h' = some S' → (h' = h ∧ S' = { S with wds := S.wds.filter (· ≠ wd) }) ∨ (h' ≠ h ∧ w.searches h' = some S') := by
    intro h' S' e
    rw [D.searches] at e
    by_cases c : h' = h
    · subst c; rw [upd_self] at e; injection e with e; exact .inl ⟨rfl, e.symm⟩
    · rw [upd_ne _ _ c] at e; exact .inr ⟨c, e⟩
  have sself : w'.searches h = some { S with wds := S.wds.filter (· ≠ wd) } := by rw [D.searches, upd_self]
  have skeep : ∀ h' S' wd' d', w.searches h' = some S' → h' ≠ h → wd' ∈ S'.wds → w.wdOf d' = some wd' → w'.wdOf d' = some wd' := by
    intro h' S' wd' d' e hne hm hd'
    obtain ⟨hs', a, b⟩ := v.linked e hm hd'
    obtain ⟨hs'', x, _⟩ := wlink _ _ _ _ a b hne
    exact wdkeep _ _ hd' ⟨_, _, x⟩
  refine ⟨⟨?_, ?_, ?_, ?_, ?_, ?_⟩, by rw [D.aborted]; exact v.ab, ?_, ?_, ?_, ?_, ?_, ?_, ?_, ?_, ?_, ?_, ?_, ?_, ?_, ?_⟩
  · rw [D.nextWd]; exact fun d' x e => v.k.lt _ _ (wdsub _ _ e)
  · exact fun d1 d2 x e1 e2 => v.k.inj _ _ _ (wdsub _ _ e1) (wdsub _ _ e2)
  · rw [D.queue, D.nextWd]; exact v.k.evlt
  · rw [D.queue]; exact fun e he d' hd' => v.k.fit e he d' (wdsub _ _ hd')
  · rw [D.dirs]; exact fun s i x e => v.k.wdir s i x (wdsub _ _ e)
  · rw [D.dirs, D.file]; exact v.k.fdir
  · intro wd' d' hs' e
    refine wdkeep _ _ ?_ ⟨_, _, e⟩
    rcases wcase _ _ _ e with ⟨rfl, rfl, _⟩ | ⟨_, e⟩
    · exact hdw
    · exact v.wk _ _ _ e
  · intro wd' d' hs' e
    rcases wcase _ _ _ e with ⟨_, _, _, c⟩ | ⟨_, e⟩
    · exact c
    · exact v.ne _ _ _ e
  · intro wd' d' hs' h' e hm
    rcases wcase _ _ _ e with ⟨rfl, rfl, rfl, _⟩ | ⟨hne, e⟩
    · rw [mem_without] at hm
      obtain ⟨S', a, b⟩ := v.ls _ _ _ _ hw hm.1
      exact ⟨S', by rw [D.searches, upd_ne _ _ hm.2]; exact a, b⟩
    · obtain ⟨S', a, b⟩ := v.ls _ _ _ _ e hm
      by_cases c : h' = h
      · subst c
        rw [hS] at a; injection a with a; subst a
        exact ⟨_, sself, mem_without.mpr ⟨b, hne⟩⟩
      · exact ⟨S', by rw [D.searches, upd_ne _ _ c]; exact a, b⟩
  · intro h' S' wd' e hm
    rcases scase _ _ e with ⟨rfl, rfl⟩ | ⟨hne, e⟩
    · rw [mem_without] at hm
      obtain ⟨d', hs', a, b⟩ := v.sl _ _ _ hS hm.1
      exact ⟨d', hs', by rw [wother _ hm.2]; exact a, b⟩
    · obtain ⟨d', hs', a, b, c⟩ := v.sl _ _ _ e hm
      obtain ⟨hs'', x, y⟩ := wlink _ _ _ _ a b hne
      exact ⟨d', hs'', x, y, c⟩
  · intro h' S' e
    rw [D.nextH]
    rcases scase _ _ e with ⟨rfl, _⟩ | ⟨_, e⟩
    · exact v.sh _ _ hS
    · exact v.sh _ _ e
  · intro h' S' e hex
    rcases scase _ _ e with ⟨rfl, _⟩ | ⟨hne, e⟩
    · exact absurd rfl hex
    · obtain ⟨x, a, b⟩ := v.mainL _ _ e hex
      exact ⟨x, a, skeep _ _ _ _ e hne a b⟩
  · intro h' S' e hex hin i hi
    rcases scase _ _ e with ⟨rfl, _⟩ | ⟨hne, e⟩
    · exact absurd rfl hex
    · rw [D.dirs] at hi
      rw [D.queue]
      rcases v.dirL _ _ e hex hin i hi with ⟨x, a, b⟩ | ⟨x, a, b⟩
      · exact .inl ⟨x, a, skeep _ _ _ _ e hne a b⟩
      · obtain ⟨y, c1, c2⟩ := v.mainL _ _ e hex
        rw [hin, a] at c2; injection c2 with c2; subst c2
        exact .inr ⟨x, skeep _ _ _ _ e hne c1 a, b⟩
  · intro wd' s hs' e
    have e' : ∃ hs0, w.watches wd' = some (⟨s, none⟩, hs0) := by
      rcases wcase _ _ _ e with ⟨rfl, e1, _⟩ | ⟨_, e⟩
      · exact ⟨hs, by rw [e1]; exact hw⟩
      · exact ⟨_, e⟩
    obtain ⟨hs0, e'⟩ := e'
    have hn := v.id0 _ _ _ e'
    rcases D.rest with ⟨_, _, _, e1, _⟩ | ⟨_, _, _, _, ⟨hin, _, ho, ha⟩ | ⟨hin, ho, ha⟩⟩
    · rw [e1]; exact hn
    · by_cases c : s = d.svc
      · subst c; rw [ha]; simpa using hn
      · rw [ho _ (by rintro rfl; exact hin rfl) (by intro h; injection h with h; exact c h)]; exact hn
    · by_cases c : (⟨s, none⟩ : Dir) = d
      · rw [c, ha, ← c]; simpa using hn
      · rw [ho _ c]; exact hn
  · intro wd' s i hs' e
    have e' : ∃ hs0, w.watches wd' = some (⟨s, some i⟩, hs0) := by
      rcases wcase _ _ _ e with ⟨rfl, e1, _⟩ | ⟨_, e⟩
      · exact ⟨hs, by rw [e1]; exact hw⟩
      · exact ⟨_, e⟩
    obtain ⟨hs0, e'⟩ := e'
    obtain ⟨⟨c, hc⟩, m, ch, ha, hm⟩ := v.id1 _ _ _ _ e'
    rcases D.rest with ⟨_, _, _, e1, _⟩ | ⟨_, hz, _, _, ⟨hin, _, ho, hb⟩ | ⟨hin, ho, hb⟩⟩
    · rw [e1]; exact ⟨⟨c, hc⟩, m, ch, ha, hm⟩
    · have hne : wd' ≠ wd := by rintro rfl; rw [hz, upd_self] at e; cases e
      have hned : (⟨s, some i⟩ : Dir) ≠ d := by
        rintro rfl; exact hne (v.uniq e' hw).1
      refine ⟨⟨c, by rw [ho _ hned (by intro h; injection h with _ h; cases h)]; exact hc⟩, ?_⟩
      by_cases hs : s = d.svc
      · subst hs
        exact ⟨m, ch.filter (· ≠ wd), by rw [hb, ha]; rfl, mem_without.mpr ⟨hm, hne⟩⟩
      · exact ⟨m, ch, by rw [ho _ (by rintro rfl; exact hin rfl) (by intro h; injection h with h; exact hs h)]; exact ha, hm⟩
    · refine ⟨⟨c, by rw [ho _ (by rintro rfl; cases hin)]; exact hc⟩, ?_⟩
      by_cases hs : (⟨s, none⟩ : Dir) = d
      · exact ⟨none, ch, by rw [hs, hb, ← hs, ha]; rfl, hm⟩
      · exact ⟨m, ch, by rw [ho _ hs]; exact ha, hm⟩
  · intro s i m c e
    rcases D.rest with ⟨_, hz, _, e1, _⟩ | ⟨_, hz, _, _, ⟨hin, hn, ho, hb⟩ | ⟨hin, ho, hb⟩⟩
    · rw [e1] at e
      obtain ⟨a, x, hs', b, c⟩ := v.id2 _ _ _ _ e
      by_cases hx : x = wd
      · subst hx
        rw [hw] at c; injection c with c; injection c with c1 c2
        exact ⟨a, x, _, b, by rw [hz, upd_self, c1]⟩
      · exact ⟨a, x, hs', b, by rw [wother _ hx]; exact c⟩
    · by_cases hd : (⟨s, some i⟩ : Dir) = d
      · rw [hd, hn] at e; cases e
      · rw [ho _ hd (by intro h; injection h with _ h; cases h)] at e
        obtain ⟨a, x, hs', b, c⟩ := v.id2 _ _ _ _ e
        refine ⟨a, x, hs', b, ?_⟩
        rw [wother]
        · exact c
        · rintro rfl; rw [hw] at c; injection c with c; injection c with c; exact hd c.symm
    · rw [ho _ (by rintro rfl; cases hin)] at e
      obtain ⟨a, x, hs', b, c⟩ := v.id2 _ _ _ _ e
      refine ⟨a, x, hs', b, ?_⟩
      rw [wother]
      · exact c
      · rintro rfl; rw [hw] at c; injection c with c; injection c with c; rw [c] at hin; cases hin
  · intro s m ch e
    rcases D.rest with ⟨_, hz, _, e1, _⟩ | ⟨_, hz, _, _, ⟨hin, hn, ho, hb⟩ | ⟨hin, ho, hb⟩⟩
    · rw [e1] at e
      obtain ⟨a, b⟩ := v.id3 _ _ _ e
      constructor
      · intro x hx
        obtain ⟨i, hs', c⟩ := a x hx
        by_cases hxx : x = wd
        · subst hxx
          rw [hw] at c; injection c with c; injection c with c1 c2
          exact ⟨i, _, by rw [hz, upd_self, c1]⟩
        · exact ⟨i, hs', by rw [wother _ hxx]; exact c⟩
      · intro x hx
        obtain ⟨hs', c⟩ := b x hx
        by_cases hxx : x = wd
        · subst hxx
          rw [hw] at c; injection c with c; injection c with c1 c2
          exact ⟨_, by rw [hz, upd_self, c1]⟩
        · exact ⟨hs', by rw [wother _ hxx]; exact c⟩
    · have hmain : ∀ m0 ch0, w.ids ⟨s, none⟩ = some (m0, ch0) → ∀ x, m0 = some x → ∃ hs, w'.watches x = some (⟨s, none⟩, hs) := by
        intro m0 ch0 e0 x hx
        obtain ⟨hs', c⟩ := (v.id3 _ _ _ e0).2 x hx
        refine ⟨hs', ?_⟩
        rw [wother]
        · exact c
        · rintro rfl; rw [hw] at c; injection c with c; injection c with c; rw [c] at hin; exact hin rfl
      by_cases hs : s = d.svc
      · subst hs
        rw [hb] at e
        cases h0 : w.ids ⟨d.svc, none⟩ with
        | none => rw [h0] at e; cases e
        | some p =>
          obtain ⟨m0, ch0⟩ := p
          rw [h0] at e
          injection e with e; injection e with e1 e2
          subst e1; subst e2
          refine ⟨fun x hx => ?_, hmain _ _ h0⟩
          rw [mem_without] at hx
          obtain ⟨i, hs', c⟩ := (v.id3 _ _ _ h0).1 x hx.1
          exact ⟨i, hs', by rw [wother _ hx.2]; exact c⟩
      · rw [ho _ (by rintro rfl; exact hin rfl) (by intro h; injection h with h; exact hs h)] at e
        refine ⟨fun x hx => ?_, hmain _ _ e⟩
        obtain ⟨i, hs', c⟩ := (v.id3 _ _ _ e).1 x hx
        refine ⟨i, hs', ?_⟩
        rw [wother]
        · exact c
        · rintro rfl; rw [hw] at c; injection c with c; injection c with c; rw [c] at hs; exact hs rfl
    · have hch : ∀ m0 ch0, w.ids ⟨s, none⟩ = some (m0, ch0) → ∀ x ∈ ch0, ∃ i hs, w'.watches x = some (⟨s, some i⟩, hs) := by
        intro m0 ch0 e0 x hx
        obtain ⟨i, hs', c⟩ := (v.id3 _ _ _ e0).1 x hx
        refine ⟨i, hs', ?_⟩
        rw [wother]
        · exact c
        · rintro rfl; rw [hw] at c; injection c with c; injection c with c; rw [c] at hin; cases hin
      by_cases hs : (⟨s, none⟩ : Dir) = d
      · rw [hs, hb, ← hs] at e
        cases h0 : w.ids ⟨s, none⟩ with
        | none => rw [h0] at e; cases e
        | some p =>
          obtain ⟨m0, ch0⟩ := p
          rw [h0] at e
          injection e with e; injection e with e1 e2
          subst e1; subst e2
          exact ⟨hch _ _ h0, fun x hx => by cases hx⟩
      · rw [ho _ hs] at e
        refine ⟨hch _ _ e, fun x hx => ?_⟩
        obtain ⟨hs', c⟩ := (v.id3 _ _ _ e).2 x hx
        refine ⟨hs', ?_⟩
        rw [wother]
        · exact c
        · rintro rfl; rw [hw] at c; injection c with c; injection c with c; exact hs c.symm
  · intro q s i hm
    rcases D.rest with ⟨_, hz, _, _, hk⟩ | ⟨_, hz, _, hk, _⟩
    · rw [hk] at hm
      obtain ⟨x, hs', c⟩ := v.kw _ _ _ hm
      by_cases hxx : x = wd
      · subst hxx
        rw [hw] at c; injection c with c; injection c with c1 c2
        exact ⟨x, _, by rw [hz, upd_self, c1]⟩
      · exact ⟨x, hs', by rw [wother _ hxx]; exact c⟩
    · rw [hk] at hm
      obtain ⟨x, hs', c⟩ := v.kw _ _ _ hm.1
      refine ⟨x, hs', ?_⟩
      rw [wother]
      · exact c
      · rintro rfl; rw [hw] at c; injection c with c; injection c with c; exact hm.2 c
  · intro h' S' i e hm
    rcases scase _ _ e with ⟨rfl, rfl⟩ | ⟨_, e⟩
    · exact v.pv _ S i hS hm
    · exact v.pv _ _ _ e hm
  · intro h' S' e
    rcases scase _ _ e with ⟨rfl, rfl⟩ | ⟨_, e⟩
    · exact (v.nd _ _ hS).filter _
    · exact v.nd _ _ e

end Verif.Discovery
