/- What is known, what is there, and what a search was told. -/
import Verif.Proofs.DiscoveryDrop

namespace Verif.Discovery

/-- There is an event that will make the client look at instance `i` for this search. -/
def Pend (pre : List Ev) (w : World) (S : Search) (i : Nat) : Prop :=
  (∃ wd ∈ S.wds, w.wdOf ⟨S.svc, some i⟩ = some wd ∧ lastOf (pre ++ w.queue) wd S.q ≠ none) ∨
  (S.inst = none ∧ ∃ wd0, w.wdOf ⟨S.svc, none⟩ = some wd0 ∧ ⟨wd0, .mkdir i⟩ ∈ pre ++ w.queue)

/-- `imp`: the searches whose handlers are going to be considered. -/
structure CInv (pre : List Ev) (ex : Option Nat) (imp : List Nat) (w : World) : Prop where
  truth : Truth pre w
  p2 : ∀ wd s i hs q, w.watches wd = some (⟨s, some i⟩, hs) → lastOf (pre ++ w.queue) wd q = none → (i ∈ w.known q s ↔ w.file s i q = true)
  r : ∀ h S i, w.searches h = some S → ex ≠ some h → h ∉ w.obsolete → (S.inst = none ∨ S.inst = some i) →
    (i ∈ w.known S.q S.svc ↔ i ∈ S.prev) ∨ h ∈ imp ∨ Pend pre w S i

theorem Pend.fine {pre w w' S i} (f : Grow w w') (p : Pend pre w S i) : Pend pre w' S i := by
  obtain ⟨new, hq, _⟩ := f.queue
  rcases p with ⟨wd, a, b, c⟩ | ⟨a, wd, b, c⟩
  · refine .inl ⟨wd, a, f.wd _ _ b, fun h => c ?_⟩
    rw [hq, ← List.append_assoc, lastOf_none_append] at h
    exact h.1
  · refine .inr ⟨a, wd, f.wd _ _ b, ?_⟩
    rw [hq, ← List.append_assoc]; exact List.mem_append_left _ c

theorem CInv.fine {pre ex imp w w'} (v : SInv pre ex w) (c : CInv pre ex imp w) (f : Fine pre w w') : CInv pre ex imp w' := by
  have g := f.grow
  refine ⟨f.truth v.k c.truth, ?_, ?_⟩
  · intro wd s i hs q hw hn
    obtain ⟨new, hq, hfile, _⟩ := g.queue
    rw [g.watches] at hw
    rw [hq, ← List.append_assoc, lastOf_none_append] at hn
    rw [g.known, hfile s i wd q (v.wk _ _ _ hw) hn.2]
    exact c.p2 _ _ _ _ _ hw hn.1
  · intro h S i hS hex ho hi
    rw [g.searches] at hS
    rw [g.obsolete] at ho
    rw [g.known]
    exact (c.r h S i hS hex ho hi).imp id (Or.imp id (Pend.fine g))

/-! ### One search less -/

theorem CInv.dropped {pre imp w} {h : Nat} (v : SInv pre (some h) w) (c : CInv pre (some h) imp w) {wd S d hs w'}
    (hS : w.searches h = some S) (hw : w.watches wd = some (d, hs)) (D : Dropped w h wd S d hs w') : CInv pre (some h) imp w' := by
  have v' := v.dropped hS hw D
  have wdsub : ∀ d' x, w'.wdOf d' = some x → w.wdOf d' = some x := by
    intro d' x e
    rcases D.rest with ⟨_, _, e1, _⟩ | ⟨_, _, e1, _⟩
    · rw [e1] at e; exact e
    · rw [e1] at e
      split at e
      · cases e
      · exact e
  have keep : ∀ h' S' d' wd', w'.searches h' = some S' → wd' ∈ S'.wds → w.wdOf d' = some wd' → w'.wdOf d' = some wd' := by
    intro h' S' d' wd' e hm hd
    obtain ⟨d2, hs2, a, _⟩ := v'.sl _ _ _ e hm
    have b := v'.wk _ _ _ a
    have := v.k.inj _ _ _ hd (wdsub _ _ b)
    subst this; exact b
  have keepP : ∀ h' S' i, w.searches h' = some S' → h' ≠ h → Pend pre w S' i → Pend pre w' S' i := by
    intro h' S' i e hne p
    have e' : w'.searches h' = some S' := by rw [D.searches, upd_ne _ _ hne]; exact e
    rcases p with ⟨x, a, b, c⟩ | ⟨a, x, b, c⟩
    · exact .inl ⟨x, a, keep _ _ _ _ e' a b, by rw [D.queue]; exact c⟩
    · obtain ⟨y, m, hy⟩ := v.mainL _ _ e (fun h => hne (by injection h with h; exact h.symm))
      rw [a, b] at hy; injection hy with hy; subst hy
      exact .inr ⟨a, x, keep _ _ _ _ e' m b, by rw [D.queue]; exact c⟩
  refine ⟨?_, ?_, ?_⟩
  · intro s i x q b h1 h2
    rw [D.queue] at h2; rw [D.file]
    exact c.truth s i x q b (wdsub _ _ h1) h2
  · intro x s i hs' q hx hn
    rw [D.queue] at hn
    rw [D.file]
    have hx0 : ∃ hs0, w.watches x = some (⟨s, some i⟩, hs0) := by
      rcases D.rest with ⟨_, e1, _⟩ | ⟨_, e1, _⟩
      · rw [e1] at hx
        by_cases hc : x = wd
        · subst hc; rw [upd_self] at hx; injection hx with hx; injection hx with hx _
          exact ⟨hs, by rw [← hx]; exact hw⟩
        · rw [upd_ne _ _ hc] at hx; exact ⟨_, hx⟩
      · rw [e1] at hx
        by_cases hc : x = wd
        · subst hc; rw [upd_self] at hx; cases hx
        · rw [upd_ne _ _ hc] at hx; exact ⟨_, hx⟩
    obtain ⟨hs0, hx0⟩ := hx0
    rw [← c.p2 _ _ _ _ _ hx0 hn]
    rcases D.rest with ⟨_, _, _, _, hk⟩ | ⟨_, e1, _, hk, _⟩
    · rw [hk]
    · rw [hk]
      refine ⟨fun h => h.1, fun h => ⟨h, ?_⟩⟩
      rintro rfl
      have := (v.uniq hw hx0).1
      subst this
      rw [e1, upd_self] at hx; cases hx
  · intro h' S' i e hex ho hi
    have hne : h' ≠ h := fun h => hex (by rw [h])
    rw [D.searches, upd_ne _ _ hne] at e
    rw [D.obsolete] at ho
    rcases D.rest with ⟨_, _, _, _, hk⟩ | ⟨hc, _, _, hk, _⟩
    · rw [hk]
      exact (c.r h' S' i e hex ho hi).imp id (Or.imp id (keepP _ _ _ e hne))
    · by_cases hd : d = ⟨S'.svc, some i⟩
      · -- the known instance is forgotten; this search is not linked to the watch
        have hnl : ∀ x ∈ S'.wds, w.wdOf ⟨S'.svc, some i⟩ ≠ some x := by
          intro x hx hwx
          obtain ⟨hs2, a, b⟩ := v.linked e hx hwx
          have := v.uniq (hd ▸ hw) a
          rw [this.2] at hc
          have : h' ∈ hs2.filter (· ≠ h) := mem_without.mpr ⟨b, hne⟩
          rw [hc] at this; simp at this
        have hany : S'.inst = none := by
          rcases hi with hi | hi
          · exact hi
          · obtain ⟨x, a, b⟩ := v.mainL _ _ e hex
            rw [hi] at b
            exact absurd b (hnl x a)
        have hdir : i ∈ w.dirs S'.svc := v.k.wdir _ _ _ (hd ▸ v.wk _ _ _ hw)
        rcases v.dirL _ _ e hex hany i hdir with ⟨x, a, b⟩ | ⟨x, a, b⟩
        · exact absurd b (hnl x a)
        · exact .inr (.inr (keepP _ _ _ e hne (.inr ⟨hany, x, a, b⟩)))
      · have : (i ∈ w'.known S'.q S'.svc ↔ i ∈ w.known S'.q S'.svc) := by
          rw [hk]; exact ⟨fun h => h.1, fun h => ⟨h, hd⟩⟩
        rw [this]
        exact (c.r h' S' i e hex ho hi).imp id (Or.imp id (keepP _ _ _ e hne))

/-! ### Many links -/

structure Links (w : World) (hs : List Nat) (wds : List (Nat × Dir)) (w' : World) : Prop where
  dirs : w'.dirs = w.dirs
  file : w'.file = w.file
  wdOf : w'.wdOf = w.wdOf
  nextWd : w'.nextWd = w.nextWd
  queue : w'.queue = w.queue
  batch : w'.batch = w.batch
  known : w'.known = w.known
  obsolete : w'.obsolete = w.obsolete
  nextH : w'.nextH = w.nextH
  log : w'.log = w.log
  aborted : w'.aborted = w.aborted
  back : ∀ h S', w'.searches h = some S' → ∃ S, w.searches h = some S ∧ S'.svc = S.svc ∧ S'.inst = S.inst ∧ S'.q = S.q ∧ S'.prev = S.prev ∧
    ∀ x ∈ S.wds, x ∈ S'.wds
  forth : ∀ h S, w.searches h = some S → ∃ S', w'.searches h = some S' ∧ S'.svc = S.svc ∧ S'.inst = S.inst ∧ S'.q = S.q ∧ S'.prev = S.prev ∧
    (∀ x ∈ S.wds, x ∈ S'.wds) ∧ (h ∈ hs → ∀ p ∈ wds, p.1 ∈ S'.wds)
  watches : ∀ wd d l, w'.watches wd = some (d, l) → (∃ l0, w.watches wd = some (d, l0)) ∨ (wd, d) ∈ wds

theorem Links.nil (w : World) (hs : List Nat) : Links w hs [] w :=
  ⟨rfl, rfl, rfl, rfl, rfl, rfl, rfl, rfl, rfl, rfl, rfl, fun _ S h => ⟨S, h, rfl, rfl, rfl, rfl, fun _ h => h⟩,
    fun _ S h => ⟨S, h, rfl, rfl, rfl, rfl, fun _ h => h, fun _ _ h => by simp at h⟩, fun _ _ l h => .inl ⟨l, h⟩⟩

theorem Links.nil' (w : World) (wds : List (Nat × Dir)) : Links w [] wds w :=
  ⟨rfl, rfl, rfl, rfl, rfl, rfl, rfl, rfl, rfl, rfl, rfl, fun _ S h => ⟨S, h, rfl, rfl, rfl, rfl, fun _ h => h⟩,
    fun _ S h => ⟨S, h, rfl, rfl, rfl, rfl, fun _ h => h, fun h => by simp at h⟩, fun _ _ l h => .inl ⟨l, h⟩⟩

theorem Linked.links {w wd d h S w'} (hS : w.searches h = some S) (L : Linked w wd d h S w') : Links w [h] [(wd, d)] w' := by
  refine ⟨L.dirs, L.file, L.wdOf, L.nextWd, L.queue, L.batch, L.known, L.obsolete, L.nextH, L.log, L.aborted, ?_, ?_, ?_⟩
  · intro h' S' e
    rw [L.searches] at e
    by_cases c : h' = h
    · subst c; rw [upd_self] at e; injection e with e; subst e
      exact ⟨S, hS, rfl, rfl, rfl, rfl, fun x hx => mem_insertNew.mpr (.inr hx)⟩
    · rw [upd_ne _ _ c] at e; exact ⟨S', e, rfl, rfl, rfl, rfl, fun _ h => h⟩
  · intro h' S' e
    by_cases c : h' = h
    · subst c
      rw [hS] at e; injection e with e; subst e
      exact ⟨{ S with wds := insertNew wd S.wds }, by rw [L.searches, upd_self], rfl, rfl, rfl, rfl, fun x hx => mem_insertNew.mpr (.inr hx),
        fun _ p hp => by rw [List.mem_singleton.mp hp]; exact mem_insertNew.mpr (.inl rfl)⟩
    · exact ⟨S', by rw [L.searches, upd_ne _ _ c]; exact e, rfl, rfl, rfl, rfl, fun _ h => h, fun h => by simp [c] at h⟩
  · intro wd' d' l e
    obtain ⟨hs0, hw, hw0⟩ := L.watches
    rw [hw] at e
    by_cases c : wd' = wd
    · subst c; rw [upd_self] at e; injection e with e; injection e with e1 e2
      subst e1; exact .inr (by simp)
    · rw [upd_ne _ _ c] at e; exact .inl ⟨l, e⟩

/-- Links of the same search to further watches. -/
theorem Links.wds_trans {a b c : World} {h : Nat} {l1 l2 : List (Nat × Dir)} (x : Links a [h] l1 b) (y : Links b [h] l2 c) :
    Links a [h] (l1 ++ l2) c := by
  refine ⟨y.dirs.trans x.dirs, y.file.trans x.file, y.wdOf.trans x.wdOf, y.nextWd.trans x.nextWd, y.queue.trans x.queue,
    y.batch.trans x.batch, y.known.trans x.known, y.obsolete.trans x.obsolete, y.nextH.trans x.nextH, y.log.trans x.log,
    y.aborted.trans x.aborted, ?_, ?_, ?_⟩
  · intro h' S' e
    obtain ⟨S1, e1, a1, a2, a3, a4, a5⟩ := y.back _ _ e
    obtain ⟨S0, e0, b1, b2, b3, b4, b5⟩ := x.back _ _ e1
    exact ⟨S0, e0, a1.trans b1, a2.trans b2, a3.trans b3, a4.trans b4, fun z hz => a5 z (b5 z hz)⟩
  · intro h' S e
    obtain ⟨S1, e1, a1, a2, a3, a4, a5, a6⟩ := x.forth _ _ e
    obtain ⟨S2, e2, b1, b2, b3, b4, b5, b6⟩ := y.forth _ _ e1
    refine ⟨S2, e2, b1.trans a1, b2.trans a2, b3.trans a3, b4.trans a4, fun z hz => b5 z (a5 z hz), fun hm p hp => ?_⟩
    rcases List.mem_append.mp hp with hp | hp
    · exact b5 _ (a6 hm p hp)
    · exact b6 hm p hp
  · intro wd d l e
    rcases y.watches _ _ _ e with ⟨l1, e⟩ | e
    · rcases x.watches _ _ _ e with e | e
      · exact .inl e
      · exact .inr (List.mem_append_left _ e)
    · exact .inr (List.mem_append_right _ e)

/-- Links of further searches to the same watch. -/
theorem Links.hs_trans {a b c : World} {h : Nat} {hs : List Nat} {p : Nat × Dir} (x : Links a [h] [p] b) (y : Links b hs [p] c) :
    Links a (h :: hs) [p] c := by
  refine ⟨y.dirs.trans x.dirs, y.file.trans x.file, y.wdOf.trans x.wdOf, y.nextWd.trans x.nextWd, y.queue.trans x.queue,
    y.batch.trans x.batch, y.known.trans x.known, y.obsolete.trans x.obsolete, y.nextH.trans x.nextH, y.log.trans x.log,
    y.aborted.trans x.aborted, ?_, ?_, ?_⟩
  · intro h' S' e
    obtain ⟨S1, e1, a1, a2, a3, a4, a5⟩ := y.back _ _ e
    obtain ⟨S0, e0, b1, b2, b3, b4, b5⟩ := x.back _ _ e1
    exact ⟨S0, e0, a1.trans b1, a2.trans b2, a3.trans b3, a4.trans b4, fun z hz => a5 z (b5 z hz)⟩
  · intro h' S e
    obtain ⟨S1, e1, a1, a2, a3, a4, a5, a6⟩ := x.forth _ _ e
    obtain ⟨S2, e2, b1, b2, b3, b4, b5, b6⟩ := y.forth _ _ e1
    refine ⟨S2, e2, b1.trans a1, b2.trans a2, b3.trans a3, b4.trans a4, fun z hz => b5 z (a5 z hz), fun hm p hp => ?_⟩
    rcases List.mem_cons.mp hm with hm | hm
    · exact b5 _ (a6 (by simp [hm]) p hp)
    · exact b6 hm p hp
  · intro wd d l e
    rcases y.watches _ _ _ e with ⟨l1, e⟩ | e
    · exact x.watches _ _ _ e
    · exact .inr e

theorem storeAndLink_links {pre ex w} (v : SInv pre ex w) {h S} (hS : w.searches h = some S) (l : List (Nat × Dir))
    (hl : ∀ p ∈ l, w.wdOf p.2 = some p.1 ∧ p.2.svc = S.svc ∧ (S.inst = none ∨ p.2.inst = S.inst)) :
    SInv pre ex (storeAndLink w h l) ∧ Links w [h] l (storeAndLink w h l) := by
  induction l generalizing w S with
  | nil => exact ⟨v, Links.nil w [h]⟩
  | cons p l ih =>
    obtain ⟨wd, d⟩ := p
    obtain ⟨hd, hsv, hin⟩ := hl _ List.mem_cons_self
    have L := storeLink v hS hd
    have v1 := v.link hS hd hsv hin L
    have k := Linked.links hS L
    have hS1 : (link (storeWatch w wd d) wd h).searches h = some { S with wds := insertNew wd S.wds } := by rw [L.searches, upd_self]
    obtain ⟨a, b⟩ := ih v1 hS1 (fun p hp => by
      have := hl p (List.mem_cons_of_mem _ hp)
      rw [L.wdOf]; exact this)
    exact ⟨a, k.wds_trans b⟩

theorem storeWatch_again {pre ex w} (v : SInv pre ex w) {wd d hs} (hw : w.watches wd = some (d, hs)) : storeWatch w wd d = w := by
  obtain ⟨s, inst⟩ := d
  cases inst with
  | none =>
    have := v.id0 _ _ _ hw
    simp [storeWatch, hw, this]
  | some i =>
    obtain ⟨⟨c, hi1⟩, m, ch, hi2, hm⟩ := v.id1 _ _ _ _ hw
    have hsame : updD w.ids ⟨s, none⟩ (some (m, ch)) = w.ids := by
      funext d'
      by_cases h : d' = ⟨s, none⟩
      · subst h; rw [updD_self, hi2]
      · rw [updD_ne _ _ h]
    simp [storeWatch, hw, hi1, hi2, insertNew_of_mem hm, hsame]

theorem linkAll_links {pre ex w} (v : SInv pre ex w) {wd d l0} (hw : w.watches wd = some (d, l0)) (hs : List Nat)
    (hl : ∀ h ∈ hs, ∃ S, w.searches h = some S ∧ d.svc = S.svc ∧ (S.inst = none ∨ d.inst = S.inst)) :
    SInv pre ex (linkAll w wd hs) ∧ Links w hs [(wd, d)] (linkAll w wd hs) := by
  induction hs generalizing w l0 with
  | nil => exact ⟨v, Links.nil' w _⟩
  | cons h hs ih =>
    obtain ⟨S, hS, hsv, hin⟩ := hl _ List.mem_cons_self
    have hd := v.wk _ _ _ hw
    have L := storeLink v hS hd
    rw [storeWatch_again v hw] at L
    have v1 := v.link hS hd hsv hin L
    have k := Linked.links hS L
    obtain ⟨hs0, hw1, _⟩ := L.watches
    have hw' : (link w wd h).watches wd = some (d, insertNew h hs0) := by rw [hw1, upd_self]
    obtain ⟨a, b⟩ := ih v1 hw' (fun h' hh => by
      obtain ⟨S', e, x, y⟩ := hl h' (List.mem_cons_of_mem _ hh)
      obtain ⟨S2, e2, b1, b2, _⟩ := k.forth _ _ e
      exact ⟨S2, e2, x.trans b1.symm, by rw [b2]; exact y⟩)
    exact ⟨a, k.hs_trans b⟩

/-! ### The results of a crawl -/

/-- What a crawl of service `s` says about the present. -/
structure Found (pre : List Ev) (s : Nat) (wds : List (Nat × Dir)) (found : List (Nat × Q)) (w : World) : Prop where
  dir : ∀ p ∈ wds, w.wdOf p.2 = some p.1 ∧ p.2.svc = s
  hit : ∀ i q, (i, q) ∈ found → ∃ wd, (wd, (⟨s, some i⟩ : Dir)) ∈ wds ∧ (lastOf (pre ++ w.queue) wd q = none → w.file s i q = true)
  miss : ∀ wd i q, (wd, (⟨s, some i⟩ : Dir)) ∈ wds → (i, q) ∉ found → lastOf (pre ++ w.queue) wd q = none → w.file s i q = false

theorem CrawlOk.toFound {pre w d c} (o : CrawlOk pre w d c) : Found pre d.svc c.wds c.found c.w := by
  refine ⟨fun p hp => ⟨(o.wds p hp).2.2, (o.wds p hp).1⟩, ?_, ?_⟩
  · intro i q h
    obtain ⟨wd, mid, a, _, b, e, f⟩ := o.found i q h
    refine ⟨wd, a, fun hn => ?_⟩
    obtain ⟨new, hq, hf, _⟩ := b.grow.queue
    rw [hq, ← List.append_assoc, lastOf_none_append] at hn
    rw [hf _ _ _ _ e hn.2]; exact f
  · intro wd i q h h' hn
    obtain ⟨mid, _, b, e, f⟩ := o.missed wd i q h h'
    obtain ⟨new, hq, hf, _⟩ := b.grow.queue
    rw [hq, ← List.append_assoc, lastOf_none_append] at hn
    rw [hf _ _ _ _ e hn.2]; exact f

theorem merged_S {pre ex w1 w2 hs wds s found} (K : Links w1 hs wds w2) (v2 : SInv pre ex w2)
    (F : Found pre s wds found w1) (hsome : ∃ h ∈ hs, ∃ S, w1.searches h = some S) : SInv pre ex (merge w2 s found) := by
  refine v2.known (merge_only _ _ _) fun q s' i hm => ?_
  rw [mem_merge] at hm
  rcases hm with ⟨rfl, hm⟩ | hm
  · obtain ⟨wd, a, _⟩ := F.hit i q hm
    obtain ⟨h, hh, S, hS⟩ := hsome
    obtain ⟨S', e, _, _, _, _, _, hl⟩ := K.forth h S hS
    obtain ⟨l, x, _⟩ := v2.linked e (hl hh _ a) (by rw [K.wdOf]; exact (F.dir _ a).1)
    exact ⟨wd, l, x⟩
  · exact v2.kw _ _ _ hm

theorem merged_C {pre ex imp w1 w2 hs wds s found} (v1 : SInv pre ex w1) (c1 : CInv pre ex imp w1) (K : Links w1 hs wds w2)
    (F : Found pre s wds found w1) : CInv pre ex imp (merge w2 s found) := by
  have o := merge_only w2 s found
  have hq : (merge w2 s found).queue = w1.queue := o.queue.trans K.queue
  have hwd : (merge w2 s found).wdOf = w1.wdOf := o.wdOf.trans K.wdOf
  have hfile : (merge w2 s found).file = w1.file := o.file.trans K.file
  refine ⟨?_, ?_, ?_⟩
  · intro s' i wd q b h1 h2
    rw [hwd] at h1; rw [hq] at h2; rw [hfile]
    exact c1.truth _ _ _ _ _ h1 h2
  · intro wd s' i l q hw hn
    rw [hq] at hn
    rw [hfile, mem_merge, K.known]
    rw [o.watches] at hw
    have hF : s' = s → (i, q) ∈ found → w1.file s' i q = true := by
      rintro rfl hf
      obtain ⟨wd', a, b⟩ := F.hit i q hf
      refine b ?_
      have h1 := (F.dir _ a).1
      have h2 : w1.wdOf ⟨s', some i⟩ = some wd := by
        rcases K.watches _ _ _ hw with ⟨l0, e⟩ | e
        · exact v1.wk _ _ _ e
        · exact (F.dir _ e).1
      rw [h2] at h1; injection h1 with h1; dsimp only at h1; rw [← h1]; exact hn
    by_cases hold : ∃ wd' l0, w1.watches wd' = some (⟨s', some i⟩, l0)
    · obtain ⟨wd', l0, e⟩ := hold
      have h2 : w1.wdOf ⟨s', some i⟩ = some wd := by
        rcases K.watches _ _ _ hw with ⟨l0, e⟩ | e
        · exact v1.wk _ _ _ e
        · exact (F.dir _ e).1
      have h3 := v1.wk _ _ _ e
      rw [h2] at h3; injection h3 with h3; subst h3
      have := c1.p2 _ _ _ _ _ e hn
      constructor
      · rintro (⟨a, b⟩ | h)
        · exact hF a b
        · exact this.mp h
      · exact fun h => .inr (this.mpr h)
    · have hk : i ∉ w1.known q s' := fun h => hold (v1.kw _ _ _ h)
      have hmem : (wd, (⟨s', some i⟩ : Dir)) ∈ wds := by
        rcases K.watches _ _ _ hw with ⟨l0, e⟩ | e
        · exact absurd ⟨wd, l0, e⟩ hold
        · exact e
      constructor
      · rintro (⟨a, b⟩ | h)
        · exact hF a b
        · exact absurd h hk
      · intro hf
        by_cases hs : s' = s
        · subst hs
          by_cases hfo : (i, q) ∈ found
          · exact .inl ⟨rfl, hfo⟩
          · rw [F.miss _ _ _ hmem hfo hn] at hf; cases hf
        · exact absurd (F.dir _ hmem).2 hs
  · intro h S' i hS' hex ho hi
    rw [o.searches] at hS'
    rw [o.obsolete, K.obsolete] at ho
    obtain ⟨S, hS, e1, e2, e3, e4, e5⟩ := K.back _ _ hS'
    have mono : Pend pre w1 S i → Pend pre (merge w2 s found) S' i := by
      rintro (⟨wd, a, b, c⟩ | ⟨a, wd, b, c⟩)
      · exact .inl ⟨wd, e5 _ a, by rw [hwd, e1]; exact b, by rw [hq, e3]; exact c⟩
      · exact .inr ⟨e2.trans a, wd, by rw [hwd, e1]; exact b, by rw [hq]; exact c⟩
    rw [mem_merge, K.known, e1, e3, e4]
    by_cases hnew : S.svc = s ∧ (i, S.q) ∈ found ∧ i ∉ w1.known S.q S.svc
    · obtain ⟨hs, hf, hk⟩ := hnew
      refine .inr (.inr (mono ?_))
      obtain ⟨wd, a, b⟩ := F.hit i S.q hf
      have hwi := (F.dir _ a).1
      rw [← hs] at hwi b
      by_cases hlk : ∃ x ∈ S.wds, w1.wdOf ⟨S.svc, some i⟩ = some x
      · obtain ⟨x, hx, hx'⟩ := hlk
        have hx2 : w1.wdOf ⟨S.svc, some i⟩ = some wd := hwi
        rw [hx2] at hx'; injection hx' with hx'; subst hx'
        refine .inl ⟨wd, hx, hx2, fun hn => hk ?_⟩
        obtain ⟨l, hl, _⟩ := v1.linked hS hx hx2
        exact (c1.p2 _ _ _ _ _ hl hn).mpr (b hn)
      · have hany : S.inst = none := by
          rw [e2] at hi
          rcases hi with hi | hi
          · exact hi
          · obtain ⟨x, y, z⟩ := v1.mainL _ _ hS hex
            rw [hi] at z
            exact absurd ⟨x, y, z⟩ hlk
        rcases v1.dirL _ _ hS hex hany i (v1.k.wdir _ _ _ hwi) with h | ⟨x, y, z⟩
        · exact absurd h hlk
        · exact .inr ⟨hany, x, y, z⟩
    · have : ((S.svc = s ∧ (i, S.q) ∈ found) ∨ i ∈ w1.known S.q S.svc) ↔ i ∈ w1.known S.q S.svc := by
        constructor
        · rintro (⟨a, b⟩ | h)
          · exact Classical.byContradiction fun hk => hnew ⟨a, b, hk⟩
          · exact h
        · exact .inr
      rw [this]
      exact (c1.r _ _ _ hS hex ho (e2 ▸ hi)).imp id (Or.imp id mono)

end Verif.Discovery
