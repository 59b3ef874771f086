/- Whole operations. -/
import Verif.Proofs.DiscoveryEvents
import Verif.Spec.Discovery

namespace Verif.Discovery

/-! ### TransferObsoleteSearchRequests -/

theorem dropWatches_ok {pre imp} {h : Nat} (l : List Nat) {w S} (hS : w.searches h = some S) (hl : ∀ x ∈ l, x ∈ S.wds) (hnd : l.Nodup)
    (v : SInv pre (some h) w) :
    SInv pre (some h) (dropWatches w h l) ∧ (CInv pre (some h) imp w → CInv pre (some h) imp (dropWatches w h l)) ∧
    (∃ S', (dropWatches w h l).searches h = some S' ∧ ∀ x ∈ S'.wds, x ∈ S.wds ∧ x ∉ l) ∧
    (∀ h', h' ≠ h → (dropWatches w h l).searches h' = w.searches h') ∧
    (dropWatches w h l).obsolete = w.obsolete ∧ (dropWatches w h l).nextH = w.nextH ∧ (dropWatches w h l).log = w.log ∧
    (dropWatches w h l).batch = w.batch ∧ (dropWatches w h l).queue = w.queue ∧ (dropWatches w h l).file = w.file := by
  induction l generalizing w S with
  | nil => exact ⟨v, id, ⟨S, hS, fun x hx => ⟨hx, by simp⟩⟩, fun _ _ => rfl, rfl, rfl, rfl, rfl, rfl, rfl⟩
  | cons x l ih =>
    obtain ⟨d, hs, hw, hh, D⟩ := dropWatch_effect v hS (hl x List.mem_cons_self)
    have v1 := v.dropped hS hw D
    have hS1 : (dropWatch w h x).searches h = some { S with wds := S.wds.filter (· ≠ x) } := by rw [D.searches, upd_self]
    rw [List.nodup_cons] at hnd
    obtain ⟨a, b, ⟨S', c1, c2⟩, d1, d2, d3, d4, d5, d6, d7⟩ := ih hS1 (fun y hy => by
      refine mem_without.mpr ⟨hl y (List.mem_cons_of_mem _ hy), ?_⟩
      rintro rfl; exact hnd.1 hy) hnd.2 v1
    refine ⟨a, fun c => b (c.dropped v hS hw D), ⟨S', c1, fun y hy => ?_⟩, ?_, d2.trans D.obsolete, d3.trans D.nextH, d4.trans D.log,
      d5.trans D.batch, d6.trans D.queue, d7.trans D.file⟩
    · obtain ⟨e1, e2⟩ := c2 y hy
      rw [mem_without] at e1
      exact ⟨e1.1, by simp [e1.2, e2]⟩
    · intro h' hne
      exact (d1 h' hne).trans (by rw [D.searches, upd_ne _ _ hne])

theorem SInv.erase {pre w} {h : Nat} {S} (v : SInv pre (some h) w) (hS : w.searches h = some S) (he : S.wds = []) :
    SInv pre none { w with searches := upd w.searches h none } := by
  have scase : ∀ h' S', upd w.searches h none h' = some S' → h' ≠ h ∧ w.searches h' = some S' := by
    intro h' S' e
    by_cases c : h' = h
    · subst c; rw [upd_self] at e; cases e
    · rw [upd_ne _ _ c] at e; exact ⟨c, e⟩
  have hex : ∀ h', h' ≠ h → (some h) ≠ some h' := fun h' c e => c (by injection e with e; exact e.symm)
  refine ⟨v.k.only rfl rfl rfl rfl rfl, v.ab, v.wk, v.ne, ?_, ?_, ?_, ?_, ?_, v.id0, v.id1, v.id2, v.id3, v.kw, ?_, ?_⟩
  · intro wd d hs h' e hm
    obtain ⟨S', a, b⟩ := v.ls _ _ _ _ e hm
    have : h' ≠ h := by
      rintro rfl
      rw [hS] at a; injection a with a; subst a
      rw [he] at b; simp at b
    exact ⟨S', by dsimp only; rw [upd_ne _ _ this]; exact a, b⟩
  · exact fun h' S' wd e hm => v.sl _ _ _ (scase _ _ e).2 hm
  · exact fun h' S' e => v.sh _ _ (scase _ _ e).2
  · exact fun h' S' e _ => v.mainL _ _ (scase _ _ e).2 (hex _ (scase _ _ e).1)
  · exact fun h' S' e _ => v.dirL _ _ (scase _ _ e).2 (hex _ (scase _ _ e).1)
  · exact fun h' S' i e => v.pv _ _ i (scase _ _ e).2
  · exact fun h' S' e => v.nd _ _ (scase _ _ e).2

theorem SInv.except {pre w} (v : SInv pre none w) (ex : Option Nat) : SInv pre ex w :=
  ⟨v.k, v.ab, v.wk, v.ne, v.ls, v.sl, v.sh, fun h S e _ => v.mainL h S e (by simp), fun h S e _ => v.dirL h S e (by simp), v.id0, v.id1, v.id2,
    v.id3, v.kw, v.pv, v.nd⟩

theorem CInv.except {pre imp w} (c : CInv pre none imp w) (ex : Option Nat) : CInv pre ex imp w :=
  ⟨c.truth, c.p2, fun h S i e _ => c.r h S i e (by simp)⟩

/-- The parts of a world that taking a search down does not touch. -/
structure Same (w w' : World) : Prop where
  nextH : w'.nextH = w.nextH
  log : w'.log = w.log
  batch : w'.batch = w.batch
  queue : w'.queue = w.queue
  file : w'.file = w.file

theorem transferOne_ok {pre imp} (h : Nat) {w} (v : SInv pre none w) :
    SInv pre none (transferOne w h) ∧ (CInv pre none imp w → CInv pre none imp (transferOne w h)) ∧
    (∀ h', (transferOne w h).searches h' = if h' = h then none else w.searches h') ∧ (transferOne w h).obsolete = w.obsolete ∧
    Same w (transferOne w h) := by
  unfold transferOne
  cases hS : w.searches h with
  | none =>
    refine ⟨v, id, fun h' => ?_, rfl, rfl, rfl, rfl, rfl, rfl⟩
    dsimp only
    split
    · next e => rw [e]; exact hS
    · rfl
  | some S =>
    dsimp only
    obtain ⟨a, b, ⟨S', c1, c2⟩, d1, d2, d3, d4, d5, d6, d7⟩ := dropWatches_ok (imp := imp) S.wds hS (fun _ h => h) (v.nd _ _ hS) (v.except (some h))
    have he : S'.wds = [] := by
      cases hc : S'.wds with
      | nil => rfl
      | cons x l =>
        have := c2 x (by rw [hc]; exact List.mem_cons_self)
        exact absurd this.1 this.2
    refine ⟨a.erase c1 he, fun c => ?_, ?_, d2, d3, d4, d5, d6, d7⟩
    · have cc := b (c.except _)
      refine ⟨cc.truth, cc.p2, fun h' S2 i e _ ho hi => ?_⟩
      have e' : upd (dropWatches w h S.wds).searches h none h' = some S2 := e
      have hne : h' ≠ h := by rintro rfl; rw [upd_self] at e'; cases e'
      rw [upd_ne _ _ hne] at e'
      exact cc.r h' S2 i e' (fun x => hne (by injection x with x; exact x.symm)) ho hi
    · intro h'
      by_cases hc : h' = h
      · subst hc; simp
      · rw [if_neg hc]
        exact (upd_ne _ _ hc).trans (d1 h' hc)

theorem transferAll_ok {pre imp} (l : List Nat) {w} (v : SInv pre none w) :
    SInv pre none (transferAll w l) ∧ (CInv pre none imp w → CInv pre none imp (transferAll w l)) ∧
    (∀ h', (transferAll w l).searches h' = if h' ∈ l then none else w.searches h') ∧ (transferAll w l).obsolete = w.obsolete ∧
    Same w (transferAll w l) := by
  induction l generalizing w with
  | nil => exact ⟨v, id, fun _ => by simp [transferAll], rfl, rfl, rfl, rfl, rfl, rfl⟩
  | cons h l ih =>
    obtain ⟨a, b, c, d, e1, e2, e3, e4, e5⟩ := transferOne_ok (imp := imp) h v
    obtain ⟨a', b', c', d', f1, f2, f3, f4, f5⟩ := ih a
    refine ⟨a', fun x => b' (b x), fun h' => ?_, d'.trans d, f1.trans e1, f2.trans e2, f3.trans e3, f4.trans e4, f5.trans e5⟩
    show (transferAll (transferOne w h) l).searches h' = _
    rw [c', c]
    by_cases h1 : h' ∈ l
    · simp [h1]
    · by_cases h2 : h' = h
      · simp [h2]
      · simp [h1, h2]

theorem transfer_ok {pre imp w} (v : SInv pre none w) :
    SInv pre none (transfer w) ∧ (CInv pre none imp w → CInv pre none imp (transfer w)) ∧
    (∀ h', (transfer w).searches h' = if h' ∈ w.obsolete then none else w.searches h') ∧ (transfer w).obsolete = [] ∧
    Same w (transfer w) := by
  obtain ⟨a, b, c, d, e1, e2, e3, e4, e5⟩ := transferAll_ok (imp := imp) w.obsolete v
  refine ⟨a.frame rfl rfl rfl rfl rfl rfl rfl rfl rfl rfl rfl, fun x => ?_, c, rfl, e1, e2, e3, e4, e5⟩
  have y := b x
  refine ⟨y.truth, y.p2, fun h S i hS hex _ hi => ?_⟩
  refine y.r h S i hS hex ?_ hi
  intro ho
  rw [d] at ho
  have hS' : (transferAll w w.obsolete).searches h = some S := hS
  rw [c h, if_pos ho] at hS'; cases hS'

/-! ### HandleEvents -/

theorem lastOf_cons (e : Ev) (l : List Ev) (wd : Nat) (q : Q) : lastOf (e :: l) wd q = (lastOf l wd q).or (fileEv e wd q) := rfl

theorem Calm.cons {e : Ev} {l : List Ev} (h : Calm (e :: l)) : Calm l :=
  fun a b wd q hl => h (e :: a) b wd q (by rw [hl]; rfl)

theorem fileEv_some {e : Ev} {wd : Nat} {q : Q} {b : Bool} : fileEv e wd q = some b ↔ e = ⟨wd, if b then .create q else .delete q⟩ := by
  obtain ⟨wd', k⟩ := e
  unfold fileEv
  cases k <;> cases b <;> by_cases h1 : wd' = wd <;> simp [h1]

/-- Handling all deletions first does not change the last word about a flag file. -/
theorem lastOf_sorted {l : List Ev} (h : Calm l) (wd : Nat) (q : Q) :
    lastOf (l.filter Ev.isDelete ++ l.filter (fun e => !e.isDelete)) wd q = lastOf l wd q := by
  induction l with
  | nil => rfl
  | cons e l ih =>
    have ih := ih h.cons
    rw [lastOf_append] at ih ⊢
    by_cases hd : e.isDelete = true
    · rw [List.filter_cons_of_pos hd, List.filter_cons_of_neg (by simp [hd])]
      rw [lastOf_cons, lastOf_cons, ← Option.or_assoc, ih]
    · rw [List.filter_cons_of_neg hd, List.filter_cons_of_pos (by simp [hd])]
      rw [lastOf_cons, lastOf_cons]
      cases hv : fileEv e wd q with
      | none => simpa using ih
      | some b =>
        have he := fileEv_some.mp hv
        cases b with
        | false => rw [he] at hd; exact absurd rfl hd
        | true =>
          -- no deletion after it
          have hn : lastOf (l.filter Ev.isDelete) wd q = none := by
            rw [lastOf_eq_none]
            intro x hx
            rw [List.mem_filter] at hx
            cases hxv : fileEv x wd q with
            | none => rfl
            | some b' =>
              have hxe := fileEv_some.mp hxv
              cases b' with
              | true => rw [hxe] at hx; exact absurd hx.2 (by simp [Ev.isDelete])
              | false =>
                exfalso
                refine h [] l wd q (by rw [he]; rfl) ?_
                rw [hxe] at hx; exact hx.1
          rw [hn] at ih ⊢
          simp only [Option.or_none] at ih ⊢
          rw [ih]

theorem CInv.reorder {pre pre' ex imp w} (c : CInv pre ex imp w) (hm : ∀ e, e ∈ pre' ↔ e ∈ pre)
    (hl : ∀ wd q, lastOf pre' wd q = lastOf pre wd q) : CInv pre' ex imp w := by
  have hl' : ∀ wd q, lastOf (pre' ++ w.queue) wd q = lastOf (pre ++ w.queue) wd q := by
    intro wd q; rw [lastOf_append, lastOf_append, hl]
  refine ⟨?_, ?_, ?_⟩
  · intro s i wd q b h1 h2
    rw [hl'] at h2; exact c.truth _ _ _ _ _ h1 h2
  · intro wd s i hs q h1 h2
    rw [hl'] at h2; exact c.p2 _ _ _ _ _ h1 h2
  · intro h S i e hex ho hi
    refine (c.r h S i e hex ho hi).imp id (Or.imp id ?_)
    rintro (⟨x, y, z, u⟩ | ⟨x, y, z, u⟩)
    · exact .inl ⟨x, y, z, by rw [hl']; exact u⟩
    · refine .inr ⟨x, y, z, ?_⟩
      rw [List.mem_append] at u ⊢
      exact u.imp (hm _).mpr id

theorem mem_once {l : List Nat} {h : Nat} : h ∈ once l ↔ h ∈ l := by
  induction l with
  | nil => exact Iff.rfl
  | cons x l ih =>
    unfold once
    rw [List.mem_cons, List.mem_cons, mem_without, ih]
    by_cases c : h = x
    · simp [c]
    · simp [c]

theorem mem_arrange {pref l : List Nat} {h : Nat} : h ∈ arrange pref l ↔ h ∈ l := by
  unfold arrange
  rw [mem_once]
  simp only [List.mem_append, List.mem_filter, decide_eq_true_eq]
  exact ⟨fun | .inl h => h.2 | .inr h => h, .inr⟩

theorem deletions_batch (evs : List Ev) (w : World) (imp : List Nat) : (deletions evs w imp).1.batch = w.batch := by
  induction evs generalizing w imp with
  | nil => rfl
  | cons e evs ih =>
    unfold deletions
    cases w.watches e.wd with
    | none => exact ih _ _
    | some p =>
      obtain ⟨⟨s, inst⟩, hs⟩ := p
      cases e.kind <;> cases inst <;> first | exact ih _ _ | rfl

end Verif.Discovery
