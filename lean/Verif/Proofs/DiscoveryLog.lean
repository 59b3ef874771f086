/- What handlers are told: invariants of the history, for all runs. -/
import Verif.Proofs.DiscoveryStart
import Verif.Spec.Discovery

namespace Verif.Discovery

abbrev Core := Nat → Option (Nat × Option Nat × Q × List Nat)

def Search.core (S : Search) : Nat × Option Nat × Q × List Nat := (S.svc, S.inst, S.q, S.prev)

def World.core (w : World) : Core := fun h => (w.searches h).map Search.core

/-- Neither the history nor what searches are about or were told changes. -/
structure Quiet (w w' : World) : Prop where
  core : w'.core = w.core
  log : w'.log = w.log
  nextH : w'.nextH = w.nextH
  obsolete : w'.obsolete = w.obsolete
  batch : w'.batch = w.batch

theorem Quiet.refl (w : World) : Quiet w w := ⟨rfl, rfl, rfl, rfl, rfl⟩

theorem Quiet.trans {a b c : World} (h : Quiet a b) (h' : Quiet b c) : Quiet a c :=
  ⟨h'.core.trans h.core, h'.log.trans h.log, h'.nextH.trans h.nextH, h'.obsolete.trans h.obsolete, h'.batch.trans h.batch⟩

theorem core_upd {w : World} {h : Nat} {S S' : Search} (hS : w.searches h = some S) (he : S'.core = S.core) :
    (fun h' => (upd w.searches h (some S') h').map Search.core) = w.core := by
  funext h'
  unfold World.core
  by_cases c : h' = h
  · subst c; rw [upd_self, hS]; simp [he]
  · rw [upd_ne _ _ c]

theorem Grow.quiet {w w' : World} (g : Grow w w') : Quiet w w' :=
  ⟨by unfold World.core; rw [g.searches], g.log, g.nextH, g.obsolete, g.batch⟩

theorem merge_quiet (w : World) (s : Nat) (l : List (Nat × Q)) : Quiet w (merge w s l) := by
  have o := merge_only w s l
  exact ⟨by unfold World.core; rw [o.searches], o.log, o.nextH, o.obsolete, o.batch⟩

theorem storeWatch_quiet (w : World) (wd : Nat) (d : Dir) : Quiet w (storeWatch w wd d) := by
  unfold storeWatch
  dsimp only
  split <;> split <;> (try split) <;> (try split) <;> exact ⟨rfl, rfl, rfl, rfl, rfl⟩

theorem link_quiet (w : World) (wd h : Nat) : Quiet w (link w wd h) := by
  unfold link
  split
  · next d hs s _ hS => exact ⟨core_upd hS rfl, rfl, rfl, rfl, rfl⟩
  · exact ⟨rfl, rfl, rfl, rfl, rfl⟩

theorem storeAndLink_quiet (w : World) (h : Nat) (l : List (Nat × Dir)) : Quiet w (storeAndLink w h l) := by
  induction l generalizing w with
  | nil => exact .refl w
  | cons p l ih => obtain ⟨wd, d⟩ := p; exact ((storeWatch_quiet w wd d).trans (link_quiet _ wd h)).trans (ih _)

theorem linkAll_quiet (w : World) (wd : Nat) (l : List Nat) : Quiet w (linkAll w wd l) := by
  induction l generalizing w with
  | nil => exact .refl w
  | cons h l ih => exact (link_quiet w wd h).trans (ih _)

theorem eraseWatch_quiet (w : World) (wd : Nat) (d : Dir) : Quiet w (eraseWatch w wd d) := by
  obtain ⟨s, inst⟩ := d
  cases inst with
  | none =>
    unfold eraseWatch
    dsimp only
    split <;> exact ⟨rfl, rfl, rfl, rfl, rfl⟩
  | some i =>
    unfold eraseWatch forget
    dsimp only
    split <;> exact ⟨rfl, rfl, rfl, rfl, rfl⟩

theorem dropWatch_quiet (w : World) (h wd : Nat) : Quiet w (dropWatch w h wd) := by
  unfold dropWatch
  split
  · next d hs s _ hS =>
    split
    · dsimp only
      split
      · exact Quiet.trans (b := { w with watches := upd w.watches wd (some (d, hs.filter (· ≠ h))), searches := upd w.searches h (some { s with wds := s.wds.filter (· ≠ wd) }) }) ⟨core_upd hS rfl, rfl, rfl, rfl, rfl⟩ (eraseWatch_quiet _ _ _)
      · exact ⟨core_upd hS rfl, rfl, rfl, rfl, rfl⟩
    · exact ⟨rfl, rfl, rfl, rfl, rfl⟩
  · exact .refl w

theorem dropWatches_quiet (w : World) (h : Nat) (l : List Nat) : Quiet w (dropWatches w h l) := by
  induction l generalizing w with
  | nil => exact .refl w
  | cons x l ih => exact (dropWatch_quiet w h x).trans (ih _)

theorem crawl_quiet (w : World) (env : List (List Act)) (d : Dir) : Quiet w (crawl w env d).w :=
  (crawl_ok [] w env d).fine.grow.quiet

theorem dirCreated_quiet (w : World) (env : List (List Act)) (d : Dir) (hs : List Nat) (i : Nat) : Quiet w (dirCreated w env d hs i) := by
  unfold dirCreated
  dsimp only
  have c := crawl_quiet w env ⟨d.svc, some i⟩
  split
  · exact ((c.trans (storeWatch_quiet _ _ _)).trans (linkAll_quiet _ _ _)).trans (merge_quiet _ _ _)
  · exact c.trans ⟨rfl, rfl, rfl, rfl, rfl⟩

theorem deletions_quiet (evs : List Ev) (w : World) (imp : List Nat) : Quiet w (deletions evs w imp).1 := by
  induction evs generalizing w imp with
  | nil => exact .refl w
  | cons e evs ih =>
    unfold deletions
    split
    · exact ih _ _
    · split
      · exact Quiet.trans (b := forget w _ _ _) ⟨rfl, rfl, rfl, rfl, rfl⟩ (ih _ _)
      · exact ⟨rfl, rfl, rfl, rfl, rfl⟩
      · exact ih _ _

theorem creations_quiet (evs : List Ev) (w : World) (env : List (List (List Act))) (imp : List Nat) : Quiet w (creations evs w env imp).1 := by
  induction evs generalizing w env imp with
  | nil => exact .refl w
  | cons e evs ih =>
    unfold creations
    split
    · exact ih _ _ _
    · split
      · exact Quiet.trans (b := learn w _ _ _) ⟨rfl, rfl, rfl, rfl, rfl⟩ (ih _ _ _)
      · exact (dirCreated_quiet _ _ _ _ _).trans (ih _ _ _)
      · exact ih _ _ _

/-! ### The invariant -/

/-- Every call in the history says something new, and to a search that has been started and not been stopped. Handles are not reused. -/
structure GoodLog (log : List Note) : Prop where
  call : ∀ a h l b, log = a ++ .called h l :: b →
    ¬ (∀ x, x ∈ l ↔ x ∈ lastResult b h) ∧ .stopped h ∉ b ∧ ∃ s i q, .started h s i q ∈ b
  fresh : ∀ a h s i q b, log = a ++ .started h s i q :: b → ∀ n ∈ b, n.search ≠ h

structure LInv (c : Core) (log : List Note) (n : Nat) (obs : List Nat) : Prop where
  sub : ∀ h s i q p, c h = some (s, i, q, p) → .started h s i q ∈ log ∧ lastResult log h = p
  new : ∀ x ∈ log, x.search < n
  old : ∀ h ∈ obs, h < n
  stop1 : ∀ h, .stopped h ∈ log → h ∈ obs ∨ c h = none
  stop2 : ∀ h, h < n → h ∈ obs ∨ c h = none → .stopped h ∈ log
  good : GoodLog log

def World.LInv (w : World) : Prop := Discovery.LInv w.core w.log w.nextH w.obsolete

theorem World.LInv.quiet {w w'} (v : World.LInv w) (q : Quiet w w') : World.LInv w' := by
  unfold World.LInv at *
  rw [q.core, q.log, q.nextH, q.obsolete]; exact v

theorem lastResult_none {log : List Note} {h : Nat} (hn : ∀ x ∈ log, x.search ≠ h) : lastResult log h = [] := by
  induction log with
  | nil => rfl
  | cons n log ih =>
    have := ih (fun l hm => hn l (List.mem_cons_of_mem _ hm))
    cases n with
    | called h' l =>
      unfold lastResult
      rw [if_neg (show ¬ h' = h from hn _ List.mem_cons_self)]
      exact this
    | stopped _ => exact this
    | started _ _ _ _ => exact this

theorem GoodLog.stopped {log h} (g : GoodLog log) : GoodLog (.stopped h :: log) := by
  constructor
  · intro a h' l b e
    cases a with
    | nil => cases e
    | cons x a => injection e with _ e; exact g.call a h' l b e
  · intro a h' s i q b e
    cases a with
    | nil => cases e
    | cons x a => injection e with _ e; exact g.fresh a h' s i q b e

theorem GoodLog.started {log h s i q} (g : GoodLog log) (hn : ∀ x ∈ log, x.search ≠ h) : GoodLog (.started h s i q :: log) := by
  constructor
  · intro a h' l b e
    cases a with
    | nil => cases e
    | cons x a => injection e with _ e; exact g.call a h' l b e
  · intro a h' s' i' q' b e
    cases a with
    | nil => injection e with e1 e2; injection e1 with e1; subst e1; subst e2; exact hn
    | cons x a => injection e with _ e; exact g.fresh a h' s' i' q' b e

theorem GoodLog.called {log h l} (g : GoodLog log) (h1 : ¬ (∀ x, x ∈ l ↔ x ∈ lastResult log h)) (h2 : .stopped h ∉ log)
    (h3 : ∃ s i q, .started h s i q ∈ log) : GoodLog (.called h l :: log) := by
  constructor
  · intro a h' l' b e
    cases a with
    | nil => injection e with e1 e2; injection e1 with e1 e3; subst e1; subst e2; subst e3; exact ⟨h1, h2, h3⟩
    | cons x a => injection e with _ e; exact g.call a h' l' b e
  · intro a h' s i q b e
    cases a with
    | nil => cases e
    | cons x a => injection e with _ e; exact g.fresh a h' s i q b e

theorem GoodLog.unique {log h s i q s' i' q'} (g : GoodLog log) (h1 : .started h s i q ∈ log) (h2 : .started h s' i' q' ∈ log) :
    s = s' ∧ i = i' ∧ q = q' := by
  induction log with
  | nil => simp at h1
  | cons n log ih =>
    have g' : GoodLog log := ⟨fun a h l b e => g.call (n :: a) h l b (by rw [e]; rfl), fun a h s i q b e => g.fresh (n :: a) h s i q b (by rw [e]; rfl)⟩
    rcases List.mem_cons.mp h1 with a | a <;> rcases List.mem_cons.mp h2 with b | b
    · rw [← a] at b; injection b with _ b1 b2 b3; exact ⟨b1.symm, b2.symm, b3.symm⟩
    · exact absurd rfl (g.fresh [] h s i q log (by rw [a]; rfl) _ b)
    · exact absurd rfl (g.fresh [] h s' i' q' log (by rw [b]; rfl) _ a)
    · exact ih g' a b

theorem World.LInv.stopFind {w} (v : World.LInv w) (h : Nat) : World.LInv (stopFind w h) := by
  unfold Discovery.stopFind
  split
  · next hlt =>
    refine ⟨?_, ?_, ?_, ?_, ?_, v.good.stopped⟩
    · intro h' s i q p e
      obtain ⟨a, b⟩ := v.sub h' s i q p e
      exact ⟨List.mem_cons_of_mem _ a, b⟩
    · intro x hm
      rcases List.mem_cons.mp hm with rfl | hm
      · exact hlt
      · exact v.new _ hm
    · intro h' hm
      rcases mem_insertNew.mp hm with rfl | hm
      · exact hlt
      · exact v.old _ hm
    · intro h' hm
      rcases List.mem_cons.mp hm with hm | hm
      · injection hm with hm; subst hm; exact .inl (mem_insertNew.mpr (.inl rfl))
      · exact (v.stop1 _ hm).imp (fun x => mem_insertNew.mpr (.inr x)) id
    · intro h' hl hm
      rcases hm with hm | hm
      · rcases mem_insertNew.mp hm with rfl | hm
        · exact List.mem_cons_self
        · exact List.mem_cons_of_mem _ (v.stop2 _ hl (.inl hm))
      · exact List.mem_cons_of_mem _ (v.stop2 _ hl (.inr hm))
  · exact v

/-- A call of a handler, with the search already updated, before the handler does anything. -/
theorem LInv.call {w : World} {c : Core} (v : LInv c w.log w.nextH w.obsolete) {h s i q p l} (hc : c h = some (s, i, q, p))
    (hne : ¬ (∀ x, x ∈ l ↔ x ∈ p)) (ho : h ∉ w.obsolete) (hw : w.core = upd c h (some (s, i, q, l))) :
    World.LInv { w with log := .called h l :: w.log } := by
  show LInv w.core (.called h l :: w.log) w.nextH w.obsolete
  obtain ⟨s1, s2⟩ := v.sub _ _ _ _ _ hc
  have hlt : h < w.nextH := v.new _ s1
  rw [hw]
  have hcn : ∀ h', upd c h (some (s, i, q, l)) h' = none ↔ c h' = none := by
    intro h'
    by_cases e : h' = h
    · subst e; rw [upd_self, hc]; simp
    · rw [upd_ne _ _ e]
  refine ⟨?_, ?_, v.old, ?_, ?_, v.good.called (by rw [s2]; exact hne) ?_ ⟨_, _, _, s1⟩⟩
  · intro h' s' i' q' p' e
    unfold lastResult
    by_cases c' : h' = h
    · subst c'
      rw [upd_self] at e; injection e with e; injection e with e1 e; injection e with e2 e; injection e with e3 e
      subst e1; subst e2; subst e3; subst e
      rw [if_pos rfl]
      exact ⟨List.mem_cons_of_mem _ s1, rfl⟩
    · rw [upd_ne _ _ c'] at e
      rw [if_neg (fun x => c' x.symm)]
      obtain ⟨a, b⟩ := v.sub _ _ _ _ _ e
      exact ⟨List.mem_cons_of_mem _ a, b⟩
  · intro x hm
    rcases List.mem_cons.mp hm with rfl | hm
    · exact hlt
    · exact v.new _ hm
  · intro h' hm
    rcases List.mem_cons.mp hm with hm | hm
    · cases hm
    · rw [hcn]; exact v.stop1 _ hm
  · intro h' hl hm
    rw [hcn] at hm
    exact List.mem_cons_of_mem _ (v.stop2 _ hl hm)
  · intro hm
    rcases v.stop1 _ hm with x | x
    · exact ho x
    · rw [hc] at x; cases x

/-- A new search. -/
theorem LInv.add {c log n obs s i q} (v : LInv c log n obs) :
    LInv (upd c n (some (s, i, q, []))) (.started n s i q :: log) (n + 1) obs := by
  have hno : n ∉ obs := fun h => Nat.lt_irrefl _ (v.old _ h)
  have hfr : ∀ x ∈ log, x.search ≠ n := fun x hx => Nat.ne_of_lt (v.new x hx)
  refine ⟨?_, ?_, fun h hm => Nat.lt_succ_of_lt (v.old h hm), ?_, ?_, v.good.started hfr⟩
  · intro h' s' i' q' p' e
    by_cases hc : h' = n
    · subst hc
      rw [upd_self] at e; injection e with e; injection e with e1 e; injection e with e2 e; injection e with e3 e
      subst e1; subst e2; subst e3; subst e
      exact ⟨List.mem_cons_self, (lastResult_none hfr : lastResult log h' = [])⟩
    · rw [upd_ne _ _ hc] at e
      obtain ⟨a, b⟩ := v.sub _ _ _ _ _ e
      exact ⟨List.mem_cons_of_mem _ a, b⟩
  · intro x hm
    rcases List.mem_cons.mp hm with rfl | hm
    · exact Nat.lt_succ_self _
    · exact Nat.lt_succ_of_lt (v.new _ hm)
  · intro h' hm
    rcases List.mem_cons.mp hm with hm | hm
    · cases hm
    have hlt : h' < n := v.new _ hm
    rw [upd_ne _ _ (Nat.ne_of_lt hlt)]
    exact v.stop1 _ hm
  · intro h' hl hm
    by_cases hc : h' = n
    · subst hc
      rw [upd_self] at hm
      rcases hm with hm | hm
      · exact absurd hm hno
      · cases hm
    · rw [upd_ne _ _ hc] at hm
      exact List.mem_cons_of_mem _ (v.stop2 _ (by omega) hm)

/-! ### Deeds -/

/-- What holds between any two steps, except that about the content; `pre` are the events in the hands of the worker thread. -/
structure DInv (pre : List Ev) (w : World) : Prop where
  s : SInv pre none w
  l : World.LInv w

/-- What a step keeps. -/
structure Keeps (pre : List Ev) (w w' : World) : Prop where
  d : DInv pre w'
  c : ∀ imp, CInv pre none imp w → CInv pre none imp w'
  batch : w'.batch = w.batch

theorem Keeps.trans {pre a b c} (x : Keeps pre a b) (y : Keeps pre b c) : Keeps pre a c :=
  ⟨y.d, fun imp h => y.c imp (x.c imp h), y.batch.trans x.batch⟩

theorem DInv.stop {pre w} (v : DInv pre w) (h : Nat) : Keeps pre w (stopFind w h) :=
  have S := stopFind_stops w h
  ⟨⟨v.s.stops S, v.l.stopFind h⟩, fun _ c => c.stops S, S.batch⟩

theorem DInv.acts {pre w} (v : DInv pre w) (l : List Act) : Keeps pre w (acts w l) :=
  have f := acts_fine pre w l
  ⟨⟨v.s.fine f, v.l.quiet f.grow.quiet⟩, fun _ c => c.fine v.s f, f.grow.batch⟩

/-- A handle that is not used. -/
theorem DInv.unused {pre w} (v : DInv pre w) : Keeps pre w (stopFind { w with nextH := w.nextH + 1 } w.nextH) := by
  have S := stopFind_stops { w with nextH := w.nextH + 1 } w.nextH
  refine ⟨⟨v.s.count.stops S, ?_⟩, fun _ c => CInv.stops (w := { w with nextH := w.nextH + 1 }) ⟨c.truth, c.p2, c.r⟩ S, S.batch⟩
  have hn : w.core w.nextH = none := by
    unfold World.core
    cases e : w.searches w.nextH with
    | none => rfl
    | some S => exact absurd (v.s.sh _ _ e) (Nat.lt_irrefl _)
  unfold stopFind
  rw [if_pos (Nat.lt_succ_self _)]
  have L : World.LInv w := v.l
  refine ⟨?_, ?_, ?_, ?_, ?_, L.good.stopped⟩
  · intro h s i q p e
    obtain ⟨a, b⟩ := L.sub h s i q p e
    exact ⟨List.mem_cons_of_mem _ a, b⟩
  · intro x hm
    rcases List.mem_cons.mp hm with rfl | hm
    · exact Nat.lt_succ_self _
    · exact Nat.lt_succ_of_lt (L.new _ hm)
  · intro h hm
    rcases mem_insertNew.mp hm with rfl | hm
    · exact Nat.lt_succ_self _
    · exact Nat.lt_succ_of_lt (L.old _ hm)
  · intro h hm
    rcases List.mem_cons.mp hm with hm | hm
    · injection hm with hm; exact .inl (mem_insertNew.mpr (.inl hm))
    · exact (L.stop1 _ hm).imp (fun x => mem_insertNew.mpr (.inr x)) id
  · intro h hl hm
    by_cases c : h = w.nextH
    · rw [c]; exact List.mem_cons_self
    · have hl' : h < w.nextH + 1 := hl
      refine List.mem_cons_of_mem _ (L.stop2 _ (by omega) ?_)
      exact hm.imp (fun x => (mem_insertNew.mp x).resolve_left c) id

theorem DInv.act {pre w} (v : DInv pre w) (a : Act) : Keeps pre w (act w a) :=
  have f := act_fine pre w a
  ⟨⟨v.s.fine f, v.l.quiet f.grow.quiet⟩, fun _ c => c.fine v.s f, f.grow.batch⟩

theorem sharedWatch_some {w : World} {d : Dir} {wd : Nat} {ch : List Nat} (h : sharedWatch w d = some (wd, ch)) :
    w.ids d = some (some wd, ch) := by
  unfold sharedWatch at h
  split at h
  · next e => injection h with h; injection h with h1 h2; subst h1; subst h2; exact e
  · cases h

/-- Logging does not matter to the tables. -/
theorem stops_log (w : World) (log : List Note) : Stops w { w with log := log } :=
  ⟨rfl, rfl, rfl, rfl, rfl, rfl, rfl, rfl, rfl, rfl, rfl, rfl, fun _ h => h⟩

/-- StartFindService, including the entry of the call of the handler. -/
theorem DInv.begin {pre w} (v : DInv pre w) (s : Nat) (inst : Option Nat) (q : Q) (env : List (List Act)) :
    Keeps pre w (if (beginFind w s inst q env).2 = [] then (beginFind w s inst q env).1
      else { (beginFind w s inst q env).1 with log := .called w.nextH (beginFind w s inst q env).2 :: (beginFind w s inst q env).1.log }) := by
  have hn : w.searches w.nextH = none := by
    cases e : w.searches w.nextH with
    | none => rfl
    | some S => exact absurd (v.s.sh _ _ e) (Nat.lt_irrefl _)
  have hno : w.nextH ∉ w.obsolete := fun h => Nat.lt_irrefl _ (v.l.old _ h)
  have v1 : SInv pre none { w with nextH := w.nextH + 1, log := .started w.nextH s inst q :: w.log } := v.s.count.stops (stops_log _ _)
  have cc : ∀ imp, CInv pre none imp w → CInv pre none imp { w with nextH := w.nextH + 1, log := .started w.nextH s inst q :: w.log } :=
    fun _ c => ⟨c.truth, c.p2, c.r⟩
  have fin : ∀ (w3 : World) (found : List Nat), SInv pre none w3 → (∀ imp, CInv pre none imp w → CInv pre none imp w3) → w3.batch = w.batch →
      w3.core = upd w.core w.nextH (some (s, inst, q, found)) → w3.log = .started w.nextH s inst q :: w.log → w3.nextH = w.nextH + 1 →
      w3.obsolete = w.obsolete →
      Keeps pre w (if found = [] then w3 else { w3 with log := .called w.nextH found :: w3.log }) := by
    intro w3 found h1 h2 h3 h4 h5 h6 h7
    have a := LInv.add (s := s) (i := inst) (q := q) v.l
    by_cases c : found = []
    · rw [if_pos c]
      refine ⟨⟨h1, ?_⟩, h2, h3⟩
      unfold World.LInv
      rw [h4, h5, h6, h7, c]
      exact a
    · rw [if_neg c]
      refine ⟨⟨h1.stops (stops_log _ _), ?_⟩, fun imp x => (h2 imp x).stops (stops_log _ _), h3⟩
      refine LInv.call (s := s) (i := inst) (q := q) (p := []) (c := upd w.core w.nextH (some (s, inst, q, []))) ?_ (by rw [upd_self]) ?_ ?_ ?_
      · rw [h5, h6, h7]; exact a
      · intro h
        cases found with
        | nil => exact c rfl
        | cons x l => exact absurd ((h x).mp List.mem_cons_self) (by simp)
      · rw [h7]; exact hno
      · rw [h4]
        funext h'
        by_cases hc : h' = w.nextH
        · subst hc; rw [upd_self, upd_self]
        · rw [upd_ne _ _ hc, upd_ne _ _ hc, upd_ne _ _ hc]
  have core_new : ∀ (w1 w2 : World) (S : Search), Quiet { w1 with searches := upd w1.searches w.nextH (some S) } w2 → w1.core = w.core →
      w2.core = upd w.core w.nextH (some S.core) := by
    intro w1 w2 S Qt e
    rw [Qt.core, ← e]
    funext h'
    unfold World.core
    dsimp only
    by_cases hc : h' = w.nextH
    · subst hc; rw [upd_self, upd_self]; rfl
    · rw [upd_ne _ _ hc, upd_ne _ _ hc]
  have key : ∃ w3 found, beginFind w s inst q env = (w3, found) ∧ Keeps pre w (if found = [] then w3 else { w3 with log := .called w.nextH found :: w3.log }) := ?_
  · obtain ⟨w3, found, e, k⟩ := key
    rw [e]; exact k
  unfold beginFind
  dsimp only
  split
  · next wd ch hsh =>
    obtain ⟨ha, hs, hc, -, -, -, h1, h2, h3, h4⟩ := start_shared
      (w := { w with nextH := w.nextH + 1, log := .started w.nextH s inst q :: w.log }) s inst q w.nextH wd ch v1 hn
      (Nat.lt_succ_self _) (sharedWatch_some hsh)
    rw [ha]
    refine ⟨_, _, rfl, ?_⟩
    exact fin _ _ hs (fun imp x => hc imp (cc imp x)) h4 (core_new { w with nextH := w.nextH + 1, log := .started w.nextH s inst q :: w.log } _
      { svc := s, inst, q, wds := [], prev := _ } (storeAndLink_quiet _ _ _) rfl) h1 h2 h3
  · obtain ⟨hs, hc, -, -, -, h1, h2, h3, h4⟩ := start_crawl
      (w := { w with nextH := w.nextH + 1, log := .started w.nextH s inst q :: w.log }) s inst q env w.nextH v1 hn
      (Nat.lt_succ_self _)
    refine ⟨_, _, rfl, ?_⟩
    exact fin _ _ hs (fun imp x => hc imp (cc imp x)) h4
      (core_new (crawl { w with nextH := w.nextH + 1, log := .started w.nextH s inst q :: w.log } env ⟨s, inst⟩).w _
      { svc := s, inst, q, wds := [], prev := _ } ((storeAndLink_quiet _ _ _).trans (merge_quiet _ _ _))
      (crawl_quiet _ _ _).core) h1 h2 h3

mutual
theorem deed_ok {pre : List Ev} {w : World} (v : DInv pre w) : (d : Deed) → Keeps pre w (deed w d)
  | .act a => by unfold deed; exact v.act a
  | .stop h => by unfold deed; exact v.stop h
  | .start s inst q env does => by
    have K := v.begin s inst q env
    unfold deed
    dsimp only
    split at K
    · next h => rw [if_pos h]; exact K
    · next h => rw [if_neg h]; exact K.trans (deeds_ok K.d does)
  | .fail s inst q l => by
    unfold deed
    split
    · exact ⟨v, fun _ c => c, rfl⟩
    · exact (v.acts l).trans (v.acts l).d.unused

theorem deeds_ok {pre : List Ev} {w : World} (v : DInv pre w) : (ds : List Deed) → Keeps pre w (deeds w ds)
  | [] => by unfold deeds; exact ⟨v, fun _ c => c, rfl⟩
  | d :: ds => by
    have K := deed_ok v d
    unfold deeds
    exact K.trans (deeds_ok K.d ds)
end

theorem beginFind_log (w : World) (s : Nat) (inst : Option Nat) (q : Q) (env : List (List Act)) :
    (beginFind w s inst q env).1.log = .started w.nextH s inst q :: w.log := by
  unfold beginFind
  dsimp only
  split
  · split
    · rfl
    · exact (storeAndLink_quiet _ _ _).log
  · exact ((storeAndLink_quiet _ _ _).trans (merge_quiet _ _ _)).log.trans (crawl_quiet _ _ _).log

mutual
theorem deed_log (w : World) : (d : Deed) → ∃ l, (deed w d).log = l ++ w.log
  | .act a => ⟨[], by unfold deed; exact (act_fine [] w a).grow.log⟩
  | .stop h => by
    unfold deed stopFind
    split
    · exact ⟨[_], rfl⟩
    · exact ⟨[], rfl⟩
  | .start s inst q env does => by
    unfold deed
    dsimp only
    split
    · exact ⟨[_], beginFind_log w s inst q env⟩
    · obtain ⟨l, e⟩ := deeds_log { (beginFind w s inst q env).1 with log := .called w.nextH (beginFind w s inst q env).2 :: (beginFind w s inst q env).1.log } does
      exact ⟨l ++ [_, _], by rw [e]; simp only [beginFind_log, List.append_assoc]; rfl⟩
  | .fail s inst q l => by
    unfold deed
    split
    · exact ⟨[], rfl⟩
    · dsimp only
      unfold stopFind
      rw [if_pos (Nat.lt_succ_self _)]
      exact ⟨[_], congrArg (.stopped (acts w l).nextH :: ·) (acts_fine [] w l).grow.log⟩

theorem deeds_log (w : World) : (ds : List Deed) → ∃ l, (deeds w ds).log = l ++ w.log
  | [] => ⟨[], by unfold deeds; rfl⟩
  | d :: ds => by
    obtain ⟨l, e⟩ := deed_log w d
    obtain ⟨l', e'⟩ := deeds_log (deed w d) ds
    unfold deeds
    exact ⟨l' ++ l, by rw [e', e, List.append_assoc]⟩
end

theorem deed_start_log (w : World) (s : Nat) (inst : Option Nat) (q : Q) (env : List (List Act)) (does : List Deed) :
    ∃ l, (deed w (.start s inst q env does)).log = l ++ .started w.nextH s inst q :: w.log := by
  unfold deed
  dsimp only
  split
  · exact ⟨[], beginFind_log w s inst q env⟩
  · obtain ⟨l, e⟩ := deeds_log { (beginFind w s inst q env).1 with log := .called w.nextH (beginFind w s inst q env).2 :: (beginFind w s inst q env).1.log } does
    exact ⟨l ++ [_], by rw [e]; simp only [beginFind_log, List.append_assoc]; rfl⟩

/-! ### Handlers -/

theorem callHandlers_ok {pre w} (does : List Note → List Deed) (l : List Nat) (v : DInv pre w) :
    DInv pre (callHandlers w does l) ∧ (CInv pre none l w → CInv pre none [] (callHandlers w does l)) ∧
    (callHandlers w does l).batch = w.batch := by
  induction l generalizing w with
  | nil => exact ⟨v, id, rfl⟩
  | cons h l ih =>
    unfold callHandlers
    cases hS : w.searches h with
    | none =>
      dsimp only
      obtain ⟨a, b, e⟩ := ih v
      refine ⟨a, fun c => b ⟨c.truth, c.p2, fun h' S i e hex ho hi => ?_⟩, e⟩
      rcases c.r h' S i e hex ho hi with x | x | x
      · exact .inl x
      · rcases List.mem_cons.mp x with rfl | x
        · rw [hS] at e; cases e
        · exact .inr (.inl x)
      · exact .inr (.inr x)
    | some S =>
      dsimp only
      by_cases ho : h ∈ w.obsolete
      · rw [if_pos ho]
        obtain ⟨a, b, e⟩ := ih v
        refine ⟨a, fun c => b ⟨c.truth, c.p2, fun h' S i e hex ho' hi => ?_⟩, e⟩
        rcases c.r h' S i e hex ho' hi with x | x | x
        · exact .inl x
        · rcases List.mem_cons.mp x with rfl | x
          · exact absurd ho ho'
          · exact .inr (.inl x)
        · exact .inr (.inr x)
      · rw [if_neg ho]
        by_cases hsame : sameSet S.prev (select (w.known S.q S.svc) S.inst) = true
        · rw [if_pos hsame]
          obtain ⟨a, b, e⟩ := ih v
          refine ⟨a, fun c => b ⟨c.truth, c.p2, fun h' S' i e hex ho' hi => ?_⟩, e⟩
          rcases c.r h' S' i e hex ho' hi with x | x | x
          · exact .inl x
          · rcases List.mem_cons.mp x with rfl | x
            · rw [hS] at e; injection e with e; subst e
              left
              rw [sameSet_iff] at hsame
              rw [hsame i, mem_select]
              exact ⟨fun h => ⟨h, hi⟩, fun h => h.1⟩
            · exact .inr (.inl x)
          · exact .inr (.inr x)
        · rw [if_neg hsame]
          have v1 := (v.s.told hS).stops (stops_log _ (.called h (select (w.known S.q S.svc) S.inst) :: w.log))
          have l1 : World.LInv { w with
              searches := upd w.searches h (some { S with prev := select (w.known S.q S.svc) S.inst })
              log := .called h (select (w.known S.q S.svc) S.inst) :: w.log } := by
            refine LInv.call (w := { w with searches := upd w.searches h (some { S with prev := select (w.known S.q S.svc) S.inst }) })
              (c := w.core) (s := S.svc) (i := S.inst) (q := S.q) (p := S.prev) v.l ?_ ?_ ho ?_
            · unfold World.core; rw [hS]; rfl
            · intro e
              exact hsame (sameSet_iff.mpr fun x => (e x).symm)
            · funext h'
              unfold World.core
              dsimp only
              by_cases c : h' = h
              · subst c; rw [upd_self, upd_self]; rfl
              · rw [upd_ne _ _ c, upd_ne _ _ c]
          have K := deeds_ok (pre := pre) ⟨v1, l1⟩ (does (.called h (select (w.known S.q S.svc) S.inst) :: w.log))
          obtain ⟨a, b, e⟩ := ih K.d
          refine ⟨a, fun c => b (K.c _ (CInv.stops ?_ (stops_log
            { w with searches := upd w.searches h (some { S with prev := select (w.known S.q S.svc) S.inst }) } _))), e.trans K.batch⟩
          refine ⟨c.truth, c.p2, fun h' S' i e hex ho' hi => ?_⟩
          by_cases hc : h' = h
          · subst hc
            have e' : upd w.searches h' (some { S with prev := select (w.known S.q S.svc) S.inst }) h' = some S' := e
            rw [upd_self] at e'; injection e' with e'; subst e'
            left
            dsimp only
            rw [mem_select]
            exact ⟨fun h => ⟨h, hi⟩, fun h => h.1⟩
          · have e' : upd w.searches h (some { S with prev := select (w.known S.q S.svc) S.inst }) h' = some S' := e
            rw [upd_ne _ _ hc] at e'
            rcases c.r h' S' i e' hex ho' hi with x | x | x
            · exact .inl x
            · rcases List.mem_cons.mp x with x | x
              · exact absurd x hc
              · exact .inr (.inl x)
            · exact .inr (.inr x)

theorem transferOne_core (w : World) (h : Nat) : (transferOne w h).core = upd w.core h none ∧ (transferOne w h).log = w.log ∧
    (transferOne w h).nextH = w.nextH ∧ (transferOne w h).obsolete = w.obsolete ∧ (transferOne w h).batch = w.batch := by
  unfold transferOne
  cases hS : w.searches h with
  | none =>
    refine ⟨?_, rfl, rfl, rfl, rfl⟩
    funext h'
    by_cases c : h' = h
    · subst c; rw [upd_self]; show (w.searches h').map _ = _; rw [hS]; rfl
    · rw [upd_ne _ _ c]
  | some S =>
    have q := dropWatches_quiet w h S.wds
    refine ⟨?_, q.log, q.nextH, q.obsolete, q.batch⟩
    funext h'
    show (upd _ h none h').map _ = _
    by_cases c : h' = h
    · subst c; rw [upd_self, upd_self]; rfl
    · rw [upd_ne _ _ c, upd_ne _ _ c]
      exact congrFun q.core h'

theorem transferAll_core (l : List Nat) (w : World) : (∀ h, (transferAll w l).core h = if h ∈ l then none else w.core h) ∧
    (transferAll w l).log = w.log ∧ (transferAll w l).nextH = w.nextH ∧ (transferAll w l).batch = w.batch := by
  induction l generalizing w with
  | nil => exact ⟨fun _ => by simp [transferAll], rfl, rfl, rfl⟩
  | cons h l ih =>
    obtain ⟨a, b, c, _, e⟩ := transferOne_core w h
    obtain ⟨a', b', c', e'⟩ := ih (transferOne w h)
    refine ⟨fun h' => ?_, b'.trans b, c'.trans c, e'.trans e⟩
    show (transferAll (transferOne w h) l).core h' = _
    rw [a', a]
    by_cases h1 : h' ∈ l
    · simp [h1]
    · by_cases h2 : h' = h
      · subst h2; simp [upd_self]
      · rw [upd_ne _ _ h2]; simp [h1, h2]

theorem World.LInv.transfer {w} (v : World.LInv w) : World.LInv (transfer w) := by
  obtain ⟨a, b, c, _⟩ := transferAll_core w.obsolete w
  have hc : (Discovery.transfer w).core = fun h => if h ∈ w.obsolete then none else w.core h := by
    funext h; exact a h
  show Discovery.LInv (Discovery.transfer w).core (transferAll w w.obsolete).log (transferAll w w.obsolete).nextH []
  rw [hc, b, c]
  refine ⟨?_, v.new, fun h hm => by simp at hm, ?_, ?_, v.good⟩
  · intro h s i q p e
    split at e
    · cases e
    · exact v.sub _ _ _ _ _ e
  · intro h hm
    right
    split
    · rfl
    · next ho => exact (v.stop1 _ hm).resolve_left ho
  · intro h hl hm
    rcases hm with hm | hm
    · simp at hm
    · refine v.stop2 _ hl ?_
      split at hm
      · next ho => exact .inl ho
      · exact .inr hm

/-! ### Events -/

/-- Everything that handling a batch preserves. -/
theorem handleEvents_ok {w} (env : List (List (List Act))) (does : List Note → List Deed) (pref : List Nat) (v : DInv w.batch w) :
    DInv [] (handleEvents w env does pref) ∧
    (Calm w.batch → CInv w.batch none [] w → CInv [] none [] (handleEvents w env does pref)) ∧ (handleEvents w env does pref).batch = [] := by
  obtain ⟨a, b, _, _, e1, e2, e3, e4, e5⟩ := transfer_ok (imp := []) v.s
  have al : World.LInv { transfer w with batch := [] } := v.l.transfer
  have a2 : SInv (transfer w).batch none { transfer w with batch := [] } := by
    rw [e3]; exact a.frame rfl rfl rfl rfl rfl rfl rfl rfl rfl rfl rfl
  have hm : ∀ e, e ∈ (transfer w).batch.filter Ev.isDelete ++ (transfer w).batch.filter (fun e => !e.isDelete) ↔ e ∈ (transfer w).batch := by
    intro e
    simp only [List.mem_append, List.mem_filter]
    cases e.isDelete <;> simp
  have a3 := a2.congr (pre' := (transfer w).batch.filter Ev.isDelete ++ (transfer w).batch.filter (fun e => !e.isDelete))
    (fun e => by simp only [List.mem_append (s := (transfer w).batch), List.mem_append (t := { transfer w with batch := [] }.queue), hm])
  have hw : handleEvents w env does pref = callHandlers
      (creations ((transfer w).batch.filter (fun e => !e.isDelete)) (callHandlers
        (deletions ((transfer w).batch.filter Ev.isDelete) { transfer w with batch := [] } []).1 does
        (arrange pref (deletions ((transfer w).batch.filter Ev.isDelete) { transfer w with batch := [] } []).2)) env []).1 does
      (arrange pref (creations ((transfer w).batch.filter (fun e => !e.isDelete)) (callHandlers
        (deletions ((transfer w).batch.filter Ev.isDelete) { transfer w with batch := [] } []).1 does
        (arrange pref (deletions ((transfer w).batch.filter Ev.isDelete) { transfer w with batch := [] } []).2)) env []).2) := rfl
  have c0 : Calm w.batch → CInv w.batch none [] w → CInv ((transfer w).batch.filter Ev.isDelete ++ (transfer w).batch.filter (fun e => !e.isDelete))
      none [] { transfer w with batch := [] } := by
    intro hc c
    refine CInv.reorder (pre := (transfer w).batch) ?_ hm (fun wd q => lastOf_sorted (by rw [e3]; exact hc) wd q)
    rw [e3]
    have := b c
    exact ⟨this.truth, this.p2, this.r⟩
  rw [hw]
  have ew : ({ transfer w with batch := [] } : World).batch = [] := rfl
  revert a3 al c0 ew
  generalize ({ transfer w with batch := [] } : World) = w1
  intro al a3 c0 ew
  obtain ⟨d1, d2⟩ := deletions_ok (imp := []) _ (fun e he => (List.mem_filter.mp he).2) a3
  have dq := deletions_quiet ((transfer w).batch.filter Ev.isDelete) w1 []
  obtain ⟨h1, h2, h3⟩ := callHandlers_ok does (arrange pref (deletions ((transfer w).batch.filter Ev.isDelete) w1 []).2)
    ⟨d1, al.quiet dq⟩
  rw [dq.batch, ew] at h3
  revert d1 d2 h1 h2 h3
  generalize deletions ((transfer w).batch.filter Ev.isDelete) w1 [] = dd
  intro d1 d2 h1 h2 h3
  revert h1 h2 h3
  generalize callHandlers dd.1 does (arrange pref dd.2) = w2
  intro h1 h2 h3
  have h1' : SInv ((transfer w).batch.filter (fun e => !e.isDelete) ++ []) none w2 := by
    rw [List.append_nil]; exact h1.s
  obtain ⟨c1, c2⟩ := creations_ok (imp := []) _ env (fun e he => by simpa using (List.mem_filter.mp he).2) h1'
  have cq := creations_quiet ((transfer w).batch.filter (fun e => !e.isDelete)) w2 env []
  obtain ⟨g1, g2, g3⟩ := callHandlers_ok does (arrange pref (creations ((transfer w).batch.filter (fun e => !e.isDelete)) w2 env []).2)
    ⟨c1, h1.l.quiet cq⟩
  rw [cq.batch, h3] at g3
  refine ⟨g1, fun hc c => g2 ((c2 ?_).weaken fun x => mem_arrange.mpr), g3⟩
  rw [List.append_nil]
  exact h2 ((d2 (c0 hc c)).weaken fun x => mem_arrange.mpr)

/-! ### Runs -/

theorem readEvents_ok {w} (n : Nat) (v : SInv w.batch none w) : SInv (readEvents w n).batch none (readEvents w n) ∧
    (CInv w.batch none [] w → CInv (readEvents w n).batch none [] (readEvents w n)) := by
  unfold readEvents
  split
  · next e =>
    rw [e] at v ⊢
    have hq : w.queue.take n ++ w.queue.drop n = [] ++ w.queue := by simp
    refine ⟨⟨⟨v.k.lt, v.k.inj, ?_, ?_, v.k.wdir, v.k.fdir⟩, v.ab, v.wk, v.ne, v.ls, v.sl, v.sh, v.mainL, ?_, v.id0, v.id1, v.id2, v.id3, v.kw,
      v.pv, v.nd⟩, fun c => ⟨?_, ?_, ?_⟩⟩
    · dsimp only; rw [hq]; exact v.k.evlt
    · dsimp only; rw [hq]; exact v.k.fit
    · dsimp only; rw [hq]; exact v.dirL
    · unfold Truth; dsimp only; rw [hq]; exact c.truth
    · dsimp only; rw [hq]; exact c.p2
    · unfold Pend; dsimp only; rw [hq]; exact c.r
  · exact ⟨v, id⟩

def Inv (w : World) : Prop := DInv w.batch w

theorem step_inv {w} (o : Op) (v : Inv w) : Inv (step w o) := by
  cases o with
  | app d =>
    have K := deed_ok v d
    show DInv (deed w d).batch (deed w d)
    rw [K.batch]; exact K.d
  | read n =>
    refine ⟨(readEvents_ok n v.s).1, ?_⟩
    have q : Quiet w { readEvents w n with batch := w.batch } := by
      unfold readEvents; split <;> exact ⟨rfl, rfl, rfl, rfl, rfl⟩
    exact (v.l.quiet q : World.LInv { readEvents w n with batch := w.batch })
  | handle env does pref =>
    obtain ⟨a, _, c⟩ := handleEvents_ok env does pref v
    show DInv (handleEvents w env does pref).batch _
    rw [c]; exact a

theorem step_calm {w} (o : Op) (v : Inv w) (hc : Calm w.batch) (c : CInv w.batch none [] w) :
    CInv (step w o).batch none [] (step w o) := by
  cases o with
  | app d =>
    have K := deed_ok v d
    show CInv (deed w d).batch none [] (deed w d)
    rw [K.batch]; exact K.c _ c
  | read n => exact (readEvents_ok n v.s).2 c
  | handle env does pref =>
    obtain ⟨_, b, e⟩ := handleEvents_ok env does pref v
    show CInv (handleEvents w env does pref).batch none [] _
    rw [e]
    exact b hc c

theorem run_inv (ops : List Op) {w} (v : Inv w) : Inv (run w ops) := by
  induction ops generalizing w with
  | nil => exact v
  | cons o ops ih => exact ih (step_inv o v)

theorem run_calm (ops : List Op) {w} (v : Inv w) (hb : Calm w.batch) (c : CInv w.batch none [] w) (hc : CalmRun w ops) :
    CInv (run w ops).batch none [] (run w ops) := by
  induction ops generalizing w with
  | nil => exact c
  | cons o ops ih => exact ih (step_inv o v) hc.1 (step_calm o v hb c) hc.2

theorem init_inv (dirs : Nat → List Nat) (file : Nat → Nat → Q → Bool) (hf : ∀ s i q, file s i q = true → i ∈ dirs s) :
    Inv (init dirs file) ∧ CInv [] none [] (init dirs file) := by
  refine ⟨⟨⟨⟨?_, ?_, ?_, ?_, ?_, hf⟩, rfl, ?_, ?_, ?_, ?_, ?_, ?_, ?_, ?_, ?_, ?_, ?_, ?_, ?_, ?_⟩, ⟨?_, ?_, ?_, ?_, ?_, ⟨?_, ?_⟩⟩⟩, ⟨?_, ?_, ?_⟩⟩
  all_goals (intros; simp_all [init, World.core, lastOf, Truth])

end Verif.Discovery
