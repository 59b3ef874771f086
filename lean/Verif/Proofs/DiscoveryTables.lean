/- The tables of the client: structural invariant. -/
import Verif.Proofs.DiscoveryCrawl

namespace Verif.Discovery

/-- `pre`: events read and still to be handled. `ex`: the search that is being set up or taken down. -/
structure SInv (pre : List Ev) (ex : Option Nat) (w : World) : Prop where
  k : KInv pre w
  ab : w.aborted = false
  wk : ∀ wd d hs, w.watches wd = some (d, hs) → w.wdOf d = some wd
  ne : ∀ wd d hs, w.watches wd = some (d, hs) → hs ≠ []
  ls : ∀ wd d hs h, w.watches wd = some (d, hs) → h ∈ hs → ∃ S, w.searches h = some S ∧ wd ∈ S.wds
  sl : ∀ h S wd, w.searches h = some S → wd ∈ S.wds →
    ∃ d hs, w.watches wd = some (d, hs) ∧ h ∈ hs ∧ d.svc = S.svc ∧ (S.inst = none ∨ d.inst = S.inst)
  sh : ∀ h S, w.searches h = some S → h < w.nextH
  mainL : ∀ h S, w.searches h = some S → ex ≠ some h → ∃ wd ∈ S.wds, w.wdOf ⟨S.svc, S.inst⟩ = some wd
  dirL : ∀ h S, w.searches h = some S → ex ≠ some h → S.inst = none → ∀ i ∈ w.dirs S.svc,
    (∃ wd ∈ S.wds, w.wdOf ⟨S.svc, some i⟩ = some wd) ∨
    ∃ wd0, w.wdOf ⟨S.svc, none⟩ = some wd0 ∧ ⟨wd0, .mkdir i⟩ ∈ pre ++ w.queue
  id0 : ∀ wd s hs, w.watches wd = some (⟨s, none⟩, hs) → w.ids ⟨s, none⟩ ≠ none
  id1 : ∀ wd s i hs, w.watches wd = some (⟨s, some i⟩, hs) →
    (∃ c, w.ids ⟨s, some i⟩ = some (some wd, c)) ∧ ∃ m ch, w.ids ⟨s, none⟩ = some (m, ch) ∧ wd ∈ ch
  id2 : ∀ s i m c, w.ids ⟨s, some i⟩ = some (m, c) → c = [] ∧ ∃ wd hs, m = some wd ∧ w.watches wd = some (⟨s, some i⟩, hs)
  id3 : ∀ s m ch, w.ids ⟨s, none⟩ = some (m, ch) → (∀ wd ∈ ch, ∃ i hs, w.watches wd = some (⟨s, some i⟩, hs)) ∧
    ∀ wd, m = some wd → ∃ hs, w.watches wd = some (⟨s, none⟩, hs)
  kw : ∀ q s i, i ∈ w.known q s → ∃ wd hs, w.watches wd = some (⟨s, some i⟩, hs)
  pv : ∀ h S i, w.searches h = some S → i ∈ S.prev → S.inst = none ∨ S.inst = some i
  nd : ∀ h S, w.searches h = some S → S.wds.Nodup

theorem mem_insertNew {x y : Nat} {l : List Nat} : x ∈ insertNew y l ↔ x = y ∨ x ∈ l := by
  unfold insertNew
  split
  · next h => exact ⟨.inr, fun | .inl e => e ▸ h | .inr e => e⟩
  · exact List.mem_cons

theorem nodup_insertNew {y : Nat} {l : List Nat} (h : l.Nodup) : (insertNew y l).Nodup := by
  unfold insertNew
  split
  · exact h
  · next hn => exact List.nodup_cons.mpr ⟨hn, h⟩

theorem insertNew_of_mem {y : Nat} {l : List Nat} (h : y ∈ l) : insertNew y l = l := if_pos h

/-- Two watches of the same directory are the same. -/
theorem SInv.uniq {pre ex w} (v : SInv pre ex w) {wd wd' d hs hs'} (h : w.watches wd = some (d, hs)) (h' : w.watches wd' = some (d, hs')) :
    wd = wd' ∧ hs = hs' := by
  have e : wd = wd' := by
    have a := v.wk _ _ _ h
    rw [v.wk _ _ _ h'] at a
    injection a with a; exact a.symm
  subst e
  rw [h] at h'
  injection h' with h'; injection h' with _ h'
  exact ⟨rfl, h'⟩

/-- A search whose watch set has the watch of a directory is linked to it. -/
theorem SInv.linked {pre ex w} (v : SInv pre ex w) {h S wd d} (hs : w.searches h = some S) (hm : wd ∈ S.wds) (hd : w.wdOf d = some wd) :
    ∃ hs, w.watches wd = some (d, hs) ∧ h ∈ hs := by
  obtain ⟨d', hs', e, m, _⟩ := v.sl _ _ _ hs hm
  have := v.k.inj _ _ _ hd (v.wk _ _ _ e)
  subst this
  exact ⟨hs', e, m⟩

theorem SInv.fine {pre ex w w'} (v : SInv pre ex w) (f : Fine pre w w') : SInv pre ex w' := by
  have g := f.grow
  obtain ⟨new, hq, _, hd⟩ := g.queue
  refine ⟨f.kinv v.k, by rw [g.aborted]; exact v.ab, ?_, ?_, ?_, ?_, ?_, ?_, ?_, ?_, ?_, ?_, ?_, ?_, ?_, ?_⟩
  · rw [g.watches]; exact fun wd d hs h => g.wd _ _ (v.wk wd d hs h)
  · rw [g.watches]; exact v.ne
  · rw [g.watches, g.searches]; exact v.ls
  · rw [g.watches, g.searches]; exact v.sl
  · rw [g.nextH, g.searches]; exact v.sh
  · rw [g.searches]
    intro h S hS hex
    obtain ⟨wd, a, b⟩ := v.mainL h S hS hex
    exact ⟨wd, a, g.wd _ _ b⟩
  · rw [g.searches]
    intro h S hS hex hin i hi
    obtain ⟨wd0, a, b⟩ := v.mainL h S hS hex
    rw [hin] at b
    rcases hd S.svc i wd0 b hi with hi | hi
    · rcases v.dirL h S hS hex hin i hi with ⟨wd, x, y⟩ | ⟨wd, x, y⟩
      · exact .inl ⟨wd, x, g.wd _ _ y⟩
      · refine .inr ⟨wd, g.wd _ _ x, ?_⟩
        rw [hq, ← List.append_assoc]; exact List.mem_append_left _ y
    · refine .inr ⟨wd0, g.wd _ _ b, ?_⟩
      rw [hq, ← List.append_assoc]; exact List.mem_append_right _ hi
  · rw [g.watches, g.ids]; exact v.id0
  · rw [g.watches, g.ids]; exact v.id1
  · rw [g.watches, g.ids]; exact v.id2
  · rw [g.watches, g.ids]; exact v.id3
  · rw [g.watches, g.known]; exact v.kw
  · rw [g.searches]; exact v.pv
  · rw [g.searches]; exact v.nd

theorem KInv.congr {pre pre' : List Ev} {w : World} (v : KInv pre w) (h : ∀ e, e ∈ pre' ++ w.queue → e ∈ pre ++ w.queue) : KInv pre' w :=
  ⟨v.lt, v.inj, fun e he => v.evlt e (h e he), fun e he => v.fit e (h e he), v.wdir, v.fdir⟩

theorem SInv.congr {pre pre' ex w} (v : SInv pre ex w) (h : ∀ e, e ∈ pre' ++ w.queue ↔ e ∈ pre ++ w.queue) : SInv pre' ex w :=
  ⟨v.k.congr fun e => (h e).mp, v.ab, v.wk, v.ne, v.ls, v.sl, v.sh, v.mainL,
    fun a S b c d i e => (v.dirL a S b c d i e).imp id fun ⟨wd, x, y⟩ => ⟨wd, x, (h _).mpr y⟩, v.id0, v.id1, v.id2, v.id3, v.kw, v.pv, v.nd⟩

/-- An event that has been handled, or that has no effect. -/
theorem SInv.drop {pre ex w e} (v : SInv (e :: pre) ex w)
    (hd : ∀ h S i, w.searches h = some S → ex ≠ some h → S.inst = none → w.wdOf ⟨S.svc, none⟩ = some e.wd → e.kind = .mkdir i →
      ∃ wd ∈ S.wds, w.wdOf ⟨S.svc, some i⟩ = some wd) : SInv pre ex w := by
  refine ⟨v.k.congr fun e h => by rw [List.cons_append]; exact List.mem_cons_of_mem _ h, v.ab, v.wk, v.ne, v.ls, v.sl, v.sh, v.mainL, ?_,
    v.id0, v.id1, v.id2, v.id3, v.kw, v.pv, v.nd⟩
  intro h S hS hex hin i hi
  rcases v.dirL h S hS hex hin i hi with c | ⟨wd, x, y⟩
  · exact .inl c
  · rw [List.cons_append] at y
    rcases List.mem_cons.mp y with y | y
    · rw [← y] at hd
      exact .inl (hd h S i hS hex hin x rfl)
    · exact .inr ⟨wd, x, y⟩

theorem SInv.drop_file {pre ex w e} (v : SInv (e :: pre) ex w) (hk : ∀ i, e.kind ≠ .mkdir i) : SInv pre ex w :=
  v.drop fun _ _ i _ _ _ _ h => absurd h (hk i)

theorem SInv.drop_unwatched {pre ex w e} (v : SInv (e :: pre) ex w) (hk : w.watches e.wd = none) : SInv pre ex w :=
  v.drop fun h S i hS hex hin hw _ => by
    obtain ⟨wd, a, b⟩ := v.mainL h S hS hex
    rw [hin, hw] at b
    injection b with b; subst b
    obtain ⟨d, hs, x, _⟩ := v.sl _ _ _ hS a
    rw [hk] at x; cases x

/-! ### Known instances -/

theorem mem_learn {w : World} {s i : Nat} {q : Q} {q' : Q} {s' i' : Nat} :
    i' ∈ (learn w s i q).known q' s' ↔ (q' = q ∧ s' = s ∧ i' = i) ∨ i' ∈ w.known q' s' := by
  show i' ∈ (if q' = q ∧ s' = s then insertNew i (w.known q' s') else w.known q' s') ↔ _
  split
  · next h => rw [mem_insertNew]; simp [h]
  · next h => constructor
              · exact .inr
              · rintro (⟨a, b, _⟩ | h')
                · exact absurd ⟨a, b⟩ h
                · exact h'

theorem mem_forget {w : World} {s i : Nat} {q : Q} {q' : Q} {s' i' : Nat} :
    i' ∈ (forget w s i q).known q' s' ↔ ¬(q' = q ∧ s' = s ∧ i' = i) ∧ i' ∈ w.known q' s' := by
  show i' ∈ (if q' = q ∧ s' = s then (w.known q' s').filter (· ≠ i) else w.known q' s') ↔ _
  split
  · next h => simp [h, List.mem_filter, and_comm]
  · next h => constructor
              · exact fun h' => ⟨fun ⟨a, b, _⟩ => h ⟨a, b⟩, h'⟩
              · exact fun h' => h'.2

/-- Everything but the known instances is the same. -/
structure OnlyKnown (w w' : World) : Prop where
  dirs : w'.dirs = w.dirs
  file : w'.file = w.file
  wdOf : w'.wdOf = w.wdOf
  nextWd : w'.nextWd = w.nextWd
  queue : w'.queue = w.queue
  batch : w'.batch = w.batch
  watches : w'.watches = w.watches
  ids : w'.ids = w.ids
  searches : w'.searches = w.searches
  obsolete : w'.obsolete = w.obsolete
  nextH : w'.nextH = w.nextH
  log : w'.log = w.log
  aborted : w'.aborted = w.aborted

theorem OnlyKnown.refl (w : World) : OnlyKnown w w := ⟨rfl, rfl, rfl, rfl, rfl, rfl, rfl, rfl, rfl, rfl, rfl, rfl, rfl⟩

theorem learn_only (w : World) (s i : Nat) (q : Q) : OnlyKnown w (learn w s i q) :=
  ⟨rfl, rfl, rfl, rfl, rfl, rfl, rfl, rfl, rfl, rfl, rfl, rfl, rfl⟩

theorem forget_only (w : World) (s i : Nat) (q : Q) : OnlyKnown w (forget w s i q) :=
  ⟨rfl, rfl, rfl, rfl, rfl, rfl, rfl, rfl, rfl, rfl, rfl, rfl, rfl⟩

theorem OnlyKnown.trans {a b c : World} (h : OnlyKnown a b) (h' : OnlyKnown b c) : OnlyKnown a c :=
  ⟨h'.dirs.trans h.dirs, h'.file.trans h.file, h'.wdOf.trans h.wdOf, h'.nextWd.trans h.nextWd, h'.queue.trans h.queue,
    h'.batch.trans h.batch, h'.watches.trans h.watches, h'.ids.trans h.ids, h'.searches.trans h.searches, h'.obsolete.trans h.obsolete,
    h'.nextH.trans h.nextH, h'.log.trans h.log, h'.aborted.trans h.aborted⟩

theorem KInv.only {pre : List Ev} {w w' : World} (v : KInv pre w) (hd : w'.dirs = w.dirs) (hf : w'.file = w.file) (hw : w'.wdOf = w.wdOf)
    (hn : w'.nextWd = w.nextWd) (hq : w'.queue = w.queue) : KInv pre w' :=
  ⟨by rw [hw, hn]; exact v.lt, by rw [hw]; exact v.inj, by rw [hq, hn]; exact v.evlt, by rw [hq, hw]; exact v.fit,
    by rw [hw, hd]; exact v.wdir, by rw [hf, hd]; exact v.fdir⟩

theorem SInv.known {pre ex w w'} (v : SInv pre ex w) (o : OnlyKnown w w')
    (kw : ∀ q s i, i ∈ w'.known q s → ∃ wd hs, w.watches wd = some (⟨s, some i⟩, hs)) : SInv pre ex w' := by
  refine ⟨v.k.only o.dirs o.file o.wdOf o.nextWd o.queue, ?_, ?_, ?_, ?_, ?_, ?_, ?_, ?_, ?_, ?_, ?_, ?_, ?_, ?_, ?_⟩
  · rw [o.aborted]; exact v.ab
  · rw [o.watches, o.wdOf]; exact v.wk
  · rw [o.watches]; exact v.ne
  · rw [o.watches, o.searches]; exact v.ls
  · rw [o.watches, o.searches]; exact v.sl
  · rw [o.nextH, o.searches]; exact v.sh
  · rw [o.wdOf, o.searches]; exact v.mainL
  · rw [o.wdOf, o.searches, o.dirs, o.queue]; exact v.dirL
  · rw [o.watches, o.ids]; exact v.id0
  · rw [o.watches, o.ids]; exact v.id1
  · rw [o.watches, o.ids]; exact v.id2
  · rw [o.watches, o.ids]; exact v.id3
  · rw [o.watches]; exact kw
  · rw [o.searches]; exact v.pv
  · rw [o.searches]; exact v.nd

theorem merge_only (w : World) (s : Nat) (l : List (Nat × Q)) : OnlyKnown w (merge w s l) := by
  induction l generalizing w with
  | nil => exact .refl w
  | cons p l ih => obtain ⟨i, q⟩ := p; exact (learn_only w s i q).trans (ih _)

theorem mem_merge {w : World} {s : Nat} {l : List (Nat × Q)} {q : Q} {s' i : Nat} :
    i ∈ (merge w s l).known q s' ↔ (s' = s ∧ (i, q) ∈ l) ∨ i ∈ w.known q s' := by
  induction l generalizing w with
  | nil => simp [merge]
  | cons p l ih =>
    obtain ⟨j, q'⟩ := p
    show i ∈ (merge (learn w s j q') s l).known q s' ↔ _
    rw [ih, mem_learn]
    simp only [List.mem_cons, Prod.mk.injEq]
    constructor
    · rintro (⟨a, b⟩ | ⟨rfl, rfl, rfl⟩ | h)
      · exact .inl ⟨a, .inr b⟩
      · exact .inl ⟨rfl, .inl ⟨rfl, rfl⟩⟩
      · exact .inr h
    · rintro (⟨a, ⟨rfl, rfl⟩ | b⟩ | h)
      · exact .inr (.inl ⟨rfl, a, rfl⟩)
      · exact .inl ⟨a, b⟩
      · exact .inr (.inr h)

/-! ### Storing and linking watches -/

/-- The effect of storing a watch and linking it with a search. -/
structure Linked (w : World) (wd : Nat) (d : Dir) (h : Nat) (S : Search) (w' : World) : Prop where
  dirs : w'.dirs = w.dirs
  file : w'.file = w.file
  wdOf : w'.wdOf = w.wdOf
  nextWd : w'.nextWd = w.nextWd
  queue : w'.queue = w.queue
  batch : w'.batch = w.batch
  known : w'.known = w.known
  obsolete : w'.obsolete = w.obsolete
  nextH : w'.nextH = w.nextH
  log : w'.log = w.log
  aborted : w'.aborted = w.aborted
  searches : w'.searches = upd w.searches h (some { S with wds := insertNew wd S.wds })
  watches : ∃ hs, w'.watches = upd w.watches wd (some (d, insertNew h hs)) ∧ (w.watches wd = some (d, hs) ∨ (w.watches wd = none ∧ hs = []))
  ids : (∃ hs, w.watches wd = some (d, hs)) ∧ w'.ids = w.ids ∨
    (w.watches wd = none ∧ d.inst = none ∧ w'.ids d ≠ none ∧ (∀ d', d' ≠ d → w'.ids d' = w.ids d') ∧
      (∀ x, w.ids d = some x → w'.ids d = some x) ∧ (w.ids d = none → w'.ids d = some (some wd, []))) ∨
    (w.watches wd = none ∧ d.inst ≠ none ∧ w'.ids d = some (some wd, []) ∧
      (∀ d', d' ≠ d → d' ≠ ⟨d.svc, none⟩ → w'.ids d' = w.ids d') ∧
      ∃ m ch, w'.ids ⟨d.svc, none⟩ = some (m, ch) ∧ wd ∈ ch ∧
        ((w.ids ⟨d.svc, none⟩ = none ∧ m = none ∧ ch = [wd]) ∨ ∃ ch', w.ids ⟨d.svc, none⟩ = some (m, ch') ∧ ch = insertNew wd ch'))

theorem storeLink {pre ex w} (v : SInv pre ex w) {wd d h S} (hS : w.searches h = some S) (hd : w.wdOf d = some wd) :
    Linked w wd d h S (link (storeWatch w wd d) wd h) := by
  obtain ⟨s, inst⟩ := d
  cases hw : w.watches wd with
  | some p =>
    obtain ⟨d', hs⟩ := p
    have e := v.k.inj _ _ _ hd (v.wk _ _ _ hw)
    subst e
    cases inst with
    | none =>
      cases hi : w.ids ⟨s, none⟩ with
      | some x =>
        have e : link (storeWatch w wd ⟨s, none⟩) wd h = { w with
            watches := upd w.watches wd (some (⟨s, none⟩, insertNew h hs)),
            searches := upd w.searches h (some { S with wds := insertNew wd S.wds }) } := by
          simp [storeWatch, link, hw, hi, hS]
        rw [e]
        exact ⟨rfl, rfl, rfl, rfl, rfl, rfl, rfl, rfl, rfl, rfl, rfl, rfl, ⟨hs, rfl, .inl hw⟩, .inl ⟨⟨hs, hw⟩, rfl⟩⟩
      | none => exact absurd hi (v.id0 _ _ _ hw)
    | some i =>
      obtain ⟨⟨c, hi1⟩, m, ch, hi2, hm⟩ := v.id1 _ _ _ _ hw
      have hsame : updD w.ids ⟨s, none⟩ (some (m, ch)) = w.ids := by
        funext d'
        by_cases h : d' = ⟨s, none⟩
        · subst h; rw [updD_self, hi2]
        · rw [updD_ne _ _ h]
      have e : link (storeWatch w wd ⟨s, some i⟩) wd h = { w with
          watches := upd w.watches wd (some (⟨s, some i⟩, insertNew h hs)),
          searches := upd w.searches h (some { S with wds := insertNew wd S.wds }) } := by
        simp [storeWatch, link, hw, hi1, hi2, hS, insertNew_of_mem hm, hsame]
      rw [e]
      exact ⟨rfl, rfl, rfl, rfl, rfl, rfl, rfl, rfl, rfl, rfl, rfl, rfl, ⟨hs, rfl, .inl hw⟩, .inl ⟨⟨hs, hw⟩, rfl⟩⟩
  | none =>
    have hupd : ∀ x y : Option (Dir × List Nat), upd (upd w.watches wd x) wd y = upd w.watches wd y := by
      intro x y
      funext z
      by_cases h : z = wd
      · subst h; simp
      · simp [upd_ne _ _ h]
    cases inst with
    | none =>
      cases hi : w.ids ⟨s, none⟩ with
      | some x =>
        have e : link (storeWatch w wd ⟨s, none⟩) wd h = { w with
            watches := upd w.watches wd (some (⟨s, none⟩, insertNew h [])),
            searches := upd w.searches h (some { S with wds := insertNew wd S.wds }) } := by
          simp [storeWatch, link, hw, hi, hS, hupd]
        rw [e]
        exact ⟨rfl, rfl, rfl, rfl, rfl, rfl, rfl, rfl, rfl, rfl, rfl, rfl, ⟨[], rfl, .inr ⟨hw, rfl⟩⟩,
          .inr (.inl ⟨hw, rfl, by simp [hi], fun _ _ => rfl, fun _ h => h, fun h => by rw [hi] at h; cases h⟩)⟩
      | none =>
        have e : link (storeWatch w wd ⟨s, none⟩) wd h = { w with
            watches := upd w.watches wd (some (⟨s, none⟩, insertNew h [])),
            ids := updD w.ids ⟨s, none⟩ (some (some wd, [])),
            searches := upd w.searches h (some { S with wds := insertNew wd S.wds }) } := by
          simp [storeWatch, link, hw, hi, hS, hupd]
        rw [e]
        exact ⟨rfl, rfl, rfl, rfl, rfl, rfl, rfl, rfl, rfl, rfl, rfl, rfl, ⟨[], rfl, .inr ⟨hw, rfl⟩⟩,
          .inr (.inl ⟨hw, rfl, by simp, fun d' h => by simp [updD_ne _ _ h], (fun x h => by rw [hi] at h; cases h), fun _ => by simp⟩)⟩
    | some i =>
      have hi : w.ids ⟨s, some i⟩ = none := by
        cases hi : w.ids ⟨s, some i⟩ with
        | none => rfl
        | some x =>
          obtain ⟨m, c⟩ := x
          obtain ⟨_, wd', hs', _, hw'⟩ := v.id2 _ _ _ _ hi
          have := v.wk _ _ _ hw'
          rw [hd] at this
          injection this with this
          subst this
          rw [hw] at hw'; cases hw'
      have hne : (⟨s, none⟩ : Dir) ≠ ⟨s, some i⟩ := by intro h; injection h with _ h; cases h
      have hne' : (⟨s, some i⟩ : Dir) ≠ ⟨s, none⟩ := fun h => hne h.symm
      cases ha : w.ids ⟨s, none⟩ with
      | none =>
        have e : link (storeWatch w wd ⟨s, some i⟩) wd h = { w with
            watches := upd w.watches wd (some (⟨s, some i⟩, insertNew h [])),
            ids := updD (updD w.ids ⟨s, some i⟩ (some (some wd, []))) ⟨s, none⟩ (some (none, [wd])),
            searches := upd w.searches h (some { S with wds := insertNew wd S.wds }) } := by
          simp [storeWatch, link, hw, hi, hS, hupd, updD_ne _ _ hne, ha]
        rw [e]
        exact ⟨rfl, rfl, rfl, rfl, rfl, rfl, rfl, rfl, rfl, rfl, rfl, rfl, ⟨[], rfl, .inr ⟨hw, rfl⟩⟩,
          .inr (.inr ⟨hw, by simp, by simp [updD_ne _ _ hne'], fun d' h h' => by simp [updD_ne _ _ h, updD_ne _ _ h'],
            none, [wd], by simp, by simp, .inl ⟨ha, rfl, rfl⟩⟩)⟩
      | some x =>
        obtain ⟨m, ch⟩ := x
        have e : link (storeWatch w wd ⟨s, some i⟩) wd h = { w with
            watches := upd w.watches wd (some (⟨s, some i⟩, insertNew h [])),
            ids := updD (updD w.ids ⟨s, some i⟩ (some (some wd, []))) ⟨s, none⟩ (some (m, insertNew wd ch)),
            searches := upd w.searches h (some { S with wds := insertNew wd S.wds }) } := by
          simp [storeWatch, link, hw, hi, hS, hupd, updD_ne _ _ hne, ha]
        rw [e]
        exact ⟨rfl, rfl, rfl, rfl, rfl, rfl, rfl, rfl, rfl, rfl, rfl, rfl, ⟨[], rfl, .inr ⟨hw, rfl⟩⟩,
          .inr (.inr ⟨hw, by simp, by simp [updD_ne _ _ hne'], fun d' h h' => by simp [updD_ne _ _ h, updD_ne _ _ h'],
            m, insertNew wd ch, by simp, mem_insertNew.mpr (.inl rfl), .inr ⟨ch, ha, rfl⟩⟩)⟩

theorem SInv.link {pre ex w} (v : SInv pre ex w) {wd d h S w'} (hS : w.searches h = some S) (hd : w.wdOf d = some wd)
    (hsvc : d.svc = S.svc) (hinst : S.inst = none ∨ d.inst = S.inst) (L : Linked w wd d h S w') : SInv pre ex w' := by
  obtain ⟨hs0, hw, hw0⟩ := L.watches
  -- watches of w' as seen from w
  have wcase : ∀ wd' d' hs', w'.watches wd' = some (d', hs') → (wd' = wd ∧ d' = d ∧ hs' = insertNew h hs0) ∨ (wd' ≠ wd ∧ w.watches wd' = some (d', hs')) := by
    intro wd' d' hs' e
    rw [hw] at e
    by_cases c : wd' = wd
    · subst c; rw [upd_self] at e
      injection e with e; injection e with e1 e2
      exact .inl ⟨rfl, e1.symm, e2.symm⟩
    · rw [upd_ne _ _ c] at e; exact .inr ⟨c, e⟩
  have wself : w'.watches wd = some (d, insertNew h hs0) := by rw [hw, upd_self]
  have wkeep : ∀ wd' d' hs', w.watches wd' = some (d', hs') → ∃ hs'', w'.watches wd' = some (d', hs'') ∧ ∀ x ∈ hs', x ∈ hs'' := by
    intro wd' d' hs' e
    by_cases c : wd' = wd
    · subst c
      rcases hw0 with e' | ⟨e', _⟩
      · rw [e'] at e; injection e with e; injection e with e1 e2
        subst e1; subst e2
        exact ⟨_, wself, fun x hx => mem_insertNew.mpr (.inr hx)⟩
      · rw [e'] at e; cases e
    · exact ⟨hs', by rw [hw, upd_ne _ _ c]; exact e, fun x hx => hx⟩
  have scase : ∀ h' S', w'.searches h' = some S' → (h' = h ∧ S' = { S with wds := insertNew wd S.wds }) ∨ (h' ≠ h ∧ w.searches h' = some S') := by
    intro h' S' e
    rw [L.searches] at e
    by_cases c : h' = h
    · subst c; rw [upd_self] at e; injection e with e; exact .inl ⟨rfl, e.symm⟩
    · rw [upd_ne _ _ c] at e; exact .inr ⟨c, e⟩
  have sself : w'.searches h = some { S with wds := insertNew wd S.wds } := by rw [L.searches, upd_self]
  -- each search of w' has a predecessor with fewer watches
  have sback : ∀ h' S', w'.searches h' = some S' → ∃ S0, w.searches h' = some S0 ∧ S'.svc = S0.svc ∧ S'.inst = S0.inst ∧ S'.prev = S0.prev ∧
      ∀ x ∈ S0.wds, x ∈ S'.wds := by
    intro h' S' e
    rcases scase h' S' e with ⟨rfl, rfl⟩ | ⟨_, e⟩
    · exact ⟨S, hS, rfl, rfl, rfl, fun x hx => mem_insertNew.mpr (.inr hx)⟩
    · exact ⟨S', e, rfl, rfl, rfl, fun x hx => hx⟩
  refine ⟨v.k.only L.dirs L.file L.wdOf L.nextWd L.queue, by rw [L.aborted]; exact v.ab, ?_, ?_, ?_, ?_, ?_, ?_, ?_, ?_, ?_, ?_, ?_, ?_, ?_, ?_⟩
  · intro wd' d' hs' e
    rw [L.wdOf]
    rcases wcase _ _ _ e with ⟨rfl, rfl, _⟩ | ⟨_, e⟩
    · exact hd
    · exact v.wk _ _ _ e
  · intro wd' d' hs' e
    rcases wcase _ _ _ e with ⟨_, _, rfl⟩ | ⟨_, e⟩
    · intro hn
      have : h ∈ insertNew h hs0 := mem_insertNew.mpr (.inl rfl)
      rw [hn] at this; simp at this
    · exact v.ne _ _ _ e
  · intro wd' d' hs' h' e hm
    rcases wcase _ _ _ e with ⟨rfl, rfl, rfl⟩ | ⟨hne, e⟩
    · rcases mem_insertNew.mp hm with rfl | hm
      · exact ⟨_, sself, mem_insertNew.mpr (.inl rfl)⟩
      · rcases hw0 with e' | ⟨_, e'⟩
        · obtain ⟨S0, a, b⟩ := v.ls _ _ _ _ e' hm
          by_cases c : h' = h
          · subst c; exact ⟨_, sself, mem_insertNew.mpr (.inl rfl)⟩
          · exact ⟨S0, by rw [L.searches, upd_ne _ _ c]; exact a, b⟩
        · rw [e'] at hm; simp at hm
    · obtain ⟨S0, a, b⟩ := v.ls _ _ _ _ e hm
      by_cases c : h' = h
      · subst c
        rw [hS] at a; injection a with a; subst a
        exact ⟨_, sself, mem_insertNew.mpr (.inr b)⟩
      · exact ⟨S0, by rw [L.searches, upd_ne _ _ c]; exact a, b⟩
  · intro h' S' wd' e hm
    rcases scase _ _ e with ⟨rfl, rfl⟩ | ⟨hne, e⟩
    · rcases mem_insertNew.mp hm with rfl | hm
      · exact ⟨d, _, wself, mem_insertNew.mpr (.inl rfl), hsvc, hinst⟩
      · obtain ⟨d', hs', a, b, c1, c2⟩ := v.sl _ _ _ hS hm
        obtain ⟨hs'', x, y⟩ := wkeep _ _ _ a
        exact ⟨d', hs'', x, y _ b, c1, c2⟩
    · obtain ⟨d', hs', a, b, c1, c2⟩ := v.sl _ _ _ e hm
      obtain ⟨hs'', x, y⟩ := wkeep _ _ _ a
      exact ⟨d', hs'', x, y _ b, c1, c2⟩
  · intro h' S' e
    obtain ⟨S0, a, _⟩ := sback _ _ e
    rw [L.nextH]; exact v.sh _ _ a
  · intro h' S' e hex
    obtain ⟨S0, a, e1, e2, _, hm⟩ := sback _ _ e
    obtain ⟨x, y, z⟩ := v.mainL _ _ a hex
    rw [e1, e2, L.wdOf]
    exact ⟨x, hm _ y, z⟩
  · intro h' S' e hex hin i hi
    obtain ⟨S0, a, e1, e2, _, hm⟩ := sback _ _ e
    rw [L.dirs, e1] at hi
    rw [L.wdOf, L.queue, e1]
    exact (v.dirL _ _ a hex (e2 ▸ hin) i hi).imp (fun ⟨x, y, z⟩ => ⟨x, hm _ y, z⟩) id
  · intro wd' s hs' e
    rcases L.ids with ⟨⟨hs1, hx⟩, hi⟩ | ⟨hn, hin, hi, ho, _⟩ | ⟨hn, hin, hi, ho, m, ch, ha, _⟩
    · rw [hi]
      rcases wcase _ _ _ e with ⟨rfl, rfl, _⟩ | ⟨_, e⟩
      · exact v.id0 _ _ _ hx
      · exact v.id0 _ _ _ e
    · rcases wcase _ _ _ e with ⟨_, rfl, _⟩ | ⟨_, e⟩
      · exact hi
      · by_cases c : (⟨s, none⟩ : Dir) = d
        · rw [c]; exact hi
        · rw [ho _ c]; exact v.id0 _ _ _ e
    · rcases wcase _ _ _ e with ⟨_, rfl, _⟩ | ⟨_, e⟩
      · exact absurd rfl hin
      · by_cases c : (⟨s, none⟩ : Dir) = ⟨d.svc, none⟩
        · rw [c, ha]; simp
        · rw [ho _ (by rintro rfl; exact hin rfl) c]; exact v.id0 _ _ _ e
  · intro wd' s i hs' e
    rcases L.ids with ⟨⟨hs1, hx⟩, hi⟩ | ⟨hn, hin, hi, ho, hk, _⟩ | ⟨hn, hin, hi, ho, m, ch, ha, hwm, hold⟩
    · rw [hi]
      rcases wcase _ _ _ e with ⟨rfl, rfl, _⟩ | ⟨_, e⟩
      · exact v.id1 _ _ _ _ hx
      · exact v.id1 _ _ _ _ e
    · rcases wcase _ _ _ e with ⟨_, rfl, _⟩ | ⟨_, e⟩
      · cases hin
      · obtain ⟨⟨c, x⟩, m, ch, y, z⟩ := v.id1 _ _ _ _ e
        refine ⟨⟨c, by rw [ho _ (by rintro rfl; cases hin)]; exact x⟩, m, ch, ?_, z⟩
        by_cases c : (⟨s, none⟩ : Dir) = d
        · subst c; exact hk _ y
        · rw [ho _ c]; exact y
    · rcases wcase _ _ _ e with ⟨rfl, rfl, _⟩ | ⟨hne, e⟩
      · exact ⟨⟨[], hi⟩, m, ch, ha, hwm⟩
      · obtain ⟨⟨c, x⟩, m', ch', y, z⟩ := v.id1 _ _ _ _ e
        refine ⟨⟨c, ?_⟩, ?_⟩
        · rw [ho]
          · exact x
          · rintro rfl
            have := v.wk _ _ _ e
            rw [hd] at this; injection this with this; exact hne this.symm
          · intro h; injection h with _ h; cases h
        · by_cases c : (⟨s, none⟩ : Dir) = ⟨d.svc, none⟩
          · rcases hold with ⟨a, _⟩ | ⟨ch0, a, b⟩
            · rw [← c, y] at a; cases a
            · rw [← c, y] at a
              injection a with a; injection a with a1 a2
              refine ⟨m, ch, by rw [c]; exact ha, ?_⟩
              rw [b, ← a2]; exact mem_insertNew.mpr (.inr z)
          · exact ⟨m', ch', by rw [ho _ (by rintro rfl; exact hin rfl) c]; exact y, z⟩
  · intro s i m' c' e
    rcases L.ids with ⟨⟨hs1, hx⟩, hi⟩ | ⟨hn, hin, hi, ho, hk, _⟩ | ⟨hn, hin, hi, ho, m, ch, ha, hwm, hold⟩
    · rw [hi] at e
      obtain ⟨a, wd', hs', b, c⟩ := v.id2 _ _ _ _ e
      obtain ⟨hs'', x, _⟩ := wkeep _ _ _ c
      exact ⟨a, wd', hs'', b, x⟩
    · rw [ho _ (by rintro rfl; cases hin)] at e
      obtain ⟨a, wd', hs', b, c⟩ := v.id2 _ _ _ _ e
      obtain ⟨hs'', x, _⟩ := wkeep _ _ _ c
      exact ⟨a, wd', hs'', b, x⟩
    · by_cases c : (⟨s, some i⟩ : Dir) = d
      · subst c
        rw [hi] at e; injection e with e; injection e with e1 e2
        exact ⟨e2.symm, wd, _, e1.symm, wself⟩
      · rw [ho _ c (by intro h; injection h with _ h; cases h)] at e
        obtain ⟨a, wd', hs', b, c⟩ := v.id2 _ _ _ _ e
        obtain ⟨hs'', x, _⟩ := wkeep _ _ _ c
        exact ⟨a, wd', hs'', b, x⟩
  · intro s m' ch' e
    have old : ∀ m0 ch0, w.ids ⟨s, none⟩ = some (m0, ch0) → (∀ wd' ∈ ch0, ∃ i hs, w'.watches wd' = some (⟨s, some i⟩, hs)) ∧
        ∀ wd', m0 = some wd' → ∃ hs, w'.watches wd' = some (⟨s, none⟩, hs) := by
      intro m0 ch0 e0
      obtain ⟨a, b⟩ := v.id3 _ _ _ e0
      constructor
      · intro wd' hm
        obtain ⟨i, hs, x⟩ := a wd' hm
        obtain ⟨hs'', y, _⟩ := wkeep _ _ _ x
        exact ⟨i, hs'', y⟩
      · intro wd' hm
        obtain ⟨hs, x⟩ := b wd' hm
        obtain ⟨hs'', y, _⟩ := wkeep _ _ _ x
        exact ⟨hs'', y⟩
    rcases L.ids with ⟨⟨hs1, hx⟩, hi⟩ | ⟨hn, hin, hi, ho, hk, hk'⟩ | ⟨hn, hin, hi, ho, m, ch, ha, hwm, hold⟩
    · rw [hi] at e; exact old _ _ e
    · by_cases c : (⟨s, none⟩ : Dir) = d
      · subst c
        cases h0 : w.ids ⟨s, none⟩ with
        | none =>
          rw [hk' h0] at e; injection e with e; injection e with e1 e2
          subst e1; subst e2
          exact ⟨fun _ h => by simp at h, fun wd' h => by cases h; exact ⟨_, wself⟩⟩
        | some x =>
          rw [hk _ h0] at e; injection e with e; subst e
          exact old _ _ h0
      · rw [ho _ c] at e; exact old _ _ e
    · by_cases c : (⟨s, none⟩ : Dir) = ⟨d.svc, none⟩
      · have hs : s = d.svc := by injection c
        rw [c, ha] at e; injection e with e; injection e with e1 e2
        subst e1; subst e2
        obtain ⟨i, hdi⟩ := Option.ne_none_iff_exists'.mp hin
        have hd' : d = ⟨s, some i⟩ := by rw [hs, ← hdi]
        rcases hold with ⟨a, b1, b2⟩ | ⟨ch0, a, b⟩
        · subst b1; subst b2
          refine ⟨fun wd' h => ?_, fun _ h => by cases h⟩
          rw [List.mem_singleton.mp h]
          exact ⟨i, _, hd' ▸ wself⟩
        · rw [← c] at a
          obtain ⟨x, y⟩ := old _ _ a
          refine ⟨fun wd' h => ?_, y⟩
          rw [b] at h
          rcases mem_insertNew.mp h with rfl | h
          · exact ⟨i, _, hd' ▸ wself⟩
          · exact x _ h
      · rw [ho _ (by rintro rfl; exact hin rfl) c] at e; exact old _ _ e
  · intro q s i hm
    rw [L.known] at hm
    obtain ⟨wd', hs', x⟩ := v.kw _ _ _ hm
    obtain ⟨hs'', y, _⟩ := wkeep _ _ _ x
    exact ⟨wd', hs'', y⟩
  · intro h' S' i e hm
    obtain ⟨S0, a, _, e2, e3, _⟩ := sback _ _ e
    rw [e2]; exact v.pv _ _ _ a (e3 ▸ hm)
  · intro h' S' e
    rcases scase _ _ e with ⟨rfl, rfl⟩ | ⟨_, e⟩
    · exact nodup_insertNew (v.nd _ _ hS)
    · exact v.nd _ _ e

end Verif.Discovery
