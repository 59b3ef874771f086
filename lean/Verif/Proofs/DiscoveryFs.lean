/- The file system and the inotify queue: what activities of others can do. -/
import Verif.Model.Discovery

namespace Verif.Discovery

@[simp] theorem updD_self {α : Type} (f : Dir → α) (d : Dir) (v : α) : updD f d v d = v := by simp [updD]
theorem updD_ne {α : Type} (f : Dir → α) {d d' : Dir} (v : α) (h : d' ≠ d) : updD f d v d' = f d' := by simp [updD, h]

/-- What an event says about flag file `q` of the directory with descriptor `wd`. -/
def fileEv (e : Ev) (wd : Nat) (q : Q) : Option Bool :=
  if e.wd = wd then
    match e.kind with
    | .create q' => if q' = q then some true else none
    | .delete q' => if q' = q then some false else none
    | .mkdir _ => none
  else none

/-- The last event about the flag file. -/
def lastOf : List Ev → Nat → Q → Option Bool
  | [], _, _ => none
  | e :: es, wd, q => (lastOf es wd q).or (fileEv e wd q)

theorem lastOf_append (a b : List Ev) (wd : Nat) (q : Q) : lastOf (a ++ b) wd q = (lastOf b wd q).or (lastOf a wd q) := by
  induction a with
  | nil => simp [lastOf]
  | cons e a ih => simp [lastOf, ih, Option.or_assoc]

theorem lastOf_eq_none {l : List Ev} {wd : Nat} {q : Q} : lastOf l wd q = none ↔ ∀ e ∈ l, fileEv e wd q = none := by
  induction l with
  | nil => simp [lastOf]
  | cons e l ih => simp only [lastOf, Option.or_eq_none_iff, ih, List.mem_cons, forall_eq_or_imp]; exact And.comm

theorem lastOf_none_append {a b : List Ev} {wd : Nat} {q : Q} : lastOf (a ++ b) wd q = none ↔ lastOf a wd q = none ∧ lastOf b wd q = none := by
  rw [lastOf_append, Option.or_eq_none_iff]; exact And.comm

/-- Whether an event fits the directory. -/
def fits (k : Kind) (d : Dir) : Prop :=
  match k with
  | .mkdir _ => d.inst = none
  | .create _ => d.inst ≠ none
  | .delete _ => d.inst ≠ none

/-- The kernel's side. `pre`: events that have been read and are still to be handled. -/
structure KInv (pre : List Ev) (w : World) : Prop where
  lt : ∀ d wd, w.wdOf d = some wd → wd < w.nextWd
  inj : ∀ d d' wd, w.wdOf d = some wd → w.wdOf d' = some wd → d = d'
  evlt : ∀ e ∈ pre ++ w.queue, e.wd < w.nextWd
  fit : ∀ e ∈ pre ++ w.queue, ∀ d, w.wdOf d = some e.wd → fits e.kind d
  wdir : ∀ s i wd, w.wdOf ⟨s, some i⟩ = some wd → i ∈ w.dirs s
  fdir : ∀ s i q, w.file s i q = true → i ∈ w.dirs s

/-- The last event about a watched flag file tells the truth. -/
def Truth (pre : List Ev) (w : World) : Prop :=
  ∀ s i wd q b, w.wdOf ⟨s, some i⟩ = some wd → lastOf (pre ++ w.queue) wd q = some b → b = w.file s i q

/-- What activities can change. -/
structure Grow (w w' : World) : Prop where
  watches : w'.watches = w.watches
  ids : w'.ids = w.ids
  known : w'.known = w.known
  searches : w'.searches = w.searches
  obsolete : w'.obsolete = w.obsolete
  nextH : w'.nextH = w.nextH
  log : w'.log = w.log
  aborted : w'.aborted = w.aborted
  batch : w'.batch = w.batch
  wd : ∀ d wd, w.wdOf d = some wd → w'.wdOf d = some wd
  dirs : ∀ s i, i ∈ w.dirs s → i ∈ w'.dirs s
  queue : ∃ new, w'.queue = w.queue ++ new ∧
    (∀ s i wd q, w.wdOf ⟨s, some i⟩ = some wd → lastOf new wd q = none → w'.file s i q = w.file s i q) ∧
    (∀ s i wd, w.wdOf ⟨s, none⟩ = some wd → i ∈ w'.dirs s → i ∈ w.dirs s ∨ ⟨wd, .mkdir i⟩ ∈ new)

theorem Grow.refl (w : World) : Grow w w :=
  ⟨rfl, rfl, rfl, rfl, rfl, rfl, rfl, rfl, rfl, fun _ _ h => h, fun _ _ h => h,
    [], by simp, fun _ _ _ _ _ _ => rfl, fun _ _ _ _ h => .inl h⟩

theorem Grow.trans {a b c : World} (h : Grow a b) (h' : Grow b c) : Grow a c := by
  obtain ⟨n1, q1, f1, d1⟩ := h.queue
  obtain ⟨n2, q2, f2, d2⟩ := h'.queue
  refine ⟨h'.watches.trans h.watches, h'.ids.trans h.ids, h'.known.trans h.known, h'.searches.trans h.searches,
    h'.obsolete.trans h.obsolete, h'.nextH.trans h.nextH, h'.log.trans h.log, h'.aborted.trans h.aborted, h'.batch.trans h.batch,
    fun d wd x => h'.wd d wd (h.wd d wd x), fun s i x => h'.dirs s i (h.dirs s i x), n1 ++ n2, by rw [q2, q1, List.append_assoc], ?_, ?_⟩
  · intro s i wd q hw hn
    rw [lastOf_none_append] at hn
    rw [f2 s i wd q (h.wd _ _ hw) hn.2, f1 s i wd q hw hn.1]
  · intro s i wd hw hi
    rcases d2 s i wd (h.wd _ _ hw) hi with hi | hi
    · rcases d1 s i wd hw hi with hi | hi
      · exact .inl hi
      · exact .inr (List.mem_append_left _ hi)
    · exact .inr (List.mem_append_right _ hi)

/-- Kernel invariants and growth of one activity. -/
structure Fine (pre : List Ev) (w w' : World) : Prop where
  grow : Grow w w'
  kinv : KInv pre w → KInv pre w'
  truth : KInv pre w → Truth pre w → Truth pre w'

theorem Fine.refl (pre : List Ev) (w : World) : Fine pre w w := ⟨.refl w, id, fun _ => id⟩

theorem Fine.trans {pre : List Ev} {a b c : World} (h : Fine pre a b) (h' : Fine pre b c) : Fine pre a c :=
  ⟨h.grow.trans h'.grow, fun k => h'.kinv (h.kinv k), fun k t => h'.truth (h.kinv k) (h.truth k t)⟩

theorem mkdir_fine (pre : List Ev) (w : World) (s i : Nat) : Fine pre w (mkdir w s i) := by
  unfold mkdir
  by_cases hi : i ∈ w.dirs s
  · rw [if_pos hi]; exact .refl pre w
  · rw [if_neg hi]
    have hdirs : ∀ s' i', i' ∈ w.dirs s' → i' ∈ upd w.dirs s (i :: w.dirs s) s' := by
      intro s' i' h
      by_cases hs : s' = s
      · subst hs; rw [upd_self]; exact List.mem_cons_of_mem _ h
      · rw [upd_ne _ _ hs]; exact h
    unfold notify
    cases hw : w.wdOf { svc := s, inst := none } with
    | none =>
      simp only [hw]
      refine ⟨⟨rfl, rfl, rfl, rfl, rfl, rfl, rfl, rfl, rfl, fun _ _ h => h, hdirs, [], by simp, fun _ _ _ _ _ _ => rfl, ?_⟩, ?_, ?_⟩
      · intro s' i' wd h1 h2
        dsimp only at h2
        by_cases hs : s' = s
        · subst hs; rw [hw] at h1; cases h1
        · rw [upd_ne _ _ hs] at h2; exact .inl h2
      · exact fun k => ⟨k.lt, k.inj, k.evlt, k.fit, fun s i wd h => hdirs _ _ (k.wdir s i wd h), fun s i q h => hdirs _ _ (k.fdir s i q h)⟩
      · exact fun _ t => t
    | some wd0 =>
      simp only [hw]
      refine ⟨⟨rfl, rfl, rfl, rfl, rfl, rfl, rfl, rfl, rfl, fun _ _ h => h, hdirs, [⟨wd0, .mkdir i⟩], rfl, fun _ _ _ _ _ _ => rfl, ?_⟩, ?_, ?_⟩
      · intro s' i' wd h1 h2
        dsimp only at h2
        by_cases hs : s' = s
        · subst hs; rw [hw] at h1; cases h1
          rw [upd_self] at h2
          rcases List.mem_cons.mp h2 with rfl | h2
          · exact .inr (by simp)
          · exact .inl h2
        · rw [upd_ne _ _ hs] at h2; exact .inl h2
      · refine fun k => ⟨k.lt, k.inj, ?_, ?_, fun s i wd h => hdirs _ _ (k.wdir s i wd h), fun s i q h => hdirs _ _ (k.fdir s i q h)⟩
        · intro e he
          rw [← List.append_assoc] at he
          rcases List.mem_append.mp he with he | he
          · exact k.evlt e he
          · rw [List.mem_singleton.mp he]; exact k.lt _ _ hw
        · intro e he d hd
          rw [← List.append_assoc] at he
          rcases List.mem_append.mp he with he | he
          · exact k.fit e he d hd
          · rw [List.mem_singleton.mp he] at hd ⊢
            have := k.inj _ _ _ hd hw
            subst this; rfl
      · intro k t s' i' wd q b h1 h2
        refine t s' i' wd q b h1 ?_
        rw [← h2]; show _ = lastOf (pre ++ (w.queue ++ [_])) wd q
        rw [← List.append_assoc, lastOf_append (pre ++ w.queue)]
        simp [lastOf, fileEv]

theorem setFile_fine (pre : List Ev) (w : World) (s i : Nat) (q : Q) (v : Bool) (k : Kind) (hk : k = if v then .create q else .delete q)
    (hdir : v = true → i ∈ w.dirs s) : Fine pre w (notify (setFile w s i q v) { svc := s, inst := some i } k) := by
  have hne : ∀ s' i' q', ¬(s' = s ∧ i' = i ∧ q' = q) → (setFile w s i q v).file s' i' q' = w.file s' i' q' := by
    intro s' i' q' h; show (if _ then _ else _) = _; rw [if_neg h]
  have hself : (setFile w s i q v).file s i q = v := by show (if _ then _ else _) = _; rw [if_pos ⟨rfl, rfl, rfl⟩]
  have hev : ∀ wd q', fileEv ⟨wd, k⟩ wd q' = if q = q' then some v else none := by
    intro wd q'; subst hk; cases v <;> simp [fileEv]
  have hev' : ∀ wd wd' q', wd ≠ wd' → fileEv ⟨wd, k⟩ wd' q' = none := by
    intro wd wd' q' h; simp [fileEv, h]
  have hfd : (∀ s i q, w.file s i q = true → i ∈ w.dirs s) → ∀ s' i' q', (setFile w s i q v).file s' i' q' = true → i' ∈ w.dirs s' := by
    intro h s' i' q' hf
    by_cases hc : s' = s ∧ i' = i ∧ q' = q
    · obtain ⟨rfl, rfl, rfl⟩ := hc; rw [hself] at hf; exact hdir hf
    · rw [hne _ _ _ hc] at hf; exact h _ _ _ hf
  unfold notify
  cases hw : w.wdOf { svc := s, inst := some i } with
  | none =>
    have hw' : (setFile w s i q v).wdOf { svc := s, inst := some i } = none := hw
    rw [hw']
    dsimp only
    refine ⟨⟨rfl, rfl, rfl, rfl, rfl, rfl, rfl, rfl, rfl, fun _ _ h => h, fun _ _ h => h, [], by simp [setFile], ?_, fun _ _ _ _ h => .inl h⟩, ?_, ?_⟩
    · intro s' i' wd q' h1 _
      refine hne _ _ _ ?_
      rintro ⟨rfl, rfl, _⟩
      rw [hw] at h1; cases h1
    · exact fun k => ⟨k.lt, k.inj, k.evlt, k.fit, k.wdir, hfd k.fdir⟩
    · intro k t s' i' wd q' b h1 h2
      rw [hne]
      · exact t s' i' wd q' b h1 h2
      · rintro ⟨rfl, rfl, _⟩
        have h1' : w.wdOf ⟨s', some i'⟩ = some wd := h1
        rw [hw] at h1'; cases h1'
  | some wd0 =>
    have hw' : (setFile w s i q v).wdOf { svc := s, inst := some i } = some wd0 := hw
    rw [hw']
    dsimp only
    refine ⟨⟨rfl, rfl, rfl, rfl, rfl, rfl, rfl, rfl, rfl, fun _ _ h => h, fun _ _ h => h, [⟨wd0, k⟩], rfl, ?_, fun _ _ _ _ h => .inl h⟩, ?_, ?_⟩
    · intro s' i' wd q' h1 h2
      refine hne _ _ _ ?_
      rintro ⟨rfl, rfl, rfl⟩
      rw [hw] at h1; cases h1
      simp [lastOf, hev] at h2
    · refine fun kv => ⟨kv.lt, kv.inj, ?_, ?_, kv.wdir, hfd kv.fdir⟩
      · intro e he
        rw [← List.append_assoc] at he
        rcases List.mem_append.mp he with he | he
        · exact kv.evlt e he
        · rw [List.mem_singleton.mp he]; exact kv.lt _ _ hw
      · intro e he d hd
        rw [← List.append_assoc] at he
        rcases List.mem_append.mp he with he | he
        · exact kv.fit e he d hd
        · rw [List.mem_singleton.mp he] at hd ⊢
          have := kv.inj _ _ _ hd hw
          subst this; subst hk; cases v <;> simp [fits]
    · intro kv t s' i' wd q' b h1 h2
      have h1' : w.wdOf ⟨s', some i'⟩ = some wd := h1
      have h2' : lastOf (pre ++ (w.queue ++ [⟨wd0, k⟩])) wd q' = some b := h2
      rw [← List.append_assoc, lastOf_append (pre ++ w.queue)] at h2'
      by_cases hc : s' = s ∧ i' = i ∧ q' = q
      · obtain ⟨rfl, rfl, rfl⟩ := hc
        rw [hw] at h1'; cases h1'
        show b = (setFile w _ _ _ v).file _ _ _
        rw [hself]
        simp [lastOf, hev] at h2'
        exact h2'.symm
      · show b = (setFile w _ _ _ v).file _ _ _
        rw [hne _ _ _ hc]
        refine t s' i' wd q' b h1' ?_
        by_cases hwd : wd0 = wd
        · subst hwd
          have := kv.inj _ _ _ h1' hw
          injection this with e1 e2
          injection e2 with e2
          have hq : ¬ q = q' := fun h => hc ⟨e1, e2, h.symm⟩
          simpa [lastOf, hev, hq] using h2'
        · simpa [lastOf, hev' _ _ _ hwd] using h2'

theorem addKernelWatch_fine (pre : List Ev) (w : World) (d : Dir) (hd : ∀ i, d.inst = some i → i ∈ w.dirs d.svc) :
    Fine pre w (addKernelWatch w d).1 ∧ (addKernelWatch w d).1.wdOf d = some (addKernelWatch w d).2 := by
  unfold addKernelWatch
  cases hw : w.wdOf d with
  | some wd => exact ⟨.refl pre w, hw⟩
  | none =>
    dsimp only
    refine ⟨⟨⟨rfl, rfl, rfl, rfl, rfl, rfl, rfl, rfl, rfl, ?_, fun _ _ h => h, [], by simp, fun _ _ _ _ _ _ => rfl, fun _ _ _ _ h => .inl h⟩, ?_, ?_⟩, by simp⟩
    · intro d' wd h
      have hne : d' ≠ d := by rintro rfl; rw [hw] at h; cases h
      dsimp only
      rw [updD_ne _ _ hne]; exact h
    · intro k
      refine ⟨?_, ?_, ?_, ?_, ?_, k.fdir⟩
      · intro d' wd h
        dsimp only at h
        by_cases hne : d' = d
        · subst hne; rw [updD_self] at h; cases h; exact Nat.lt_succ_self _
        · rw [updD_ne _ _ hne] at h; exact Nat.lt_succ_of_lt (k.lt _ _ h)
      · intro d1 d2 wd h1 h2
        dsimp only at h1 h2
        by_cases e1 : d1 = d
        · by_cases e2 : d2 = d
          · rw [e1, e2]
          · rw [e1, updD_self] at h1; rw [updD_ne _ _ e2] at h2
            cases h1; exact absurd (k.lt _ _ h2) (Nat.lt_irrefl _)
        · rw [updD_ne _ _ e1] at h1
          by_cases e2 : d2 = d
          · rw [e2, updD_self] at h2
            cases h2; exact absurd (k.lt _ _ h1) (Nat.lt_irrefl _)
          · rw [updD_ne _ _ e2] at h2; exact k.inj _ _ _ h1 h2
      · exact fun e he => Nat.lt_succ_of_lt (k.evlt e he)
      · intro e he d' h
        dsimp only at h
        by_cases hne : d' = d
        · subst hne; rw [updD_self] at h
          injection h with h
          have := k.evlt e he; rw [← h] at this; exact absurd this (Nat.lt_irrefl _)
        · rw [updD_ne _ _ hne] at h; exact k.fit e he d' h
      · intro s i wd h
        dsimp only at h
        by_cases hne : (⟨s, some i⟩ : Dir) = d
        · subst hne; exact hd i rfl
        · rw [updD_ne _ _ hne] at h; exact k.wdir s i wd h
    · intro k t s i wd q b h1 h2
      by_cases hne : (⟨s, some i⟩ : Dir) = d
      · subst hne
        have h1' : updD w.wdOf ⟨s, some i⟩ (some w.nextWd) ⟨s, some i⟩ = some wd := h1
        rw [updD_self] at h1'; cases h1'
        have h2' : lastOf (pre ++ w.queue) w.nextWd q = some b := h2
        have hn : lastOf (pre ++ w.queue) w.nextWd q = none := by
          rw [lastOf_eq_none]
          intro e he
          have := k.evlt e he
          unfold fileEv
          rw [if_neg (by omega)]
        rw [hn] at h2'; cases h2'
      · have h1' : updD w.wdOf d (some w.nextWd) ⟨s, some i⟩ = some wd := h1
        rw [updD_ne _ _ hne] at h1'
        exact t s i wd q b h1' h2

theorem mkdir_mem (w : World) (s i : Nat) : i ∈ (mkdir w s i).dirs s := by
  unfold mkdir
  by_cases hi : i ∈ w.dirs s
  · rw [if_pos hi]; exact hi
  · rw [if_neg hi]; unfold notify; split <;> simp

theorem mkpath_fine (pre : List Ev) (w : World) (d : Dir) : Fine pre w (mkpath w d) ∧ ∀ i, d.inst = some i → i ∈ (mkpath w d).dirs d.svc := by
  unfold mkpath
  cases hd : d.inst with
  | none => exact ⟨.refl pre w, fun i h => by cases h⟩
  | some i => exact ⟨mkdir_fine pre w _ _, fun j h => by cases h; exact mkdir_mem w _ _⟩

theorem addWatch_fine (pre : List Ev) (w : World) (d : Dir) :
    Fine pre w (addWatch w d).1 ∧ (addWatch w d).1.wdOf d = some (addWatch w d).2 := by
  have h1 := mkpath_fine pre w d
  have h2 := addKernelWatch_fine pre (mkpath w d) d h1.2
  exact ⟨h1.1.trans h2.1, h2.2⟩

theorem act_fine (pre : List Ev) (w : World) (a : Act) : Fine pre w (act w a) := by
  cases a with
  | mkdir s i => exact mkdir_fine pre w s i
  | create s i q =>
    show Fine pre w (if (mkdir w s i).file s i q = true then mkdir w s i else _)
    split
    · exact mkdir_fine pre w s i
    · exact (mkdir_fine pre w s i).trans (setFile_fine pre _ s i q true _ rfl (fun _ => mkdir_mem w s i))
  | delete s i q =>
    show Fine pre w (if w.file s i q = false then w else _)
    split
    · exact .refl pre w
    · exact setFile_fine pre _ s i q false _ rfl (fun h => by cases h)
  | stray d => exact (addWatch_fine pre w d).1

theorem acts_fine (pre : List Ev) (w : World) (l : List Act) : Fine pre w (acts w l) := by
  induction l generalizing w with
  | nil => exact .refl pre w
  | cons a l ih => exact (act_fine pre w a).trans (ih _)

end Verif.Discovery
