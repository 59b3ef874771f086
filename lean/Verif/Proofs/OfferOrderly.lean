import Verif.Proofs.Offer
/-! Proofs about offering services when the calls for one instance do not overlap. -/
namespace Verif.Offer

/-- The file is the only one of its instance and quality. -/
def Mine (s : St) (i : Nat) (q : Qual) (p d : Nat) : Prop := ∀ f : File, (f ∈ s.files ∧ f.inst = i ∧ f.q = q) ↔ f = ⟨i, q, p, d⟩

def qualsOf (b : Bool) : List Qual := if b then [.b, .qm] else [.qm]

def entry : Option Offer → List Qual
  | none => []
  | some o => o.quals

def JobInv (s : St) (p : Nat) (j : Job) : Prop :=
  j.made ++ j.q :: j.rest = qualsOf j.asilB ∧ (∀ p', offers s.log p' j.inst = []) ∧ s.tbl p j.inst = none ∧
  ∀ q ∈ j.made, Mine s j.inst q p j.dis

def PcInv (s : St) (p : Nat) : Pc → Prop
  | .idle => True
  | .list j => JobInv s p j
  | .remove j fs failed =>
    JobInv s p j ∧ (∀ f ∈ fs, f.inst = j.inst ∧ f.q = j.q) ∧
    (failed = false → ∀ f ∈ s.files, f.inst = j.inst → f.q = j.q → f ∈ fs)
  | .mkdir j | .create j => JobInv s p j ∧ ∀ f ∈ s.files, f.inst = j.inst → f.q ≠ j.q
  | .perm j => JobInv s p j ∧ Mine s j.inst j.q p j.dis
  | .insert i d b made =>
    made = qualsOf b ∧ (∀ p', offers s.log p' i = []) ∧ s.tbl p i = none ∧ ∀ q ∈ made, Mine s i q p d
  | .undo i d qs _ res =>
    qs.Nodup ∧ (∀ q ∈ qs, Mine s i q p d) ∧ (∀ p', ∀ q ∈ qs, q ∉ offers s.log p' i) ∧ ∀ b, res ≠ .offered b

structure Disc (c : Cfg) (s : St) : Prop where
  one : ∀ t t' i, (s.pc t).inst = some i → (s.pc t').inst = some i → t = t'
  tblQ : ∀ p i, offers s.log p i = entry (s.tbl p i)
  reg : ∀ p i, registered s.log p i = (s.tbl p i).isSome
  nodup : ∀ p i o, s.tbl p i = some o → o.quals.Nodup
  excl : ∀ p p' i q q', q ∈ offers s.log p i → q' ∈ offers s.log p' i → p = p'
  mine : ∀ p i o, s.tbl p i = some o → ∀ q ∈ o.quals, Mine s i q p o.dis
  pc : ∀ t, PcInv s (c t) (s.pc t)

theorem Mine.frame {s s' : St} {i : Nat} {q : Qual} {p d : Nat} (h : Mine s i q p d)
    (hf : ∀ f : File, f.inst = i → f.q = q → (f ∈ s'.files ↔ f ∈ s.files)) : Mine s' i q p d := by
  intro f
  rw [← h f]
  constructor
  · rintro ⟨a, b, e⟩; exact ⟨(hf f b e).mp a, b, e⟩
  · rintro ⟨a, b, e⟩; exact ⟨(hf f b e).mpr a, b, e⟩

theorem Mine.mem {s : St} {i : Nat} {q : Qual} {p d : Nat} (h : Mine s i q p d) : (⟨i, q, p, d⟩ : File) ∈ s.files :=
  ((h _).mpr rfl).1

theorem JobInv.frame {s s' : St} {p : Nat} {j : Job} (h : JobInv s p j)
    (hf : ∀ f : File, f.inst = j.inst → (f ∈ s'.files ↔ f ∈ s.files))
    (ho : ∀ p', offers s'.log p' j.inst = offers s.log p' j.inst ∨ offers s'.log p' j.inst = [])
    (ht : s'.tbl p j.inst = s.tbl p j.inst) : JobInv s' p j := by
  refine ⟨h.1, fun p' => ?_, ht.trans h.2.2.1, fun q hq => (h.2.2.2 q hq).frame (fun f a _ => hf f a)⟩
  rcases ho p' with e | e
  · rw [e]; exact h.2.1 p'
  · exact e

theorem PcInv.frame {s s' : St} {p i : Nat} {pc : Pc} (h : PcInv s p pc) (hi : pc.inst = some i)
    (hf : ∀ f : File, f.inst = i → (f ∈ s'.files ↔ f ∈ s.files))
    (ho : ∀ p', offers s'.log p' i = offers s.log p' i ∨ offers s'.log p' i = [])
    (ht : s'.tbl p i = s.tbl p i) : PcInv s' p pc := by
  cases pc with
  | idle => trivial
  | list j => injection hi with hi; subst hi; exact JobInv.frame h hf ho ht
  | remove j fs failed =>
    injection hi with hi; subst hi
    exact ⟨JobInv.frame h.1 hf ho ht, h.2.1, fun e f hm a b => h.2.2 e f ((hf f a).mp hm) a b⟩
  | mkdir j => injection hi with hi; subst hi; exact ⟨JobInv.frame h.1 hf ho ht, fun f hm a => h.2 f ((hf f a).mp hm) a⟩
  | create j => injection hi with hi; subst hi; exact ⟨JobInv.frame h.1 hf ho ht, fun f hm a => h.2 f ((hf f a).mp hm) a⟩
  | perm j => injection hi with hi; subst hi; exact ⟨JobInv.frame h.1 hf ho ht, h.2.frame (fun f a _ => hf f a)⟩
  | insert i' d b made =>
    injection hi with hi; subst hi
    refine ⟨h.1, fun p' => ?_, ht.trans h.2.2.1, fun q hq => (h.2.2.2 q hq).frame (fun f a _ => hf f a)⟩
    rcases ho p' with e | e
    · rw [e]; exact h.2.1 p'
    · exact e
  | undo i' d qs l r =>
    injection hi with hi; subst hi
    refine ⟨h.1, fun q hq => (h.2.1 q hq).frame (fun f a _ => hf f a), fun p' q hq => ?_, h.2.2.2⟩
    rcases ho p' with e | e
    · rw [e]; exact h.2.2.1 p' q hq
    · rw [e]; exact List.not_mem_nil

/-- A step of thread `t` that concerns only instance `i`. -/
theorem disc_local {c : Cfg} {s s' : St} (h : Disc c s) (i t : Nat) (pc : Pc)
    (hbusy : ∀ t', (s.pc t').inst = some i → t' = t) (hpc : ∀ k, pc.inst = some k → k = i) (hp : s'.pc = upd s.pc t pc)
    (hf : ∀ f : File, f.inst ≠ i → (f ∈ s'.files ↔ f ∈ s.files))
    (ht : ∀ p k, k ≠ i → s'.tbl p k = s.tbl p k)
    (ho : ∀ p k, k ≠ i → offers s'.log p k = offers s.log p k)
    (hr : ∀ p k, k ≠ i → registered s'.log p k = registered s.log p k)
    (tq : ∀ p, offers s'.log p i = entry (s'.tbl p i)) (rg : ∀ p, registered s'.log p i = (s'.tbl p i).isSome)
    (nd : ∀ p o, s'.tbl p i = some o → o.quals.Nodup)
    (ex : ∀ p p' q q', q ∈ offers s'.log p i → q' ∈ offers s'.log p' i → p = p')
    (mn : ∀ p o, s'.tbl p i = some o → ∀ q ∈ o.quals, Mine s' i q p o.dis) (pi : PcInv s' (c t) pc) : Disc c s' where
  one := by
    intro t1 t2 k h1 h2
    rw [hp] at h1 h2
    by_cases e1 : t1 = t <;> by_cases e2 : t2 = t
    · rw [e1, e2]
    · subst e1
      rw [upd_self] at h1
      rw [upd_ne _ _ e2, hpc k h1] at h2
      exact (hbusy t2 h2).symm
    · subst e2
      rw [upd_self] at h2
      rw [upd_ne _ _ e1, hpc k h2] at h1
      exact hbusy t1 h1
    · rw [upd_ne _ _ e1] at h1
      rw [upd_ne _ _ e2] at h2
      exact h.one t1 t2 k h1 h2
  tblQ := by
    intro p k
    by_cases e : k = i
    · rw [e]; exact tq p
    · rw [ho p k e, ht p k e]; exact h.tblQ p k
  reg := by
    intro p k
    by_cases e : k = i
    · rw [e]; exact rg p
    · rw [hr p k e, ht p k e]; exact h.reg p k
  nodup := by
    intro p k o hk
    by_cases e : k = i
    · rw [e] at hk; exact nd p o hk
    · rw [ht p k e] at hk; exact h.nodup p k o hk
  excl := by
    intro p p' k q q' h1 h2
    by_cases e : k = i
    · rw [e] at h1 h2; exact ex p p' q q' h1 h2
    · rw [ho p k e] at h1; rw [ho p' k e] at h2; exact h.excl p p' k q q' h1 h2
  mine := by
    intro p k o hk q hq
    by_cases e : k = i
    · rw [e] at hk ⊢; exact mn p o hk q hq
    · rw [ht p k e] at hk
      exact (h.mine p k o hk q hq).frame (fun f a _ => hf f (by rw [a]; exact e))
  pc := by
    intro t'
    rw [hp]
    by_cases e : t' = t
    · subst e; rw [upd_self]; exact pi
    · rw [upd_ne _ _ e]
      cases hi : (s.pc t').inst with
      | none =>
        cases hk : s.pc t' with
        | idle => trivial
        | _ => rw [hk] at hi; cases hi
      | some k =>
        have ne : k ≠ i := by intro e2; rw [e2] at hi; exact e (hbusy t' hi)
        exact (h.pc t').frame hi (fun f a => hf f (by rw [a]; exact ne)) (fun p' => .inl (ho p' k ne)) (ht _ k ne)

/-- A step of a thread that does not change what is offered. -/
theorem disc_work {c : Cfg} {s s' : St} (h : Disc c s) (i t : Nat) (pc : Pc)
    (hbusy : ∀ t', (s.pc t').inst = some i → t' = t) (hpc : ∀ k, pc.inst = some k → k = i) (hp : s'.pc = upd s.pc t pc)
    (ht : s'.tbl = s.tbl) (ho : ∀ p k, offers s'.log p k = offers s.log p k)
    (hr : ∀ p k, registered s'.log p k = registered s.log p k)
    (hf : ∀ f : File, f.inst ≠ i → (f ∈ s'.files ↔ f ∈ s.files))
    (keep : ∀ p q, q ∈ offers s.log p i → ∀ f : File, f.inst = i → f.q = q → (f ∈ s'.files ↔ f ∈ s.files))
    (pi : PcInv s' (c t) pc) : Disc c s' := by
  refine disc_local h i t pc hbusy hpc hp hf (fun _ _ _ => by rw [ht]) (fun p k _ => ho p k) (fun p k _ => hr p k)
    (fun p => by rw [ho, ht]; exact h.tblQ p i) (fun p => by rw [hr, ht]; exact h.reg p i)
    (fun p o hk => by rw [ht] at hk; exact h.nodup p i o hk)
    (fun p p' q q' h1 h2 => by rw [ho] at h1 h2; exact h.excl p p' i q q' h1 h2) ?_ pi
  intro p o hk q hq
  rw [ht] at hk
  refine (h.mine p i o hk q hq).frame (keep p q ?_)
  rw [h.tblQ, hk]
  exact hq

theorem disc_crash {c : Cfg} {s : St} (h : Disc c s) (p : Nat) : Disc c (crash c s p) where
  one := by
    intro t t' i h1 h2
    refine h.one t t' i ?_ ?_
    · by_cases e : c t = p
      · change Pc.inst (if c t = p then .idle else s.pc t) = _ at h1
        rw [if_pos e] at h1; cases h1
      · change Pc.inst (if c t = p then .idle else s.pc t) = _ at h1
        rw [if_neg e] at h1; exact h1
    · by_cases e : c t' = p
      · change Pc.inst (if c t' = p then .idle else s.pc t') = _ at h2
        rw [if_pos e] at h2; cases h2
      · change Pc.inst (if c t' = p then .idle else s.pc t') = _ at h2
        rw [if_neg e] at h2; exact h2
  tblQ := by
    intro p' i
    show (if p = p' then [] else offers s.log p' i) = entry (upd s.tbl p (fun _ => none) p' i)
    by_cases e : p = p'
    · subst e; rw [if_pos rfl, upd_self]; rfl
    · rw [if_neg e, upd_ne _ _ (Ne.symm e)]; exact h.tblQ p' i
  reg := by
    intro p' i
    show (if p = p' then false else registered s.log p' i) = (upd s.tbl p (fun _ => none) p' i).isSome
    by_cases e : p = p'
    · subst e; rw [if_pos rfl, upd_self]; rfl
    · rw [if_neg e, upd_ne _ _ (Ne.symm e)]; exact h.reg p' i
  nodup := by
    intro p' i o hk
    change upd s.tbl p (fun _ => none) p' i = _ at hk
    by_cases e : p' = p
    · subst e; rw [upd_self] at hk; cases hk
    · rw [upd_ne _ _ e] at hk; exact h.nodup p' i o hk
  excl := by
    intro p1 p2 i q q' h1 h2
    change q ∈ (if p = p1 then [] else offers s.log p1 i) at h1
    change q' ∈ (if p = p2 then [] else offers s.log p2 i) at h2
    split at h1
    · exact absurd h1 List.not_mem_nil
    · split at h2
      · exact absurd h2 List.not_mem_nil
      · exact h.excl p1 p2 i q q' h1 h2
  mine := by
    intro p' i o hk q hq
    change upd s.tbl p (fun _ => none) p' i = _ at hk
    by_cases e : p' = p
    · subst e; rw [upd_self] at hk; cases hk
    · rw [upd_ne _ _ e] at hk; exact h.mine p' i o hk q hq
  pc := by
    intro t
    show PcInv _ (c t) (if c t = p then .idle else s.pc t)
    by_cases e : c t = p
    · rw [if_pos e]; trivial
    · rw [if_neg e]
      cases hi : (s.pc t).inst with
      | none =>
        cases hk : s.pc t with
        | idle => trivial
        | _ => rw [hk] at hi; cases hi
      | some k =>
        refine (h.pc t).frame hi (fun _ _ => Iff.rfl) (fun p' => ?_) ?_
        · show (if p = p' then [] else offers s.log p' k) = _ ∨ (if p = p' then [] else offers s.log p' k) = _
          split
          · exact .inr rfl
          · exact .inl rfl
        · show upd s.tbl p (fun _ => none) (c t) k = _
          rw [upd_ne _ _ e]

/-- Events that leave alone what is offered. -/
def Ev.quiet : Ev → Bool
  | .offered _ _ _ | .stopped _ _ _ | .crashed _ => false
  | _ => true

theorem offers_quiet {e : Ev} (h : e.quiet = true) (log : List Ev) (p i : Nat) : offers (e :: log) p i = offers log p i := by
  cases e <;> first | rfl | cases h

theorem registered_quiet {e : Ev} (h : e.quiet = true) (log : List Ev) (p i : Nat) :
    registered (e :: log) p i = registered log p i := by
  cases e <;> first | rfl | cases h

theorem disc_log {c : Cfg} {s : St} (h : Disc c s) {e : Ev} (he : e.quiet = true) : Disc c { s with log := e :: s.log } where
  one := h.one
  tblQ := fun p i => (offers_quiet he _ _ _).trans (h.tblQ p i)
  reg := fun p i => (registered_quiet he _ _ _).trans (h.reg p i)
  nodup := h.nodup
  excl := by
    intro p p' i q q' h1 h2
    change q ∈ offers (e :: s.log) p i at h1
    change q' ∈ offers (e :: s.log) p' i at h2
    rw [offers_quiet he] at h1 h2
    exact h.excl p p' i q q' h1 h2
  mine := h.mine
  pc := by
    intro t
    cases hi : (s.pc t).inst with
    | none =>
      show PcInv _ _ (s.pc t)
      cases hk : s.pc t with
      | idle => trivial
      | _ => rw [hk] at hi; cases hi
    | some k => exact (h.pc t).frame hi (fun _ _ => Iff.rfl) (fun p' => .inl (offers_quiet he _ _ _)) rfl

/-- Only the place of one thread changes. -/
theorem disc_pc {c : Cfg} {s : St} (h : Disc c s) (i t : Nat) (pc : Pc) (hi : (s.pc t).inst = some i)
    (hpc : ∀ k, pc.inst = some k → k = i) (pi : PcInv s (c t) pc) : Disc c { s with pc := upd s.pc t pc } := by
  refine disc_work h i t pc (fun t' h' => h.one t' t i h' hi) hpc rfl rfl (fun _ _ => rfl) (fun _ _ => rfl) (fun _ _ => Iff.rfl)
    (fun _ _ _ _ _ _ => Iff.rfl) ?_
  cases hk : pc.inst with
  | none => cases pc <;> first | trivial | cases hk
  | some k => exact pi.frame hk (fun _ _ => Iff.rfl) (fun _ => .inl rfl) rfl

theorem nodup_made {a : List Qual} {q : Qual} {r : List Qual} {b : Bool} (h : a ++ q :: r = qualsOf b) : a.Nodup ∧ q ∉ a := by
  have hn : (a ++ q :: r).Nodup := by rw [h]; cases b <;> decide
  rw [List.nodup_append] at hn
  exact ⟨hn.1, fun hm => hn.2.2 q hm q List.mem_cons_self rfl⟩

theorem JobInv.undo {s : St} {p : Nat} {j : Job} (h : JobInv s p j) : PcInv s p (.undo j.inst j.dis j.made false .failed) :=
  ⟨(nodup_made h.1).1, h.2.2.2, fun p' q _ hm => (by rw [h.2.1] at hm; cases hm), fun _ h => (by cases h)⟩

theorem Mine.drop {s s' : St} {i : Nat} {q : Qual} {p d : Nat} (h : Mine s i q p d) (g : File)
    (hf : s'.files = s.files.filter (fun x => x != g)) (hg : ¬ (g.inst = i ∧ g.q = q)) : Mine s' i q p d := by
  refine h.frame (fun f a b => ?_)
  rw [hf, mem_drop]
  exact ⟨fun x => x.1, fun x => ⟨x, fun e => hg (by rw [← e]; exact ⟨a, b⟩)⟩⟩

theorem disc_next {c : Cfg} {s : St} (h : Disc c s) (t : Nat) (ok : Bool) : Disc c (next c s t ok) := by
  have hinv := h.pc t
  unfold next
  dsimp only
  split
  · exact h
  · next j hpc =>
    rw [hpc] at hinv
    refine disc_pc h j.inst t _ (by rw [hpc]; rfl) (fun k hk => by injection hk with hk; exact hk.symm) ⟨hinv, ?_, ?_⟩
    · intro f hf
      have := (List.mem_filter.mp hf).2
      simp only [Bool.and_eq_true, beq_iff_eq] at this
      exact this
    · intro _ f hm a b
      exact List.mem_filter.mpr ⟨hm, by simp [a, b]⟩
  · next j failed hpc =>
    rw [hpc] at hinv
    split
    · exact disc_pc h j.inst t _ (by rw [hpc]; rfl) (fun k hk => by injection hk with hk; exact hk.symm) hinv.1.undo
    · next hff =>
      refine disc_pc h j.inst t _ (by rw [hpc]; rfl) (fun k hk => by injection hk with hk; exact hk.symm) ⟨hinv.1, ?_⟩
      intro f hm a b
      exact absurd (hinv.2.2 (by simpa using hff) f hm a b) List.not_mem_nil
  · next j f fs failed hpc =>
    rw [hpc] at hinv
    obtain ⟨hj, hfs, hall⟩ := hinv
    have hff := hfs f List.mem_cons_self
    split
    · refine disc_work h j.inst t _ (fun t' h' => h.one t' t _ h' (by rw [hpc]; rfl))
        (fun k hk => by injection hk with hk; exact hk.symm) rfl rfl (fun _ _ => rfl) (fun _ _ => rfl) ?_ ?_ ?_
      · intro g hg
        show g ∈ s.files.filter _ ↔ _
        rw [mem_drop]
        exact ⟨fun x => x.1, fun x => ⟨x, fun e => hg (by rw [e]; exact hff.1)⟩⟩
      · intro p q hq; rw [hj.2.1] at hq; cases hq
      · refine ⟨⟨hj.1, hj.2.1, hj.2.2.1, fun q hq => (hj.2.2.2 q hq).drop f rfl ?_⟩, fun g hg => hfs g (List.mem_cons_of_mem _ hg), ?_⟩
        · rintro ⟨-, e⟩
          rw [hff.2] at e
          exact (nodup_made hj.1).2 (by rw [e]; exact hq)
        · intro e g hg a b
          obtain ⟨g1, g2⟩ := mem_drop.mp hg
          rcases List.mem_cons.mp (hall e g g1 a b) with x | x
          · exact absurd x g2
          · exact x
    · exact disc_pc h j.inst t _ (by rw [hpc]; rfl) (fun k hk => by injection hk with hk; exact hk.symm)
        ⟨hj, fun g hg => hfs g (List.mem_cons_of_mem _ hg), fun e => by cases e⟩
  · next j hpc =>
    rw [hpc] at hinv
    split
    · exact disc_pc h j.inst t _ (by rw [hpc]; rfl) (fun k hk => by injection hk with hk; exact hk.symm) hinv
    · exact disc_pc h j.inst t _ (by rw [hpc]; rfl) (fun k hk => by injection hk with hk; exact hk.symm) hinv.1.undo
  · next j hpc =>
    rw [hpc] at hinv
    obtain ⟨hj, hno⟩ := hinv
    split
    · have hfr : ∀ f : File, ¬ (f.inst = j.inst ∧ f.q = j.q) →
          (f ∈ (⟨j.inst, j.q, c t, j.dis⟩ : File) :: s.files.filter (fun g => g != ⟨j.inst, j.q, c t, j.dis⟩) ↔ f ∈ s.files) := by
        intro f hn
        rw [List.mem_cons, mem_drop]
        have hne : f ≠ ⟨j.inst, j.q, c t, j.dis⟩ := by intro e; rw [e] at hn; exact hn ⟨rfl, rfl⟩
        exact ⟨fun x => x.elim (fun e => absurd e hne) (fun x => x.1), fun x => .inr ⟨x, hne⟩⟩
      refine disc_work h j.inst t _ (fun t' h' => h.one t' t _ h' (by rw [hpc]; rfl))
        (fun k hk => by injection hk with hk; exact hk.symm) rfl rfl (fun _ _ => rfl) (fun _ _ => rfl)
        (fun f hf => hfr f (fun e => hf e.1)) ?_ ?_
      · intro p q hq; rw [hj.2.1] at hq; cases hq
      · refine ⟨⟨hj.1, hj.2.1, hj.2.2.1, fun q hq => (hj.2.2.2 q hq).frame (fun f a b => hfr f ?_)⟩, ?_⟩
        · rintro ⟨-, e⟩
          exact (nodup_made hj.1).2 (by rw [← e, b]; exact hq)
        · intro f
          show (f ∈ (_ : File) :: s.files.filter _ ∧ _) ↔ _
          rw [List.mem_cons, mem_drop]
          constructor
          · rintro ⟨x | x, a, b⟩
            · exact x
            · exact absurd b (hno f x.1 a)
          · intro e; rw [e]; exact ⟨.inl rfl, rfl, rfl⟩
    · exact disc_pc h j.inst t _ (by rw [hpc]; rfl) (fun k hk => by injection hk with hk; exact hk.symm) hj.undo
  · next j hpc =>
    rw [hpc] at hinv
    obtain ⟨hj, hm⟩ := hinv
    have hall : ∀ q ∈ j.made ++ [j.q], Mine s j.inst q (c t) j.dis := by
      intro q hq
      rcases List.mem_append.mp hq with x | x
      · exact hj.2.2.2 q x
      · rw [List.mem_singleton.mp x]; exact hm
    split
    · split
      · next hr =>
        refine disc_pc h j.inst t _ (by rw [hpc]; rfl) (fun k hk => by injection hk with hk; exact hk.symm) ⟨?_, hj.2.1, hj.2.2.1, hall⟩
        rw [← hj.1, hr]
      · next q rest hr =>
        refine disc_pc h j.inst t _ (by rw [hpc]; rfl) (fun k hk => by injection hk with hk; exact hk.symm) ⟨?_, hj.2.1, hj.2.2.1, hall⟩
        show (j.made ++ [j.q]) ++ q :: rest = qualsOf j.asilB
        rw [← hj.1, hr, List.append_assoc]; rfl
    · have h' := disc_pc h j.inst t (.undo j.inst j.dis j.made false .failed) (by rw [hpc]; rfl)
        (fun k hk => by injection hk with hk; exact hk.symm) hj.undo
      exact disc_log h' (e := .leaked ⟨j.inst, j.q, c t, j.dis⟩) rfl
  · next inst dis b made hpc =>
    rw [hpc] at hinv
    obtain ⟨hm, hno, htn, hmine⟩ := hinv
    split
    · exact h
    · rw [htn]
      dsimp only
      have hoff : ∀ p, offers (.offered (c t) inst b :: s.log) p inst = if c t = p then made else [] := by
        intro p
        show (if c t = p ∧ inst = inst then (if b then [Qual.b, Qual.qm] else [Qual.qm]) else offers s.log p inst) = _
        by_cases e : c t = p
        · rw [if_pos ⟨e, rfl⟩, if_pos e, hm]; rfl
        · rw [if_neg (fun x => e x.1), if_neg e, hno]
      have htb : ∀ p, upd s.tbl (c t) (upd (s.tbl (c t)) inst (some ⟨dis, made⟩)) p inst =
          if c t = p then some ⟨dis, made⟩ else s.tbl p inst := by
        intro p
        by_cases e : c t = p
        · subst e; rw [if_pos rfl, upd_self, upd_self]
        · rw [if_neg e, upd_ne _ _ (Ne.symm e)]
      refine disc_local h inst t .idle (fun t' h' => h.one t' t _ h' (by rw [hpc]; rfl)) (fun k hk => by cases hk) rfl
        (fun _ _ => Iff.rfl) ?_ ?_ ?_ ?_ ?_ ?_ ?_ ?_ trivial
      · intro p k hk
        show upd s.tbl (c t) _ p k = _
        by_cases e : p = c t
        · rw [e, upd_self, upd_ne _ _ hk]
        · rw [upd_ne _ _ e]
      · intro p k hk
        show (if c t = p ∧ inst = k then _ else offers s.log p k) = _
        rw [if_neg (fun x => hk x.2.symm)]
      · intro p k hk
        show (if c t = p ∧ inst = k then _ else registered s.log p k) = _
        rw [if_neg (fun x => hk x.2.symm)]
      · intro p
        refine (hoff p).trans ?_
        show _ = entry (upd s.tbl (c t) _ p inst)
        rw [htb]
        by_cases e : c t = p
        · rw [if_pos e, if_pos e]; rfl
        · rw [if_neg e, if_neg e, ← h.tblQ, hno]
      · intro p
        show (if c t = p ∧ inst = inst then true else registered s.log p inst) = (upd s.tbl (c t) _ p inst).isSome
        rw [htb]
        by_cases e : c t = p
        · rw [if_pos ⟨e, rfl⟩, if_pos e]; rfl
        · rw [if_neg (fun x => e x.1), if_neg e]; exact h.reg p inst
      · intro p o hk
        change upd s.tbl (c t) _ p inst = _ at hk
        rw [htb] at hk
        split at hk
        · injection hk with hk
          rw [← hk, hm]
          show (qualsOf b).Nodup
          cases b <;> decide
        · exact h.nodup p inst o hk
      · intro p p' q q' h1 h2
        have h1' := hoff p ▸ h1
        have h2' := hoff p' ▸ h2
        split at h1'
        · next e => split at h2'
                    · next e' => rw [← e, ← e']
                    · cases h2'
        · cases h1'
      · intro p o hk q hq
        change upd s.tbl (c t) _ p inst = _ at hk
        rw [htb] at hk
        split at hk
        · next e =>
          injection hk with hk
          subst hk
          rw [← e]
          exact (hmine q hq).frame (fun _ _ _ => Iff.rfl)
        · exact (h.mine p inst o hk q hq).frame (fun _ _ _ => Iff.rfl)
  · next inst d locked res hpc =>
    rw [hpc] at hinv
    have h' := disc_pc h inst t .idle (by rw [hpc]; rfl) (fun k hk => by cases hk) trivial
    cases res with
    | offered b => exact absurd rfl (hinv.2.2.2 b)
    | failed => exact disc_log h' (e := .failed (c t) inst) rfl
    | stopped =>
      refine disc_work h inst t .idle (fun t' h' => h.one t' t _ h' (by rw [hpc]; rfl)) (fun k hk => by cases hk) rfl rfl
        (fun _ _ => rfl) (fun _ _ => rfl) (fun _ _ => Iff.rfl) (fun _ _ _ _ _ _ => Iff.rfl) trivial
  · next inst dis q qs locked res hpc =>
    rw [hpc] at hinv
    obtain ⟨hnd, hmine, hoff, hres⟩ := hinv
    obtain ⟨hq, hnd'⟩ := List.nodup_cons.mp hnd
    split
    · refine disc_work h inst t _ (fun t' h' => h.one t' t _ h' (by rw [hpc]; rfl))
        (fun k hk => by injection hk with hk; exact hk.symm) rfl rfl (fun _ _ => rfl) (fun _ _ => rfl) ?_ ?_ ?_
      · intro g hg
        show g ∈ s.files.filter _ ↔ _
        rw [mem_drop]
        exact ⟨fun x => x.1, fun x => ⟨x, fun e => hg (by rw [e])⟩⟩
      · intro p q' hq' f a b
        show f ∈ s.files.filter _ ↔ _
        rw [mem_drop]
        refine ⟨fun x => x.1, fun x => ⟨x, fun e => ?_⟩⟩
        rw [e] at b
        have b' : q = q' := b
        exact hoff p q List.mem_cons_self (by rw [b']; exact hq')
      · refine ⟨hnd', fun q' hq' => (hmine q' (List.mem_cons_of_mem _ hq')).drop _ rfl ?_,
          fun p' q' hq' => hoff p' q' (List.mem_cons_of_mem _ hq'), hres⟩
        rintro ⟨-, e⟩
        have e' : q = q' := e
        exact hq (by rw [e']; exact hq')
    · exact disc_crash (disc_log h (e := .terminated (c t)) rfl) _

theorem disc_step {c : Cfg} {s : St} (h : Disc c s) (o : Op) (ho : Orderly c s o) : Disc c (step c s o) := by
  cases o with
  | start p d =>
    unfold step; dsimp only
    split
    · exact h
    · refine ⟨h.one, h.tblQ, h.reg, h.nodup, h.excl, h.mine, fun t => ?_⟩
      cases hi : (s.pc t).inst with
      | none =>
        show PcInv _ _ (s.pc t)
        cases hk : s.pc t with
        | idle => trivial
        | _ => rw [hk] at hi; cases hi
      | some k => exact (h.pc t).frame hi (fun _ _ => Iff.rfl) (fun p' => .inl rfl) rfl
  | crash p =>
    unfold step; dsimp only
    split
    · exact disc_crash h p
    · exact h
  | offer t inst b =>
    unfold step; dsimp only
    split
    · exact h
    · have hb : ∀ t', (s.pc t').inst = some inst → t' = t := fun t' h' => absurd ⟨t', h'⟩ ho.1
      have hfr : Disc c { s with dis := upd s.dis (c t) (s.dis (c t) + 1) } := by
        refine ⟨h.one, h.tblQ, h.reg, h.nodup, h.excl, h.mine, fun t' => ?_⟩
        cases hi : (s.pc t').inst with
        | none =>
          show PcInv _ _ (s.pc t')
          cases hk : s.pc t' with
          | idle => trivial
          | _ => rw [hk] at hi; cases hi
        | some k => exact (h.pc t').frame hi (fun _ _ => Iff.rfl) (fun p' => .inl rfl) rfl
      split
      · exact disc_log hfr (e := .failed (c t) inst) rfl
      · next hn =>
        refine disc_work h inst t _ hb ?_ rfl rfl (fun _ _ => rfl) (fun _ _ => rfl) (fun _ _ => Iff.rfl)
          (fun _ _ _ _ _ _ => Iff.rfl) ?_
        · intro k hk; cases b <;> (injection hk with hk; exact hk.symm)
        · have hempty : ∀ p', offers s.log p' inst = [] := by
            intro p'
            by_cases e : p' = c t
            · rw [e, h.tblQ, hn]; rfl
            · exact ho.2 p' e
          cases b
          · exact ⟨rfl, hempty, hn, fun q hq => absurd hq List.not_mem_nil⟩
          · exact ⟨rfl, hempty, hn, fun q hq => absurd hq List.not_mem_nil⟩
  | stop t inst both =>
    unfold step; dsimp only
    split
    · exact h
    · have hb : ∀ t', (s.pc t').inst = some inst → t' = t := fun t' h' => absurd ⟨t', h'⟩ ho
      split
      · exact disc_log h (e := .notOffered (c t) inst) rfl
      · next o hso =>
        have hoq : offers s.log (c t) inst = o.quals := by rw [h.tblQ, hso]; rfl
        have hother : ∀ p q, q ∈ o.quals → p ≠ c t → offers s.log p inst = [] := by
          intro p q hq hp
          apply List.eq_nil_iff_forall_not_mem.mpr
          intro q' hq'
          exact hp (h.excl p (c t) inst q' q hq' (by rw [hoq]; exact hq))
        have go : ∀ (bth : Bool) (x : Option Offer) (qs : List Qual),
            entry x = (if bth then [] else o.quals.filter (· != .qm)) → (!bth) = x.isSome → (∀ o', x = some o' → o'.dis = o.dis) →
            (∀ q, q ∈ qs → q ∈ o.quals ∧ q ∉ entry x) → qs.Nodup →
            Disc c { s with
              tbl := upd s.tbl (c t) (upd (s.tbl (c t)) inst x), lock := upd s.lock (c t) true,
              pc := upd s.pc t (.undo inst o.dis qs true .stopped), log := .stopped (c t) inst bth :: s.log } := by
          intro bth x qs hx hsome hdis hqs hnd
          have hsub : ∀ q ∈ entry x, q ∈ o.quals := by
            intro q hq
            rw [hx] at hq
            cases bth
            · exact (List.mem_filter.mp hq).1
            · cases hq
          have hoff : ∀ p, offers (.stopped (c t) inst bth :: s.log) p inst = if c t = p then entry x else offers s.log p inst := by
            intro p
            show (if c t = p ∧ inst = inst then (if bth then [] else (offers s.log p inst).filter (· != .qm)) else offers s.log p inst) = _
            by_cases e : c t = p
            · rw [if_pos ⟨e, rfl⟩, if_pos e, hx, ← e, hoq]
            · rw [if_neg (fun x => e x.1), if_neg e]
          have htb : ∀ p, upd s.tbl (c t) (upd (s.tbl (c t)) inst x) p inst = if c t = p then x else s.tbl p inst := by
            intro p
            by_cases e : c t = p
            · subst e; rw [if_pos rfl, upd_self, upd_self]
            · rw [if_neg e, upd_ne _ _ (Ne.symm e)]
          refine disc_local h inst t _ hb (fun k hk => by injection hk with hk; exact hk.symm) rfl (fun _ _ => Iff.rfl)
            ?_ ?_ ?_ ?_ ?_ ?_ ?_ ?_ ⟨hnd, ?_, ?_, fun _ hh => by cases hh⟩
          · intro p k hk
            show upd s.tbl (c t) _ p k = _
            by_cases e : p = c t
            · rw [e, upd_self, upd_ne _ _ hk]
            · rw [upd_ne _ _ e]
          · intro p k hk
            show (if c t = p ∧ inst = k then _ else offers s.log p k) = _
            rw [if_neg (fun x => hk x.2.symm)]
          · intro p k hk
            cases bth
            · rfl
            · show (if c t = p ∧ inst = k then _ else registered s.log p k) = _
              rw [if_neg (fun x => hk x.2.symm)]
          · intro p
            refine (hoff p).trans ?_
            show _ = entry (upd s.tbl (c t) _ p inst)
            rw [htb]
            by_cases e : c t = p
            · rw [if_pos e, if_pos e]
            · rw [if_neg e, if_neg e]; exact h.tblQ p inst
          · intro p
            show _ = (upd s.tbl (c t) _ p inst).isSome
            rw [htb]
            cases bth
            · show registered s.log p inst = _
              by_cases e : c t = p
              · rw [if_pos e, ← hsome, ← e, h.reg, hso]; rfl
              · rw [if_neg e]; exact h.reg p inst
            · show (if c t = p ∧ inst = inst then false else registered s.log p inst) = _
              by_cases e : c t = p
              · rw [if_pos ⟨e, rfl⟩, if_pos e, ← hsome]; rfl
              · rw [if_neg (fun x => e x.1), if_neg e]; exact h.reg p inst
          · intro p o' hk
            change upd s.tbl (c t) _ p inst = _ at hk
            rw [htb] at hk
            split at hk
            · have : o'.quals = entry x := by rw [hk]; rfl
              rw [this, hx]
              cases bth
              · exact (h.nodup _ _ _ hso).filter _
              · exact List.nodup_nil
            · exact h.nodup p inst o' hk
          · intro p p' q q' h1 h2
            have h1' := hoff p ▸ h1
            have h2' := hoff p' ▸ h2
            have w : ∀ p q, q ∈ (if c t = p then entry x else offers s.log p inst) → q ∈ offers s.log p inst := by
              intro p q hq
              split at hq
              · next e => rw [← e, hoq]; exact hsub q hq
              · exact hq
            exact h.excl p p' inst q q' (w p q h1') (w p' q' h2')
          · intro p o' hk q hq
            change upd s.tbl (c t) _ p inst = _ at hk
            rw [htb] at hk
            split at hk
            · next e =>
              have hq2 : q ∈ entry x := by rw [hk]; exact hq
              have := h.mine _ _ _ hso q (hsub q hq2)
              rw [hdis o' hk, ← e]
              exact this.frame (fun _ _ _ => Iff.rfl)
            · exact (h.mine p inst o' hk q hq).frame (fun _ _ _ => Iff.rfl)
          · intro q hq
            exact (h.mine _ _ _ hso q (hqs q hq).1).frame (fun _ _ _ => Iff.rfl)
          · intro p' q hq hm
            have hm' := hoff p' ▸ hm
            split at hm'
            · exact (hqs q hq).2 hm'
            · next e => rw [hother p' q (hqs q hq).1 (Ne.symm e)] at hm'; cases hm'
        split
        · exact go true none o.quals rfl rfl (fun _ hh => by cases hh) (fun q hq => ⟨hq, List.not_mem_nil⟩) (h.nodup _ _ _ hso)
        · refine go false (some ⟨o.dis, o.quals.filter (· != .qm)⟩) (o.quals.filter (· == .qm)) rfl rfl
            (fun o' hh => by injection hh with hh; rw [← hh]) (fun q hq => ?_) ((h.nodup _ _ _ hso).filter _)
          obtain ⟨a, b⟩ := List.mem_filter.mp hq
          refine ⟨a, fun hm => ?_⟩
          have := (List.mem_filter.mp hm).2
          simp at b this
          exact this b
  | next t ok => exact disc_next h t ok

theorem disc_run {c : Cfg} {s : St} (h : Disc c s) (ops : List Op) (ho : OrderlyRun c s ops) : Disc c (run c s ops) := by
  induction ops generalizing s with
  | nil => exact h
  | cons o os ih => exact ih (disc_step h o ho.1) ho.2

theorem disc_init (c : Cfg) : Disc c init :=
  ⟨fun _ _ _ h => (by cases h), fun _ _ => rfl, fun _ _ => rfl, fun _ _ _ h => (by cases h), fun _ _ _ _ _ h => (by cases h),
    fun _ _ _ h => (by cases h), fun _ => trivial⟩

/-! ## No termination -/

theorem term_step {c : Cfg} {s : St} (h : Disc c s) (o : Op) (hr : Removable s o) (p : Nat)
    (hm : Ev.terminated p ∈ (step c s o).log) : Ev.terminated p ∈ s.log := by
  cases o with
  | start p d => unfold step at hm; dsimp only at hm; split at hm <;> exact hm
  | crash p =>
    unfold step at hm; dsimp only at hm
    split at hm
    · rcases List.mem_cons.mp hm with x | x
      · cases x
      · exact x
    · exact hm
  | offer t inst b =>
    unfold step at hm; dsimp only at hm
    split at hm
    · exact hm
    · split at hm
      · rcases List.mem_cons.mp hm with x | x
        · cases x
        · exact x
      · exact hm
  | stop t inst both =>
    unfold step at hm; dsimp only at hm
    split at hm
    · exact hm
    · split at hm
      · rcases List.mem_cons.mp hm with x | x
        · cases x
        · exact x
      · split at hm
        · rcases List.mem_cons.mp hm with x | x
          · cases x
          · exact x
        · rcases List.mem_cons.mp hm with x | x
          · cases x
          · exact x
  | next t ok =>
    have hinv := h.pc t
    change Ev.terminated p ∈ (next c s t ok).log at hm
    have hcons : ∀ {e : Ev}, e ≠ .terminated p → Ev.terminated p ∈ e :: s.log → Ev.terminated p ∈ s.log := by
      intro e he hh
      rcases List.mem_cons.mp hh with x | x
      · exact absurd x.symm he
      · exact x
    cases hpc : s.pc t with
    | idle => unfold next at hm; rw [hpc] at hm; exact hm
    | list j => unfold next at hm; rw [hpc] at hm; exact hm
    | remove j fs failed =>
      cases fs with
      | nil => unfold next at hm; rw [hpc] at hm; dsimp only at hm; split at hm <;> exact hm
      | cons f fs => unfold next at hm; rw [hpc] at hm; dsimp only at hm; split at hm <;> exact hm
    | mkdir j => unfold next at hm; rw [hpc] at hm; dsimp only at hm; split at hm <;> exact hm
    | create j =>
      unfold next at hm; rw [hpc] at hm; dsimp only at hm
      split at hm
      · exact hcons (by intro x; cases x) hm
      · exact hm
    | perm j =>
      unfold next at hm; rw [hpc] at hm; dsimp only at hm
      split at hm
      · split at hm <;> exact hm
      · exact hcons (by intro x; cases x) hm
    | insert i d b made =>
      unfold next at hm; rw [hpc] at hm; dsimp only at hm
      split at hm
      · exact hm
      · split at hm
        · exact hcons (by intro x; cases x) hm
        · exact hm
    | undo i d qs l r =>
      cases qs with
      | nil =>
        unfold next at hm; rw [hpc] at hm; dsimp only at hm
        cases r with
        | offered b => exact hcons (by intro x; cases x) hm
        | failed => exact hcons (by intro x; cases x) hm
        | stopped => exact hm
      | cons q qs =>
        have hok : ok = true := by
          unfold Removable at hr
          dsimp only at hr
          rw [hpc] at hr
          exact hr
        rw [hpc] at hinv
        have hmem := (hinv.2.1 q List.mem_cons_self).mem
        unfold next at hm; rw [hpc] at hm; dsimp only at hm
        rw [if_pos (by rw [hok]; simpa using hmem)] at hm
        exact hm

theorem term_run {c : Cfg} {s : St} (h : Disc c s) (ops : List Op) (ho : OrderlyRun c s ops) (hr : RemovableRun c s ops) (p : Nat)
    (hm : Ev.terminated p ∈ (run c s ops).log) : Ev.terminated p ∈ s.log := by
  induction ops generalizing s with
  | nil => exact hm
  | cons o os ih => exact term_step h o hr.1 p (ih (disc_step h o ho.1) ho.2 hr.2 hm)

end Verif.Offer
