import Verif.Model.PidMap
/-! Ownership of the entries of the pid mapping. -/
namespace Verif.PidMap
open Verif

/-- Entry `i` belongs to application `a`. -/
def Owns (s : St) (i a : Nat) : Prop := (s.key i).1 ≠ .unused ∧ (s.key i).2 = a

/-- What the program counter of application `a` says about the entries. -/
def PcInv (s : St) (a : Nat) : Prop :=
  match s.pc a with
  | .idle => True
  | .find i => (∀ j, j < i → ¬ Owns s j a) ∧ s.last a = s.prev a
  | .readOld i => s.key i = (.used, a) ∧ s.last a = s.prev a ∧ i < s.n
  | .writeOver i old => s.key i = (.used, a) ∧ s.last a = s.prev a ∧ old = s.pid i ∧ i < s.n
  | .takeWrite i => s.key i = (.updating, a) ∧ s.last a = s.prev a ∧ i < s.n
  | .takeKey i => s.key i = (.updating, a) ∧ s.pid i = s.cur a ∧ s.last a = some (s.cur a) ∧ i < s.n
  | .scan _ _ => (∀ j, ¬ Owns s j a) ∧ s.last a = s.prev a
  | .cas _ i _ => (∀ j, ¬ Owns s j a) ∧ s.last a = s.prev a ∧ i < s.n
  | .newWrite i => s.key i = (.updating, a) ∧ s.last a = s.prev a ∧ i < s.n
  | .newKey i => s.key i = (.updating, a) ∧ s.pid i = s.cur a ∧ s.last a = some (s.cur a) ∧ i < s.n
  | .done none => ∀ j, ¬ Owns s j a
  | .done (some r) => (r = s.cur a ∨ s.prev a = some r) ∧ ∃ i, i < s.n ∧ s.key i = (.used, a) ∧ s.pid i = s.cur a

structure AppInv (s : St) (a : Nat) : Prop where
  uniq : ∀ i j, Owns s i a → Owns s j a → i = j
  bound : ∀ i, Owns s i a → i < s.n
  lastUsed : ∀ i, s.key i = (.used, a) → s.last a = some (s.pid i)
  pcs : PcInv s a

theorem init_inv (n a : Nat) : AppInv (init n) a := by
  constructor <;> simp [Owns, init, PcInv]

/-- What a step of another application may change, seen from application `a`. -/
structure Frame (a : Nat) (s t : St) : Prop where
  n : t.n = s.n
  pc : t.pc a = s.pc a
  cur : t.cur a = s.cur a
  last : t.last a = s.last a
  prev : t.prev a = s.prev a
  ent : ∀ i, (t.key i = s.key i ∧ t.pid i = s.pid i) ∨ (¬ Owns s i a ∧ ¬ Owns t i a)

theorem owns_of_key {s : St} {i a : Nat} {st : Status} (h : s.key i = (st, a)) (hs : st ≠ .unused) : Owns s i a := by
  unfold Owns; rw [h]; exact ⟨hs, rfl⟩

theorem Frame.owns {a : Nat} {s t : St} (f : Frame a s t) (i : Nat) : Owns t i a ↔ Owns s i a := by
  rcases f.ent i with ⟨h1, -⟩ | ⟨h1, h2⟩
  · unfold Owns; rw [h1]
  · exact ⟨fun h => absurd h h2, fun h => absurd h h1⟩

theorem Frame.key {a : Nat} {s t : St} (f : Frame a s t) {i : Nat} (h : Owns s i a) :
    t.key i = s.key i ∧ t.pid i = s.pid i := by
  rcases f.ent i with h1 | ⟨h1, -⟩
  · exact h1
  · exact absurd h h1

theorem Frame.keep {a : Nat} {s t : St} (f : Frame a s t) (h : AppInv s a) : AppInv t a := by
  have hu : ∀ i st, st ≠ .unused → s.key i = (st, a) → t.key i = (st, a) ∧ t.pid i = s.pid i := by
    intro i st hst hk
    have := f.key (owns_of_key hk hst)
    exact ⟨this.1.trans hk, this.2⟩
  refine ⟨?_, ?_, ?_, ?_⟩
  · intro i j hi hj; exact h.uniq i j ((f.owns i).mp hi) ((f.owns j).mp hj)
  · intro i hi; rw [f.n]; exact h.bound i ((f.owns i).mp hi)
  · intro i hk
    have ho := (f.owns i).mp (owns_of_key hk (by simp))
    have := f.key ho
    rw [f.last, this.2]; exact h.lastUsed i (this.1.symm.trans hk)
  · have hp := h.pcs
    unfold PcInv at hp ⊢
    rw [f.pc]
    revert hp
    cases s.pc a with
    | idle => exact id
    | find i => rintro ⟨h1, h2⟩; exact ⟨fun j hj ho => h1 j hj ((f.owns j).mp ho), by rw [f.last, f.prev, h2]⟩
    | readOld i => rintro ⟨h1, h2, h3⟩; exact ⟨(hu i _ (by simp) h1).1, by rw [f.last, f.prev, h2], by rw [f.n]; exact h3⟩
    | writeOver i old =>
      rintro ⟨h1, h2, h3, h4⟩
      exact ⟨(hu i _ (by simp) h1).1, by rw [f.last, f.prev, h2], by rw [(hu i _ (by simp) h1).2, h3], by rw [f.n]; exact h4⟩
    | takeWrite i => rintro ⟨h1, h2, h3⟩; exact ⟨(hu i _ (by simp) h1).1, by rw [f.last, f.prev, h2], by rw [f.n]; exact h3⟩
    | newWrite i => rintro ⟨h1, h2, h3⟩; exact ⟨(hu i _ (by simp) h1).1, by rw [f.last, f.prev, h2], by rw [f.n]; exact h3⟩
    | takeKey i =>
      rintro ⟨h1, h2, h3, h4⟩
      exact ⟨(hu i _ (by simp) h1).1, by rw [(hu i _ (by simp) h1).2, h2, f.cur], by rw [f.last, f.cur, h3], by rw [f.n]; exact h4⟩
    | newKey i =>
      rintro ⟨h1, h2, h3, h4⟩
      exact ⟨(hu i _ (by simp) h1).1, by rw [(hu i _ (by simp) h1).2, h2, f.cur], by rw [f.last, f.cur, h3], by rw [f.n]; exact h4⟩
    | scan r i => rintro ⟨h1, h2⟩; exact ⟨fun j ho => h1 j ((f.owns j).mp ho), by rw [f.last, f.prev, h2]⟩
    | cas r i w =>
      rintro ⟨h1, h2, h3⟩; exact ⟨fun j ho => h1 j ((f.owns j).mp ho), by rw [f.last, f.prev, h2], by rw [f.n]; exact h3⟩
    | done r =>
      cases r with
      | none => intro h1 j ho; exact h1 j ((f.owns j).mp ho)
      | some r =>
        rintro ⟨h1, i, h2, h3, h4⟩
        exact ⟨by rw [f.cur, f.prev]; exact h1, i, by rw [f.n]; exact h2, (hu i _ (by simp) h3).1,
          by rw [(hu i _ (by simp) h3).2, f.cur]; exact h4⟩

theorem go_frame {s : St} {a b : Nat} (hab : a ≠ b) (hb : AppInv s b) (sp : Bool) : Frame a s (go s b sp) := by
  have hp := hb.pcs
  unfold PcInv at hp
  have hnot : ∀ (k : Nat → Status × Nat) i st, k i = (st, b) → ¬ ((k i).1 ≠ .unused ∧ (k i).2 = a) := by
    intro k i st hk; rw [hk]; rintro ⟨-, h⟩; exact hab h.symm
  unfold go
  split <;> rename_i hpc <;> (try rw [hpc] at hp)
  all_goals try simp only at hp
  all_goals repeat' split
  all_goals refine ⟨rfl, ?_, rfl, ?_, rfl, ?_⟩
  all_goals first
    | rfl
    | exact upd_ne _ _ hab
    | exact fun i => .inl ⟨rfl, rfl⟩
    | skip
  -- entries
  · rename_i j old
    intro i; show (_ ∧ upd s.pid j _ i = _) ∨ _
    by_cases hi : i = j
    · subst hi; exact .inr ⟨hnot s.key i _ hp.1, hnot s.key i _ hp.1⟩
    · exact .inl ⟨rfl, upd_ne _ _ hi⟩
  · rename_i j
    intro i; show (_ ∧ upd s.pid j _ i = _) ∨ _
    by_cases hi : i = j
    · subst hi; exact .inr ⟨hnot s.key i _ hp.1, hnot s.key i _ hp.1⟩
    · exact .inl ⟨rfl, upd_ne _ _ hi⟩
  · rename_i j
    intro i
    by_cases hi : i = j
    · subst hi; exact .inr ⟨hnot s.key i _ hp.1, hnot (upd s.key i (.used, b)) i .used (upd_self ..)⟩
    · exact .inl ⟨upd_ne _ _ hi, rfl⟩
  · rename_i r j w hc
    intro i
    by_cases hi : i = j
    · subst hi
      refine .inr ⟨?_, hnot (upd s.key i (.updating, b)) i .updating (upd_self ..)⟩
      unfold Owns; rw [hc.1]; simp
    · exact .inl ⟨upd_ne _ _ hi, rfl⟩
  · rename_i j
    intro i; show (_ ∧ upd s.pid j _ i = _) ∨ _
    by_cases hi : i = j
    · subst hi; exact .inr ⟨hnot s.key i _ hp.1, hnot s.key i _ hp.1⟩
    · exact .inl ⟨rfl, upd_ne _ _ hi⟩
  · rename_i j
    intro i
    by_cases hi : i = j
    · subst hi; exact .inr ⟨hnot s.key i _ hp.1, hnot (upd s.key i (.used, b)) i .used (upd_self ..)⟩
    · exact .inl ⟨upd_ne _ _ hi, rfl⟩

/-- Only the program counter of `a` changes. -/
theorem AppInv.setPc {s : St} {a : Nat} (h : AppInv s a) {p : Pc}
    (hp : PcInv { s with pc := upd s.pc a p } a) : AppInv { s with pc := upd s.pc a p } a :=
  ⟨h.uniq, h.bound, h.lastUsed, hp⟩

/-- The pid of an owned entry and the ghost are written. -/
theorem AppInv.write {s : St} {a i : Nat} (h : AppInv s a) {p : Pc} (ho : Owns s i a)
    (hp : PcInv { s with pid := upd s.pid i (s.cur a), last := upd s.last a (some (s.cur a)), pc := upd s.pc a p } a) :
    AppInv { s with pid := upd s.pid i (s.cur a), last := upd s.last a (some (s.cur a)), pc := upd s.pc a p } a := by
  refine ⟨h.uniq, h.bound, ?_, hp⟩
  intro j hk
  have : j = i := h.uniq j i (owns_of_key (s := s) hk (by simp)) ho
  subst this
  show upd s.last a _ a = some (upd s.pid j _ j)
  rw [upd_self, upd_self]

/-- The key of an entry of `a` becomes used. -/
theorem AppInv.setUsed {s : St} {a i : Nat} (h : AppInv s a) {p : Pc} (hk : s.key i = (.updating, a))
    (hpid : s.pid i = s.cur a) (hl : s.last a = some (s.cur a))
    (hp : PcInv { s with key := upd s.key i (.used, a), pc := upd s.pc a p } a) :
    AppInv { s with key := upd s.key i (.used, a), pc := upd s.pc a p } a := by
  have hoi := owns_of_key hk (by simp)
  have ho : ∀ j, Owns { s with key := upd s.key i (.used, a), pc := upd s.pc a p } j a → Owns s j a := by
    intro j
    unfold Owns; simp only [upd]; split
    · rename_i e; subst e; intro _; exact hoi
    · exact id
  refine ⟨fun j k hj hk' => h.uniq j k (ho j hj) (ho k hk'), fun j hj => h.bound j (ho j hj), ?_, hp⟩
  intro j hj
  have hji : j = i := h.uniq j i (ho j (owns_of_key hj (by simp))) hoi
  subst hji
  show s.last a = some (s.pid j)
  rw [hl, hpid]

theorem go_self {s : St} {a : Nat} (h : AppInv s a) (sp : Bool) : AppInv (go s a sp) a := by
  have hp := h.pcs
  unfold PcInv at hp
  unfold go
  split <;> rename_i hpc <;> (try rw [hpc] at hp) <;> try simp only at hp
  · -- find
    rename_i i
    split
    · rename_i hi
      split
      · rename_i hk
        exact h.setPc (by simp only [PcInv, upd_self]; exact ⟨hk, hp.2, hi⟩)
      · rename_i hk
        split
        · rename_i hk2
          exact h.setPc (by simp only [PcInv, upd_self]; exact ⟨hk2, hp.2, hi⟩)
        · rename_i hk2
          refine h.setPc ?_
          simp only [PcInv, upd_self]
          refine ⟨?_, hp.2⟩
          intro j hj ho
          by_cases hji : j = i
          · subst hji
            obtain ⟨h1, h2⟩ := ho
            change (s.key j).1 ≠ _ at h1
            change (s.key j).2 = a at h2
            rcases hkk : s.key j with ⟨st, id⟩
            rw [hkk] at h1 h2 hk hk2
            simp only at h1 h2; subst h2
            cases st <;> simp_all
          · exact hp.1 j (by omega) ho
    · rename_i hi
      refine h.setPc ?_
      simp only [PcInv, upd_self]
      exact ⟨fun j ho => hp.1 j (by have := h.bound j ho; omega) ho, hp.2⟩
  · -- readOld
    exact h.setPc (by simp only [PcInv, upd_self]; exact ⟨hp.1, hp.2.1, trivial, hp.2.2⟩)
  · -- writeOver
    rename_i i old
    refine h.write (owns_of_key hp.1 (by simp)) ?_
    simp only [PcInv, upd_self]
    refine ⟨.inr ?_, i, hp.2.2.2, hp.1, upd_self ..⟩
    rw [← hp.2.1, h.lastUsed i hp.1, hp.2.2.1]
  · -- takeWrite
    rename_i i
    refine h.write (owns_of_key hp.1 (by simp)) ?_
    simp only [PcInv, upd_self]
    exact ⟨hp.1, trivial, trivial, hp.2.2⟩
  · -- takeKey
    rename_i i
    refine h.setUsed hp.1 hp.2.1 hp.2.2.1 ?_
    simp only [PcInv, upd_self]
    exact ⟨.inl trivial, i, hp.2.2.2, upd_self .., hp.2.1⟩
  · -- scan
    split
    · split
      · rename_i hi
        split
        · exact h.setPc (by simp only [PcInv, upd_self]; exact ⟨hp.1, hp.2, hi⟩)
        · exact h.setPc (by simp only [PcInv, upd_self]; exact hp)
      · exact h.setPc (by simp only [PcInv, upd_self]; exact hp)
    · exact h.setPc (by simp only [PcInv, upd_self]; exact hp.1)
  · -- cas
    rename_i r i w
    split
    · rename_i hc
      have ho : ∀ j, Owns { s with key := upd s.key i (.updating, a), pc := upd s.pc a (.newWrite i) } j a → j = i := by
        intro j
        unfold Owns; simp only [upd]; split
        · rename_i e; exact fun _ => e
        · intro h2; exact absurd h2 (hp.1 j)
      refine ⟨fun j k hj hk => (ho j hj).trans (ho k hk).symm, fun j hj => by rw [ho j hj]; exact hp.2.2, ?_, ?_⟩
      · intro j hj
        have := ho j (owns_of_key hj (by simp))
        subst this
        simp only [upd_self] at hj
        cases hj
      · simp only [PcInv, upd_self]; exact ⟨trivial, hp.2.1, hp.2.2⟩
    · exact h.setPc (by simp only [PcInv, upd_self]; exact ⟨hp.1, hp.2.1⟩)
  · -- newWrite
    rename_i i
    refine h.write (owns_of_key hp.1 (by simp)) ?_
    simp only [PcInv, upd_self]
    exact ⟨hp.1, trivial, trivial, hp.2.2⟩
  · -- newKey
    rename_i i
    refine h.setUsed hp.1 hp.2.1 hp.2.2.1 ?_
    simp only [PcInv, upd_self]
    exact ⟨.inl trivial, i, hp.2.2.2, upd_self .., hp.2.1⟩
  · exact h

theorem step_inv {s : St} (h : ∀ a, AppInv s a) (op : Op) (a : Nat) : AppInv (step s op) a := by
  cases op with
  | go b sp =>
    by_cases hab : a = b
    · subst hab; exact go_self (h a) sp
    · exact (go_frame hab (h b) sp).keep (h a)
  | crash b =>
    by_cases hab : a = b
    · subst hab; exact (h a).setPc (by simp only [PcInv, upd_self])
    · exact Frame.keep (s := s) ⟨rfl, upd_ne _ _ hab, rfl, rfl, rfl, fun i => .inl ⟨rfl, rfl⟩⟩ (h a)
  | register b pid =>
    have key : AppInv { s with cur := upd s.cur b pid, prev := upd s.prev b (s.last b), pc := upd s.pc b (.find 0) } a := by
      by_cases hab : a = b
      · subst hab
        refine ⟨(h a).uniq, (h a).bound, (h a).lastUsed, ?_⟩
        simp only [PcInv, upd_self]
        exact ⟨fun j hj => absurd hj (by omega), trivial⟩
      · exact Frame.keep (s := s) ⟨rfl, upd_ne _ _ hab, upd_ne _ _ hab, rfl, upd_ne _ _ hab, fun i => .inl ⟨rfl, rfl⟩⟩ (h a)
    simp only [step]
    split
    · exact key
    · exact key
    · exact h a

theorem run_inv {s : St} (h : ∀ a, AppInv s a) (ops : List Op) : ∀ a, AppInv (run s ops) a := by
  induction ops generalizing s with
  | nil => exact h
  | cons op ops ih => exact ih (step_inv h op)

theorem run_n (s : St) (ops : List Op) : (run s ops).n = s.n := by
  induction ops generalizing s with
  | nil => rfl
  | cons op ops ih =>
    refine (ih (step s op)).trans ?_
    cases op <;> simp only [step, go] <;> repeat' split
    all_goals rfl

end Verif.PidMap
