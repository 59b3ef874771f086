import Verif.Model.TimedQueue
/-! Invariant of the timed command queue. -/
namespace Verif.TimedQueue

/-- `a` is to run before `b`. -/
def Before (a b : Entry) : Prop := a.until_ < b.until_ ∨ (a.until_ = b.until_ ∧ a.seq < b.seq)

theorem insert_perm (e : Entry) (l : List Entry) : (insert e l).Perm (e :: l) := by
  induction l with
  | nil => exact List.Perm.refl _
  | cons x l ih =>
    unfold insert
    split
    · exact List.Perm.refl _
    · exact (List.Perm.cons x ih).trans (List.Perm.swap _ _ _)

theorem insert_sorted {e : Entry} {l : List Entry} (h : l.Pairwise Before) (hs : ∀ x ∈ l, x.seq < e.seq) :
    (insert e l).Pairwise Before := by
  induction l with
  | nil => simp [insert]
  | cons x l ih =>
    rw [List.pairwise_cons] at h
    unfold insert
    split
    · rename_i hlt
      refine List.Pairwise.cons ?_ (List.Pairwise.cons h.1 h.2)
      intro y hy
      rcases List.mem_cons.mp hy with rfl | hy
      · exact .inl hlt
      · rcases h.1 y hy with h1 | h1
        · left; omega
        · left; omega
    · rename_i hge
      refine List.Pairwise.cons ?_ (ih h.2 (fun y hy => hs y (List.mem_cons_of_mem _ hy)))
      intro y hy
      rcases List.mem_cons.mp ((insert_perm e l).mem_iff.mp hy) with rfl | hy
      · have := hs x (by simp)
        unfold Before; omega
      · exact h.1 y hy

structure Inv (s : St) : Prop where
  sorted : s.queue.Pairwise Before
  due : ∀ x ∈ s.ran, x.1.until_ ≤ x.2
  perm : (s.queue.map Entry.seq ++ s.ran.map (fun x => x.1.seq) ++ s.removed.map Entry.seq).Perm (List.range s.next)

theorem init_inv : Inv init := ⟨List.Pairwise.nil, by simp [init], by simp [init]⟩

theorem Inv.lt {s : St} (h : Inv s) {e : Entry} (he : e ∈ s.queue) : e.seq < s.next := by
  have := h.perm.mem_iff (a := e.seq)
  simp only [List.mem_append, List.mem_map, List.mem_range] at this
  exact this.mp (.inl (.inl ⟨e, he, rfl⟩))

theorem step_inv {s : St} (h : Inv s) (op : Op) : Inv (step s op) := by
  cases op with
  | register u o =>
    refine ⟨insert_sorted h.sorted (fun x hx => h.lt hx), h.due, ?_⟩
    simp only [step]
    have h1 := (insert_perm ⟨s.next, u, o⟩ s.queue).map Entry.seq
    refine ((h1.append_right _).append_right _).trans ?_
    simp only [List.map_cons, List.cons_append]
    refine (List.Perm.cons s.next h.perm).trans ?_
    rw [List.range_succ]
    exact (List.perm_append_singleton _ _).symm
  | begin n =>
    unfold step; dsimp only
    split
    · exact ⟨h.sorted, h.due, h.perm⟩
    · exact h
  | turn =>
    unfold step; dsimp only
    split
    · exact h
    · exact ⟨h.sorted, h.due, h.perm⟩
    · rename_i n e q _ hq
      split
      · exact ⟨h.sorted, h.due, h.perm⟩
      · rename_i hle
        have hs := h.sorted
        have hp := h.perm
        rw [hq] at hs hp
        refine ⟨(List.pairwise_cons.mp hs).2, ?_, ?_⟩
        · intro x hx
          rcases List.mem_append.mp hx with hx | hx
          · exact h.due x hx
          · simp at hx; subst hx; dsimp only; omega
        · refine List.Perm.trans ?_ hp
          simp only [List.map_append, List.map_cons, List.map_nil, List.cons_append]
          rw [← List.append_assoc, ← List.cons_append]
          exact (List.perm_append_singleton _ _).append_right _
  | cleanUp o =>
    refine ⟨h.sorted.filter _, h.due, List.Perm.trans ?_ h.perm⟩
    simp only [step, List.map_append]
    have h1 : (s.queue.filter (fun e => e.owner == o) ++ s.queue.filter (fun e => !(e.owner == o))).Perm s.queue :=
      List.filter_append_perm _ _
    have h2 := h1.map Entry.seq
    rw [List.map_append] at h2
    have h3 := (h2.symm.append_right (s.ran.map (fun x => x.1.seq))).append_right (s.removed.map Entry.seq)
    refine List.Perm.trans ?_ h3.symm
    generalize (s.queue.filter (fun e => e.owner == o)).map Entry.seq = a
    generalize (s.queue.filter (fun e => !(e.owner == o))).map Entry.seq = b
    generalize s.ran.map (fun x => x.1.seq) = c
    generalize s.removed.map Entry.seq = d
    have : (b ++ c ++ (d ++ a)).Perm (a ++ (b ++ c ++ d)) := by
      rw [← List.append_assoc]; exact List.perm_append_comm
    refine this.trans ?_
    simp [List.append_assoc]

theorem run_inv {s : St} (h : Inv s) (ops : List Op) : Inv (run s ops) := by
  induction ops generalizing s with
  | nil => exact h
  | cons o ops ih => exact ih (step_inv h o)

end Verif.TimedQueue
