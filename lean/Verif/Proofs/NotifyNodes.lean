import Verif.Model.NotifyNodes
namespace Verif.NotifyNodes

theorem mem_lowerBound {set : List Int} {start x : Int} (hs : set.Pairwise (· < ·)) :
    x ∈ lowerBound set start ↔ x ∈ set ∧ start ≤ x := by
  unfold lowerBound
  induction set with
  | nil => simp
  | cons a l ih =>
    rw [List.pairwise_cons] at hs
    rw [List.dropWhile_cons]
    by_cases h : a < start
    · simp only [h, decide_true, if_true, ih hs.2, List.mem_cons]
      constructor
      · rintro ⟨h1, h2⟩; exact ⟨.inr h1, h2⟩
      · rintro ⟨h1 | h1, h2⟩
        · omega
        · exact ⟨h1, h2⟩
    · simp only [h, decide_false, Bool.false_eq_true, if_false, List.mem_cons]
      constructor
      · rintro (h1 | h1)
        · exact ⟨.inl h1, by omega⟩
        · exact ⟨.inr h1, by have := hs.1 x h1; omega⟩
      · exact fun h1 => h1.1

theorem lowerBound_sublist (set : List Int) (start : Int) : (lowerBound set start).Sublist set :=
  List.dropWhile_sublist _

theorem lowerBound_sorted {set : List Int} {start : Int} (hs : set.Pairwise (· < ·)) :
    (lowerBound set start).Pairwise (· < ·) := hs.sublist (lowerBound_sublist set start)

/-- In an ascending list the elements after the first `n` are those greater than the last of the first `n`. -/
theorem last_take {l : List Int} {n : Nat} (hs : l.Pairwise (· < ·)) (hn : 0 < n) (hl : n < l.length) :
    (∀ x ∈ l.take n, x ≤ (l.take n).getLastD 0) ∧ (∀ x ∈ l.drop n, (l.take n).getLastD 0 < x) ∧
      (l.take n).getLastD 0 ∈ l.take n := by
  have hne : l.take n ≠ [] := by
    intro h; have := congrArg List.length h; rw [List.length_take, Nat.min_eq_left (by omega), List.length_nil] at this; omega
  have hlast : (l.take n).getLastD 0 = (l.take n).getLast hne := by
    rw [List.getLastD_eq_getLast?, List.getLast?_eq_some_getLast hne]; rfl
  have hmem := List.getLast_mem hne
  have hsplit : l = l.take n ++ l.drop n := (List.take_append_drop n l).symm
  rw [hsplit] at hs
  rw [List.pairwise_append] at hs
  rw [hlast]
  refine ⟨fun x hx => ?_, fun x hx => hs.2.2 _ hmem x hx, hmem⟩
  have hd := List.dropLast_concat_getLast hne
  rw [← hd, List.mem_append] at hx
  rcases hx with hx | hx
  · have h1 := hs.1
    rw [← hd, List.pairwise_append] at h1
    exact Int.le_of_lt (h1.2.2 x hx _ (by simp))
  · simp only [List.mem_singleton] at hx; omega

theorem loop_succ (sets : Nat → List Int) (start : Int) (i fuel : Nat) :
    loop sets start i (fuel + 1) =
      if (lowerBound (sets i) start).length > bufSize then
        if ((lowerBound (sets i) start).take bufSize).getLastD 0 < maxPid then
          (lowerBound (sets i) start).take bufSize ++
            loop sets (((lowerBound (sets i) start).take bufSize).getLastD 0 + 1) (i + 1) fuel
        else (lowerBound (sets i) start).take bufSize
      else (lowerBound (sets i) start).take bufSize := by
  simp [loop, copyNodes]

/-- What the loop sends is ascending, starts at `start` and each node was in one of the sets. -/
theorem loop_sorted {sets : Nat → List Int} (hs : ∀ i, (sets i).Pairwise (· < ·)) (fuel : Nat) :
    ∀ (start : Int) (i : Nat), (loop sets start i fuel).Pairwise (· < ·) ∧
      ∀ x ∈ loop sets start i fuel, start ≤ x ∧ ∃ j, i ≤ j ∧ j < i + fuel ∧ x ∈ sets j := by
  induction fuel with
  | zero => intro start i; simp [loop]
  | succ fuel ih =>
    intro start i
    have hst := (lowerBound_sorted (start := start) (hs i)).sublist (List.take_sublist bufSize _)
    have hmem : ∀ x ∈ (lowerBound (sets i) start).take bufSize, start ≤ x ∧ x ∈ sets i := by
      intro x hx
      have := (mem_lowerBound (hs i)).mp (List.mem_of_mem_take hx)
      exact ⟨this.2, this.1⟩
    have hpart : ((lowerBound (sets i) start).take bufSize).Pairwise (· < ·) ∧
        ∀ x ∈ (lowerBound (sets i) start).take bufSize, start ≤ x ∧ ∃ j, i ≤ j ∧ j < i + (fuel + 1) ∧ x ∈ sets j :=
      ⟨hst, fun x hx => ⟨(hmem x hx).1, i, Nat.le_refl _, by omega, (hmem x hx).2⟩⟩
    rw [loop_succ]
    split
    · rename_i hlen
      split
      · obtain ⟨h1, h2, h3⟩ := last_take (lowerBound_sorted (start := start) (hs i)) (by decide : 0 < bufSize) hlen
        obtain ⟨k1, k2⟩ := ih (((lowerBound (sets i) start).take bufSize).getLastD 0 + 1) (i + 1)
        constructor
        · rw [List.pairwise_append]
          refine ⟨hst, k1, fun x hx y hy => ?_⟩
          have := h1 x hx
          have := (k2 y hy).1
          omega
        · intro x hx
          rw [List.mem_append] at hx
          rcases hx with hx | hx
          · exact hpart.2 x hx
          · obtain ⟨k3, j, k4, k5, k6⟩ := k2 x hx
            refine ⟨?_, j, by omega, by omega, k6⟩
            have := (hmem _ h3).1
            omega
      · exact hpart
    · exact hpart

/-- A node that is in every set is reached, unless the loop counter ends the loop: then a full buffer was sent in every round. -/
theorem loop_complete {sets : Nat → List Int} (hs : ∀ i, (sets i).Pairwise (· < ·)) (x : Int) (hx : ∀ i, x ∈ sets i)
    (hmax : x ≤ maxPid) (fuel : Nat) :
    ∀ (start : Int) (i : Nat), start ≤ x → x ∈ loop sets start i fuel ∨
      (bufSize * fuel ≤ (loop sets start i fuel).length ∧ ∀ y ∈ loop sets start i fuel, y < x) := by
  induction fuel with
  | zero => intro start i _; exact .inr (by simp [loop])
  | succ fuel ih =>
    intro start i hstart
    have hin : x ∈ lowerBound (sets i) start := (mem_lowerBound (hs i)).mpr ⟨hx i, hstart⟩
    rw [loop_succ]
    by_cases hlen : (lowerBound (sets i) start).length > bufSize
    · rw [if_pos hlen]
      obtain ⟨h1, h2, h3⟩ := last_take (lowerBound_sorted (start := start) (hs i)) (by decide : 0 < bufSize) hlen
      have hcase : x ∈ (lowerBound (sets i) start).take bufSize ∨ x ∈ (lowerBound (sets i) start).drop bufSize := by
        rw [← List.mem_append, List.take_append_drop]; exact hin
      rcases hcase with hc | hc
      · split
        · exact .inl (List.mem_append_left _ hc)
        · exact .inl hc
      · have hlt := h2 x hc
        rw [if_pos (by omega)]
        rcases ih (((lowerBound (sets i) start).take bufSize).getLastD 0 + 1) (i + 1) (by omega) with h | ⟨h, h'⟩
        · exact .inl (List.mem_append_right _ h)
        · refine .inr ⟨?_, ?_⟩
          · rw [List.length_append, List.length_take, Nat.min_eq_left (by omega), Nat.mul_succ]; omega
          · intro y hy
            rw [List.mem_append] at hy
            rcases hy with hy | hy
            · have := h1 y hy; omega
            · exact h' y hy
    · rw [if_neg hlen]
      left
      rw [List.take_of_length_le (by omega)]
      exact hin

/-- For a set that does not change, the loop sends the first `bufSize * fuel` of its nodes from `start` on. -/
theorem loop_const {set : List Int} (hs : set.Pairwise (· < ·)) (hmax : ∀ x ∈ set, x ≤ maxPid) (fuel : Nat) :
    ∀ (start : Int) (i : Nat), loop (fun _ => set) start i fuel = (lowerBound set start).take (bufSize * fuel) := by
  induction fuel with
  | zero => intro start i; simp [loop]
  | succ fuel ih =>
    intro start i
    rw [loop_succ]
    by_cases hlen : (lowerBound set start).length > bufSize
    · rw [if_pos hlen]
      have hsorted := lowerBound_sorted (start := start) hs
      obtain ⟨h1, h2, h3⟩ := last_take hsorted (by decide : 0 < bufSize) hlen
      have hne : (lowerBound set start).drop bufSize ≠ [] := by
        intro h; have := congrArg List.length h; simp at this; omega
      obtain ⟨y, hy⟩ := List.exists_mem_of_ne_nil _ hne
      have hylt := h2 y hy
      have hymem : y ∈ set := ((mem_lowerBound hs).mp (List.mem_of_mem_drop hy)).1
      have hlt : ((lowerBound set start).take bufSize).getLastD 0 < maxPid := by
        have := hmax y hymem; omega
      rw [if_pos hlt, ih]
      have hdrop : lowerBound set (((lowerBound set start).take bufSize).getLastD 0 + 1) =
          (lowerBound set start).drop bufSize := by
        have key : ∀ (l : List Int) (m : Int) (a b : List Int), l = a ++ b → (∀ x ∈ a, x < m) → (∀ x ∈ b, m ≤ x) →
            lowerBound l m = b := by
          intro l m a b hl ha hb
          subst hl
          unfold lowerBound
          rw [List.dropWhile_append_of_pos (by simpa using ha)]
          cases b with
          | nil => rfl
          | cons z zs =>
            rw [List.dropWhile_cons_of_neg]
            have := hb z (by simp)
            simp; omega
        have hpre : set = (set.takeWhile (· < start) ++ (lowerBound set start).take bufSize) ++
            (lowerBound set start).drop bufSize := by
          rw [List.append_assoc, List.take_append_drop]
          exact (List.takeWhile_append_dropWhile).symm
        refine key _ _ _ _ hpre ?_ ?_
        · intro x hx
          rw [List.mem_append] at hx
          rcases hx with hx | hx
          · have hb := List.all_eq_true.mp (List.all_takeWhile (p := fun y => decide (y < start)) (l := set)) x hx
            simp only [decide_eq_true_eq] at hb
            have h4 := ((mem_lowerBound hs).mp (List.mem_of_mem_take h3)).2
            omega
          · have := h1 x hx; omega
        · intro x hx; have := h2 x hx; omega
      rw [hdrop]
      rw [Nat.mul_succ, Nat.add_comm, List.take_add]
    · rw [if_neg hlen, List.take_of_length_le (by omega), List.take_of_length_le]
      rw [Nat.mul_succ]; omega

end Verif.NotifyNodes
