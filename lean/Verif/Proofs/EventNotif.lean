import Verif.Spec.EventNotif
namespace Verif.EventNotif

/-! ### Searching a registration number -/

def Sorted (l : List Reg) : Prop := l.Pairwise (fun a b => a.no < b.no)

theorem lowerBound_spec {l : List Reg} {v : Nat} (hs : Sorted l) : ∀ (fuel first len : Nat), len ≤ fuel →
    first + len ≤ l.length → (∀ (j : Nat) (r : Reg), j < first → l[j]? = some r → r.no < v) →
    (∀ (j : Nat) (r : Reg), first + len ≤ j → l[j]? = some r → v ≤ r.no) →
    (∀ (j : Nat) (r : Reg), j < lowerBound l v fuel first len → l[j]? = some r → r.no < v) ∧
    (∀ (j : Nat) (r : Reg), lowerBound l v fuel first len ≤ j → l[j]? = some r → v ≤ r.no) := by
  have mono : ∀ (i j : Nat) (a b : Reg), i < j → l[i]? = some a → l[j]? = some b → a.no < b.no := by
    intro i j a b hij ha hb
    obtain ⟨hi, rfl⟩ := List.getElem?_eq_some_iff.mp ha
    obtain ⟨hj, rfl⟩ := List.getElem?_eq_some_iff.mp hb
    exact List.pairwise_iff_getElem.mp hs i j hi hj hij
  intro fuel
  induction fuel with
  | zero =>
    intro first len h1 h2 h3 h4
    have : len = 0 := by omega
    subst this
    exact ⟨h3, h4⟩
  | succ fuel ih =>
    intro first len h1 h2 h3 h4
    rw [lowerBound]
    split
    · rename_i h0
      subst h0
      exact ⟨h3, h4⟩
    · dsimp only
      have hin : first + len / 2 < l.length := by omega
      rw [List.getElem?_eq_getElem hin]
      dsimp only
      split
      · rename_i hlt
        refine ih _ _ (by omega) (by omega) ?_ ?_
        · intro j r hj hr
          rcases Nat.lt_or_ge j (first + len / 2) with h5 | h5
          · have := mono j _ r _ h5 hr (List.getElem?_eq_getElem hin)
            omega
          · have : j = first + len / 2 := by omega
            subst this
            rw [List.getElem?_eq_getElem hin] at hr
            cases hr
            exact hlt
        · intro j r hj hr
          exact h4 j r (by omega) hr
      · rename_i hge
        refine ih _ _ (by omega) (by omega) h3 ?_
        intro j r hj hr
        rcases Nat.lt_or_ge (first + len / 2) j with h5 | h5
        · have := mono _ j _ r h5 (List.getElem?_eq_getElem hin) hr
          omega
        · have : j = first + len / 2 := by omega
          subst this
          rw [List.getElem?_eq_getElem hin] at hr
          cases hr
          omega

theorem filter_eq_self_of {l : List Reg} {v : Nat} (h : ∀ r ∈ l, r.no ≠ v) : l.filter (·.no != v) = l := by
  rw [List.filter_eq_self]
  intro r hr
  simpa using h r hr

/-- In an ordered list the search finds the number if it is there, and exactly that entry is erased. -/
theorem eraseNo_spec {l : List Reg} {v : Nat} (hs : Sorted l) :
    ((∃ r ∈ l, r.no = v) → eraseNo l v = some (l.filter (·.no != v))) ∧
    ((∀ r ∈ l, r.no ≠ v) → eraseNo l v = none) := by
  obtain ⟨h1, h2⟩ := lowerBound_spec (v := v) hs l.length 0 l.length (Nat.le_refl _) (by omega)
    (by intro j r hj; omega) (by
      intro j r hj hr
      rw [List.getElem?_eq_none (by omega)] at hr
      exact absurd hr (by simp))
  unfold eraseNo
  generalize hi : lowerBound l v l.length 0 l.length = i at h1 h2
  dsimp only
  have mono : ∀ (i j : Nat) (a b : Reg), i < j → l[i]? = some a → l[j]? = some b → a.no < b.no := by
    intro i j a b hij ha hb
    obtain ⟨hi, rfl⟩ := List.getElem?_eq_some_iff.mp ha
    obtain ⟨hj, rfl⟩ := List.getElem?_eq_some_iff.mp hb
    exact List.pairwise_iff_getElem.mp hs i j hi hj hij
  constructor
  · rintro ⟨r, hr, hv⟩
    obtain ⟨k, hk, hkr⟩ := List.mem_iff_getElem.mp hr
    have hk? : l[k]? = some r := by rw [List.getElem?_eq_getElem hk, hkr]
    have hik : i = k := by
      rcases Nat.lt_trichotomy i k with h | h | h
      · have hil : i < l.length := by omega
        have h3 := h2 i _ (Nat.le_refl _) (List.getElem?_eq_getElem hil)
        have h4 := mono i k _ _ h (List.getElem?_eq_getElem hil) hk?
        omega
      · exact h
      · have := h1 k r h hk?
        omega
    subst hik
    rw [hk?]
    dsimp only
    rw [if_pos hv, List.eraseIdx_eq_take_drop_succ]
    congr 1
    have hsplit : l = l.take i ++ r :: l.drop (i + 1) := by
      rw [← hkr, ← List.drop_eq_getElem_cons hk, List.take_append_drop]
    conv => rhs; rw [hsplit]
    rw [List.filter_append, List.filter_cons]
    rw [if_neg (by simp [hv])]
    congr 1
    · refine (filter_eq_self_of ?_).symm
      intro a ha
      obtain ⟨j, hj, hja⟩ := List.mem_take_iff_getElem.mp ha
      have := h1 j a (by omega) (by rw [List.getElem?_eq_getElem (by omega), hja])
      omega
    · refine (filter_eq_self_of ?_).symm
      intro a ha
      obtain ⟨j, hj, hja⟩ := List.mem_drop_iff_getElem.mp ha
      have := mono i (i + 1 + j) r a (by omega) hk? (by rw [List.getElem?_eq_getElem (by omega), ← hja])
      omega
  · intro hno
    cases hl : l[i]? with
    | none => rfl
    | some r =>
      dsimp only
      rw [if_neg]
      exact hno r (List.mem_of_getElem? hl)

theorem sorted_filter {l : List Reg} (hs : Sorted l) (p : Reg → Bool) : Sorted (l.filter p) :=
  hs.sublist List.filter_sublist

/-- Numbers in the list are below the bound. -/
def Below (l : List Reg) (k : Nat) : Prop := ∀ r ∈ l, r.no < k

theorem sorted_snoc {l : List Reg} {k h : Nat} (hs : Sorted l) (hb : Below l k) : Sorted (l ++ [{ no := k, h }]) := by
  unfold Sorted
  rw [List.pairwise_append]
  refine ⟨hs, List.pairwise_singleton _ _, ?_⟩
  intro a ha b hb'
  simp only [List.mem_singleton] at hb'
  subst hb'
  exact hb a ha

theorem below_snoc {l : List Reg} {k h : Nat} (hb : Below l k) : Below (l ++ [{ no := k, h }]) (k + 1) := by
  intro a ha
  rcases List.mem_append.mp ha with h1 | h1
  · have := hb a h1; omega
  · simp only [List.mem_singleton] at h1
    subst h1
    exact Nat.lt_succ_self _

theorem eraseNo_or {l : List Reg} (hs : Sorted l) (v : Nat) :
    (eraseNo l v = some (l.filter (·.no != v)) ∧ ∃ r ∈ l, r.no = v) ∨
    (eraseNo l v = none ∧ l.filter (·.no != v) = l ∧ ∀ r ∈ l, r.no ≠ v) := by
  by_cases h : ∃ r ∈ l, r.no = v
  · exact .inl ⟨(eraseNo_spec hs).1 h, h⟩
  · have h' : ∀ r ∈ l, r.no ≠ v := fun r hr hv => h ⟨r, hr, hv⟩
    exact .inr ⟨(eraseNo_spec hs).2 h', filter_eq_self_of h', h'⟩

/-! ### The table of handlers is what a user expects -/

structure Agrees (s : St) (b : Book) : Prop where
  regs : ∀ e, (s.handlers e).getD [] = b.regs e
  sorted : ∀ e, Sorted (b.regs e)
  below : ∀ e, Below (b.regs e) b.count
  next : s.nextNo = b.count % noMod

theorem registerRemote_handlers (s : St) (e n : Nat) : (registerRemote s e n).handlers = s.handlers := rfl
theorem registerRemote_nextNo (s : St) (e n : Nat) : (registerRemote s e n).nextNo = s.nextNo := rfl

theorem unregisterRemote_handlers (s : St) (e n : Nat) (r : Bool) : (unregisterRemote s e n r).handlers = s.handlers := by
  unfold unregisterRemote; split <;> rfl
theorem unregisterRemote_nextNo (s : St) (e n : Nat) (r : Bool) : (unregisterRemote s e n r).nextNo = s.nextNo := by
  unfold unregisterRemote; split <;> rfl

theorem register_handlers (self : Nat) (s : St) (e h n : Nat) : (register self s e h n).1.handlers =
    upd s.handlers e (some ((s.handlers e).getD [] ++ [{ no := s.nextNo, h }])) := by
  unfold register; dsimp only; split <;> rfl
theorem register_nextNo (self : Nat) (s : St) (e h n : Nat) : (register self s e h n).1.nextNo = (s.nextNo + 1) % noMod := by
  unfold register; dsimp only; split <;> rfl

theorem reregister_handlers (self : Nat) (s : St) (e n : Nat) : (reregister self s e n).handlers = s.handlers := by
  unfold reregister; split
  · rfl
  · split <;> rfl
theorem reregister_nextNo (self : Nat) (s : St) (e n : Nat) : (reregister self s e n).nextNo = s.nextNo := by
  unfold reregister; split
  · rfl
  · split <;> rfl

theorem unregister_nextNo (self : Nat) (s : St) (e no n : Nat) (r : Bool) : (unregister self s e no n r).nextNo = s.nextNo := by
  unfold unregister; split
  · rfl
  · split
    · rfl
    · dsimp only; split
      · rw [unregisterRemote_nextNo]
      · rfl

theorem unregister_handlers {self : Nat} {s : St} {e no n : Nat} {r : Bool} (hs : Sorted ((s.handlers e).getD [])) (e' : Nat) :
    ((unregister self s e no n r).handlers e').getD [] =
      if e' = e then ((s.handlers e).getD []).filter (·.no != no) else (s.handlers e').getD [] := by
  unfold unregister
  cases hh : s.handlers e with
  | none =>
    dsimp only
    split
    · rename_i h; subst h; simp [hh]
    · rfl
  | some l =>
    rw [hh] at hs
    dsimp only [Option.getD_some] at hs ⊢
    rcases eraseNo_or hs no with ⟨h1, _⟩ | ⟨h1, h2, _⟩
    · rw [h1]
      dsimp only
      have : ∀ s1 : St, s1.handlers = upd s.handlers e (some (l.filter (·.no != no))) →
          (s1.handlers e').getD [] = if e' = e then l.filter (·.no != no) else (s.handlers e').getD [] := by
        intro s1 h3
        rw [h3, upd_apply]
        split <;> rfl
      split
      · exact this _ (by rw [unregisterRemote_handlers])
      · exact this _ rfl
    · rw [h1]
      dsimp only
      split
      · rename_i h; subst h; rw [h2, hh]; rfl
      · rfl

theorem agrees_step {self : Nat} {s : St} {b : Book} {o : Op} (h : Agrees s b) (hc : (b.step o).count ≤ noMod) :
    Agrees (step self s o) (b.step o) := by
  cases o with
  | register e hd n =>
    have hlt : b.count < noMod := hc
    have hn : s.nextNo = b.count := by rw [h.next, Nat.mod_eq_of_lt hlt]
    simp only [step, Book.step]
    refine ⟨?_, ?_, ?_, ?_⟩
    · intro e'
      rw [register_handlers]
      dsimp only
      rw [upd_apply, upd_apply]
      split
      · rw [Option.getD_some, h.regs, hn]
      · exact h.regs e'
    · intro e'
      dsimp only
      rw [upd_apply]
      split
      · exact sorted_snoc (h.sorted e) (h.below e)
      · exact h.sorted e'
    · intro e'
      dsimp only
      rw [upd_apply]
      split
      · exact below_snoc (h.below e)
      · intro r hr; have := h.below e' r hr; omega
    · rw [register_nextNo, hn]
  | unregister e no n rd =>
    simp only [step, Book.step]
    refine ⟨?_, ?_, ?_, ?_⟩
    · intro e'
      rw [unregister_handlers (by rw [h.regs]; exact h.sorted e)]
      dsimp only
      rw [upd_apply, h.regs, h.regs]
    · intro e'
      dsimp only
      rw [upd_apply]
      split
      · exact sorted_filter (h.sorted e) _
      · exact h.sorted e'
    · intro e'
      dsimp only
      rw [upd_apply]
      split
      · intro r hr; exact h.below e r ((List.mem_filter.mp hr).1)
      · exact h.below e'
    · rw [unregister_nextNo]; exact h.next
  | reregister e n =>
    simp only [step, Book.step]
    exact ⟨fun e' => by rw [reregister_handlers]; exact h.regs e', h.sorted, h.below, by rw [reregister_nextNo]; exact h.next⟩

theorem book_count_le (b : Book) (ops : List Op) : b.count ≤ (b.run ops).count := by
  induction ops generalizing b with
  | nil => exact Nat.le_refl _
  | cons o os ih =>
    refine Nat.le_trans ?_ (ih (b.step o))
    cases o <;> simp [Book.step]

theorem agrees_run {self : Nat} {ops : List Op} : ∀ {s : St} {b : Book}, Agrees s b → (b.run ops).count ≤ noMod →
    Agrees (run self s ops) (b.run ops) := by
  induction ops with
  | nil => intro s b h _; exact h
  | cons o os ih =>
    intro s b h hc
    exact ih (agrees_step h (Nat.le_trans (book_count_le _ os) hc)) hc

theorem agrees_init : Agrees init Book.empty :=
  ⟨fun _ => rfl, fun _ => List.Pairwise.nil, fun _ r hr => by simp [Book.empty] at hr, rfl⟩

theorem book_run_append (b : Book) (l m : List Op) : b.run (l ++ m) = (b.run l).run m := by
  induction l generalizing b with
  | nil => rfl
  | cons o os ih => exact ih (b.step o)

theorem run_append (self : Nat) (s : St) (l m : List Op) : run self s (l ++ m) = run self (run self s l) m := by
  induction l generalizing s with
  | nil => rfl
  | cons o os ih => exact ih (step self s o)

end Verif.EventNotif
