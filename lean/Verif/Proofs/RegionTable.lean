import Verif.Spec.RegionTable
/-! Lemmas on the region table. -/
namespace Verif.RegionTable

def Before (a b : Nat × Nat) : Prop := a.1 < b.1 ∧ a.2 ≤ b.1

structure Wf (t : Table) : Prop where
  sorted : t.Pairwise Before
  forward : ∀ r ∈ t, r.1 ≤ r.2

theorem wf_nil : Wf [] := ⟨List.Pairwise.nil, by simp⟩

/-- The entries below and above a start. -/
theorem split_at_key {t : Table} (h : t.Pairwise Before) {s : Nat} (hk : hasKey t s = false) :
    t = t.filter (fun r => r.1 < s) ++ t.filter (fun r => s < r.1) := by
  induction t with
  | nil => rfl
  | cons r t ih =>
    have hs := List.pairwise_cons.mp h
    simp only [hasKey, List.any_cons, Bool.or_eq_false_iff, beq_eq_false_iff_ne] at hk
    have hih := ih hs.2 (by simpa [hasKey] using hk.2)
    by_cases hr : r.1 < s
    · rw [List.filter_cons_of_pos (by simpa using hr), List.filter_cons_of_neg (by simp; omega), List.cons_append, ← hih]
    · have hlt : s < r.1 := by omega
      have hnone : t.filter (fun r => decide (r.1 < s)) = [] := by
        rw [List.filter_eq_nil_iff]
        intro x hx
        have := (hs.1 x hx).1
        simp; omega
      rw [List.filter_cons_of_neg (by simpa using hr), List.filter_cons_of_pos (by simpa using hlt), hnone]
      rw [hnone] at hih
      simp only [List.nil_append] at hih ⊢
      rw [← hih]

theorem insert_append {l r : Table} {s e : Nat} (hl : ∀ x ∈ l, x.1 < s) (hr : ∀ x ∈ r, s < x.1) :
    insert s e (l ++ r) = l ++ (s, e) :: r := by
  induction l with
  | nil =>
    cases r with
    | nil => rfl
    | cons x r => simp only [List.nil_append, insert]; rw [if_pos (hr x (by simp))]
  | cons x l ih =>
    simp only [List.cons_append, insert]
    have := hl x (by simp)
    rw [if_neg (by omega), ih (fun y hy => hl y (List.mem_cons_of_mem _ hy))]

theorem getLast?_sorted {l : Table} (h : l.Pairwise Before) {r : Nat × Nat} (hr : l.getLast? = some r) :
    r ∈ l ∧ ∀ x ∈ l, x = r ∨ Before x r := by
  induction l with
  | nil => simp at hr
  | cons a l ih =>
    have hs := List.pairwise_cons.mp h
    cases l with
    | nil =>
      simp only [List.getLast?_singleton, Option.some.injEq] at hr
      subst hr
      simp
    | cons b l =>
      have hr' : (b :: l).getLast? = some r := by rw [← hr]; simp [List.getLast?_cons_cons]
      obtain ⟨h1, h2⟩ := ih hs.2 hr'
      refine ⟨List.mem_cons_of_mem _ h1, ?_⟩
      intro x hx
      rcases List.mem_cons.mp hx with rfl | hx
      · exact Or.inr (hs.1 r h1)
      · exact h2 x hx

theorem insert_wf {t : Table} (h : Wf t) {s e : Nat} (hse : s ≤ e) (hk : hasKey t s = false) (ho : overlaps s e t = false) :
    Wf (insert s e t) ∧ ∀ r, r ∈ insert s e t ↔ r = (s, e) ∨ r ∈ t := by
  have hsplit := split_at_key h.sorted hk
  have hl : ∀ x ∈ t.filter (fun r => decide (r.1 < s)), x.1 < s := by
    intro x hx; simpa using (List.mem_filter.mp hx).2
  have hr : ∀ x ∈ t.filter (fun r => decide (s < r.1)), s < x.1 := by
    intro x hx; simpa using (List.mem_filter.mp hx).2
  have hins : insert s e t = t.filter (fun r => r.1 < s) ++ (s, e) :: t.filter (fun r => s < r.1) := by
    conv => lhs; rw [hsplit]
    exact insert_append hl hr
  have hmem : ∀ r, r ∈ insert s e t ↔ r = (s, e) ∨ r ∈ t := by
    intro r
    rw [hins]
    conv => rhs; rw [hsplit]
    simp only [List.mem_append, List.mem_cons]
    constructor
    · rintro (h | h | h)
      · exact Or.inr (Or.inl h)
      · exact Or.inl h
      · exact Or.inr (Or.inr h)
    · rintro (h | h | h)
      · exact Or.inr (Or.inl h)
      · exact Or.inl h
      · exact Or.inr (Or.inr h)
  refine ⟨⟨?_, ?_⟩, hmem⟩
  · simp only [overlaps, Bool.or_eq_false_iff] at ho
    obtain ⟨o1, o2⟩ := ho
    have hlow : ∀ x ∈ t.filter (fun r => decide (r.1 < s)), Before x (s, e) := by
      intro x hx
      have hss : (t.filter (fun r => decide (r.1 < s))).Pairwise Before := h.sorted.filter _
      cases hg : (t.filter (fun r => decide (r.1 < s))).getLast? with
      | none => rw [List.getLast?_eq_none_iff] at hg; rw [hg] at hx; simp at hx
      | some r =>
        obtain ⟨g1, g2⟩ := getLast?_sorted hss hg
        simp only [prevOf, hg, decide_eq_false_iff_not] at o1
        have hr1 := hl r g1
        refine ⟨hl x hx, ?_⟩
        rcases g2 x hx with rfl | g
        · omega
        · have := g.2; dsimp only; omega
    have hhigh : ∀ x ∈ t.filter (fun r => decide (s < r.1)), Before (s, e) x := by
      intro x hx
      refine ⟨hr x hx, ?_⟩
      have hx' := List.mem_filter.mp hx
      cases hg : t.find? (fun r => decide (s < r.1)) with
      | none =>
        rw [List.find?_eq_none] at hg
        exact absurd hx'.2 (hg x hx'.1)
      | some r =>
        simp only [nextOf, hg, decide_eq_false_iff_not] at o2
        obtain ⟨_, l1, l2, rfl, g3⟩ := List.find?_eq_some_iff_append.mp hg
        have hxm := hx'.1
        simp only [List.mem_append, List.mem_cons] at hxm
        rcases hxm with hxm | rfl | hxm
        · have := g3 x hxm; have h2 := hx'.2; simp at this h2; omega
        · dsimp only; omega
        · have hp := h.sorted
          rw [List.pairwise_append] at hp
          have := (List.pairwise_cons.mp hp.2.1).1 x hxm
          have := this.1
          dsimp only; omega
    rw [hins, List.pairwise_append]
    refine ⟨h.sorted.filter _, ?_, ?_⟩
    · rw [List.pairwise_cons]
      exact ⟨hhigh, h.sorted.filter _⟩
    · intro a ha b hb
      rcases List.mem_cons.mp hb with rfl | hb
      · exact hlow a ha
      · have h1 := hlow a ha
        have h2 := hr b hb
        have h3 := h1.1
        have h4 := h1.2
        exact ⟨by dsimp only at h3; omega, by dsimp only at h4; omega⟩
  · intro r hr'
    rcases (hmem r).mp hr' with rfl | hr'
    · exact hse
    · exact h.forward r hr'

theorem remove_wf {t : Table} (h : Wf t) (s : Nat) :
    Wf (t.filter (fun r => r.1 ≠ s)) ∧ ∀ r, r ∈ t.filter (fun r => r.1 ≠ s) ↔ r.1 ≠ s ∧ r ∈ t := by
  refine ⟨⟨h.sorted.filter _, fun r hr => h.forward r (List.mem_filter.mp hr).1⟩, ?_⟩
  intro r
  rw [List.mem_filter]
  simp [and_comm]

/-- The table holds exactly the live regions. -/
theorem build_live {t t' : Table} {us h : List Upd} (hw : Wf t) (hf : Forward us) (hl : ∀ r, r ∈ t ↔ Live h r)
    (hb : build t us = some t') : Wf t' ∧ ∀ r, r ∈ t' ↔ Live (us.reverse ++ h) r := by
  induction us generalizing t h with
  | nil =>
    simp only [build, Option.some.injEq] at hb
    subst hb
    exact ⟨hw, by simpa using hl⟩
  | cons u us ih =>
    have hf' : Forward us := fun s e hm => hf s e (List.mem_cons_of_mem _ hm)
    simp only [build] at hb
    have key : ∀ t1, apply t u = .ok t1 → Wf t1 ∧ ∀ r, r ∈ t1 ↔ Live (u :: h) r := by
      intro t1 ha
      cases u with
      | add s e =>
        simp only [apply] at ha
        split at ha
        · simp at ha
        · split at ha
          · simp at ha
          · rename_i h1 h2
            simp only [Res.ok.injEq] at ha
            subst ha
            obtain ⟨w1, w2⟩ := insert_wf hw (hf s e (by simp)) (by simpa using h1) (by simpa using h2)
            refine ⟨w1, fun r => ?_⟩
            rw [w2 r, hl r]; rfl
      | remove s =>
        simp only [apply] at ha
        split at ha
        · simp only [Res.ok.injEq] at ha
          subst ha
          obtain ⟨w1, w2⟩ := remove_wf hw s
          refine ⟨w1, fun r => ?_⟩
          rw [w2 r, hl r]; rfl
        · simp at ha
      | clear =>
        simp only [apply, Res.ok.injEq] at ha
        subst ha
        exact ⟨wf_nil, fun r => by simp [Live]⟩
    split at hb
    · rename_i t1 ht1
      obtain ⟨k1, k2⟩ := key t1 ht1
      have := ih (h := u :: h) k1 hf' k2 hb
      simpa using this
    · simp at hb

theorem lookup_some {t : Table} {p : Nat} {r : Nat × Nat} (h : lookup t p = some r) : r ∈ t ∧ r.1 ≤ p ∧ p ≤ r.2 := by
  unfold lookup at h
  split at h
  · simp at h
  · rename_i x hx
    split at h
    · rename_i hc
      simp only [Option.some.injEq] at h
      subst h
      have := List.mem_of_getLast? hx
      exact ⟨(List.mem_filter.mp this).1, hc⟩
    · simp at h

theorem lookup_inside {t : Table} (hw : Wf t) {p : Nat} {r : Nat × Nat} (hr : r ∈ t) (h1 : r.1 ≤ p) (h2 : p < r.2) :
    lookup t p = some r := by
  have hs : (t.filter (fun r => decide (r.1 ≤ p))).Pairwise Before := hw.sorted.filter _
  have hm : r ∈ t.filter (fun r => decide (r.1 ≤ p)) := List.mem_filter.mpr ⟨hr, by simpa using h1⟩
  unfold lookup
  cases hg : (t.filter (fun r => decide (r.1 ≤ p))).getLast? with
  | none => rw [List.getLast?_eq_none_iff] at hg; rw [hg] at hm; simp at hm
  | some x =>
    obtain ⟨g1, g2⟩ := getLast?_sorted hs hg
    have hx : x.1 ≤ p := by simpa using (List.mem_filter.mp g1).2
    rcases g2 r hm with rfl | g
    · dsimp only; rw [if_pos ⟨h1, by omega⟩]
    · have := g.2; omega

theorem lookup_none {t : Table} (hw : Wf t) {p : Nat} : lookup t p = none ↔ ∀ r ∈ t, ¬ (r.1 ≤ p ∧ p ≤ r.2) := by
  have hs : (t.filter (fun r => decide (r.1 ≤ p))).Pairwise Before := hw.sorted.filter _
  constructor
  · intro h r hr hc
    have hm : r ∈ t.filter (fun r => decide (r.1 ≤ p)) := List.mem_filter.mpr ⟨hr, by simpa using hc.1⟩
    unfold lookup at h
    cases hg : (t.filter (fun r => decide (r.1 ≤ p))).getLast? with
    | none => rw [List.getLast?_eq_none_iff] at hg; rw [hg] at hm; simp at hm
    | some x =>
      obtain ⟨g1, g2⟩ := getLast?_sorted hs hg
      have hx : x.1 ≤ p := by simpa using (List.mem_filter.mp g1).2
      have hxx := hw.forward x (List.mem_filter.mp g1).1
      rw [hg] at h
      dsimp only at h
      split at h
      · simp at h
      · rename_i hn
        rcases g2 r hm with rfl | g
        · exact hn hc
        · have := g.2; omega
  · intro h
    cases hl : lookup t p with
    | none => rfl
    | some r =>
      obtain ⟨h1, h2⟩ := lookup_some hl
      exact absurd h2 (h r h1)

theorem disjoint_of_wf {t : Table} (hw : Wf t) {r r' : Nat × Nat} (hr : r ∈ t) (hr' : r' ∈ t) (hne : r ≠ r') :
    r.1 ≠ r'.1 ∧ (r.2 ≤ r'.1 ∨ r'.2 ≤ r.1) := by
  obtain ⟨l1, l2, rfl⟩ := List.append_of_mem hr
  have hp := List.pairwise_append.mp hw.sorted
  simp only [List.mem_append, List.mem_cons] at hr'
  rcases hr' with h | rfl | h
  · have := hp.2.2 r' h r (by simp)
    exact ⟨by have := this.1; omega, Or.inr this.2⟩
  · exact absurd rfl hne
  · have := (List.pairwise_cons.mp hp.2.1).1 r' h
    exact ⟨by have := this.1; omega, Or.inl this.2⟩

theorem hasKey_iff {t : Table} {s : Nat} : hasKey t s = true ↔ ∃ r ∈ t, r.1 = s := by
  simp [hasKey]

/-- The neighbours decide about all regions. -/
theorem overlaps_iff {t : Table} (hw : Wf t) {s e : Nat} (hse : s < e) (hk : hasKey t s = false)
    (hne : ∀ r ∈ t, r.1 < r.2) : overlaps s e t = true ↔ ∃ r ∈ t, s < r.2 ∧ r.1 < e := by
  have hsplit := split_at_key hw.sorted hk
  constructor
  · intro h
    simp only [overlaps, Bool.or_eq_true] at h
    rcases h with h | h
    · split at h
      · rename_i r hr
        have := List.mem_of_getLast? hr
        have hm := List.mem_filter.mp this
        have h1 := hm.2
        simp only [decide_eq_true_eq] at h h1
        exact ⟨r, hm.1, h, by omega⟩
      · simp at h
    · split at h
      · rename_i r hr
        have h1 := List.find?_some hr
        have h2 := List.mem_of_find?_eq_some hr
        simp only [decide_eq_true_eq] at h h1
        exact ⟨r, h2, by have := hne r h2; omega, h⟩
      · simp at h
  · rintro ⟨r, hr, h1, h2⟩
    cases ho : overlaps s e t with
    | true => rfl
    | false =>
      exfalso
      obtain ⟨w, hm⟩ := insert_wf hw (Nat.le_of_lt hse) hk ho
      have hrs : r ≠ (s, e) := by
        rintro rfl
        have : hasKey t s = true := hasKey_iff.mpr ⟨_, hr, rfl⟩
        rw [hk] at this; simp at this
      have := disjoint_of_wf w ((hm r).mpr (Or.inr hr)) ((hm (s, e)).mpr (Or.inl rfl)) hrs
      rcases this.2 with h | h <;> dsimp only at h <;> omega

end Verif.RegionTable
