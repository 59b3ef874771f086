import Verif.Spec.ArgStore
/-! Lemmas about the storage of method arguments and results. -/
namespace Verif.ArgStore
open CallQueue

/-! ### Layout -/

theorem padding_next (a k : Nat) (hk : 0 < k) : NextMultiple a k (a + padding a k) := by
  unfold padding NextMultiple
  have hm := Nat.mod_lt a hk
  have hd := Nat.div_add_mod a k
  split
  · rename_i h
    exact ⟨Nat.le_refl _, Nat.dvd_of_mod_eq_zero h, fun o' h1 _ => h1⟩
  · rename_i h
    refine ⟨by omega, ⟨a / k + 1, by rw [Nat.mul_add]; omega⟩, ?_⟩
    rintro o' h1 ⟨c, rfl⟩
    have : a / k < c := by
      refine Nat.lt_of_not_le fun hc => ?_
      have := Nat.mul_le_mul_left k hc
      omega
    have := Nat.mul_le_mul_left k this
    rw [Nat.succ_eq_add_one, Nat.mul_add] at this
    omega

theorem padding_add {d k : Nat} (a : Nat) (h : k ∣ d) : padding (d + a) k = padding a k := by
  obtain ⟨c, rfl⟩ := h
  unfold padding
  rw [Nat.mul_add_mod]

/-- The places of the arguments from an offset on. -/
def offsets (off : Nat) : List TypeInfo → List Nat
  | [] => []
  | t :: ts => (off + padding off t.align) :: offsets (off + padding off t.align + t.size) ts

/-- The end of the last one. -/
def endOf (off : Nat) : List TypeInfo → Nat
  | [] => off
  | t :: ts => endOf (off + padding off t.align + t.size) ts

theorem offsets_struct (off : Nat) (ts : List TypeInfo) (h : ∀ t ∈ ts, 0 < t.align) : StructFrom off ts (offsets off ts) (endOf off ts) := by
  induction ts generalizing off with
  | nil => rfl
  | cons t ts ih => exact ⟨padding_next _ _ (h t List.mem_cons_self), ih _ fun t' ht => h t' (List.mem_cons_of_mem _ ht)⟩

theorem pointers_eq (data off : Nat) (ts : List TypeInfo) (h : ∀ t ∈ ts, t.align ∣ data) :
    pointers data off ts = (offsets off ts).map (data + ·) := by
  induction ts generalizing off with
  | nil => rfl
  | cons t ts ih =>
    unfold pointers offsets
    rw [padding_add off (h t List.mem_cons_self), List.map_cons, ← ih _ fun t' ht => h t' (List.mem_cons_of_mem _ ht)]
    congr 1
    · omega
    · congr 1; omega

theorem le_endOf (off : Nat) (ts : List TypeInfo) : off ≤ endOf off ts := by
  induction ts generalizing off with
  | nil => exact Nat.le_refl _
  | cons t ts ih => exact Nat.le_trans (by omega) (ih (off + padding off t.align + t.size))

theorem aggregate_size (ts : List TypeInfo) (i : TypeInfo) : (ts.foldl aggregate i).size = endOf i.size ts := by
  induction ts generalizing i with
  | nil => rfl
  | cons t ts ih =>
    rw [List.foldl_cons, ih]
    show endOf (i.size + (t.size + padding i.size t.align)) ts = endOf (i.size + padding i.size t.align + t.size) ts
    congr 1
    omega

def IsPow (a : Nat) : Prop := ∃ k, k < 64 ∧ a = 2 ^ k

theorem dvd_max {a b : Nat} (ha : IsPow a) (hb : IsPow b) : a ∣ max a b ∧ b ∣ max a b ∧ IsPow (max a b) := by
  obtain ⟨i, hi, rfl⟩ := ha
  obtain ⟨j, hj, rfl⟩ := hb
  rcases Nat.le_total i j with h | h
  · have := Nat.pow_le_pow_right (n := 2) (by decide) h
    rw [Nat.max_eq_right this]
    exact ⟨Nat.pow_dvd_pow 2 h, Nat.dvd_refl _, j, hj, rfl⟩
  · have := Nat.pow_le_pow_right (n := 2) (by decide) h
    rw [Nat.max_eq_left this]
    exact ⟨Nat.dvd_refl _, Nat.pow_dvd_pow 2 h, i, hi, rfl⟩

theorem aggregate_align (ts : List TypeInfo) (i : TypeInfo) (hi : IsPow i.align) (h : ∀ t ∈ ts, IsPow t.align) :
    i.align ∣ (ts.foldl aggregate i).align ∧ (∀ t ∈ ts, t.align ∣ (ts.foldl aggregate i).align) ∧ IsPow (ts.foldl aggregate i).align ∧
    ((ts.foldl aggregate i).align = i.align ∨ ∃ t ∈ ts, (ts.foldl aggregate i).align = t.align) := by
  induction ts generalizing i with
  | nil => exact ⟨Nat.dvd_refl _, fun _ h => by simp at h, hi, .inl rfl⟩
  | cons t ts ih =>
    have ht := h t List.mem_cons_self
    obtain ⟨d1, d2, d3⟩ := dvd_max hi ht
    obtain ⟨a, b, c, d⟩ := ih (aggregate i t) d3 fun t' ht => h t' (List.mem_cons_of_mem _ ht)
    rw [List.foldl_cons]
    refine ⟨Nat.dvd_trans d1 a, ?_, c, ?_⟩
    · intro t' ht'
      rcases List.mem_cons.mp ht' with rfl | ht'
      · exact Nat.dvd_trans d2 a
      · exact b t' ht'
    · rcases d with d | ⟨t', h1, h2⟩
      · rw [d]
        show max i.align t.align = _ ∨ ∃ t' ∈ _, max i.align t.align = _
        rcases Nat.le_total i.align t.align with hl | hl
        · exact .inr ⟨t, List.mem_cons_self, Nat.max_eq_right hl⟩
        · exact .inl (Nat.max_eq_left hl)
      · exact .inr ⟨t', List.mem_cons_of_mem _ h1, h2⟩

/-- The alignment and the size of the whole. -/
theorem sizeInfo_spec (ts : List TypeInfo) (hne : ts ≠ []) (h : ∀ t ∈ ts, IsPow t.align) :
    (∀ t ∈ ts, t.align ∣ (sizeInfo ts).align) ∧ (∃ t ∈ ts, (sizeInfo ts).align = t.align) ∧
    NextMultiple (endOf 0 ts) (sizeInfo ts).align (sizeInfo ts).size := by
  obtain ⟨t, ts, rfl⟩ := List.exists_cons_of_ne_nil hne
  have ht := h t List.mem_cons_self
  have e0 : aggregate ⟨0, 0⟩ t = ⟨t.size, t.align⟩ := by simp [aggregate, padding]
  have hfold : (t :: ts).foldl aggregate ⟨0, 0⟩ = ts.foldl aggregate ⟨t.size, t.align⟩ := by rw [List.foldl_cons, e0]
  obtain ⟨a, b, c, d⟩ := aggregate_align ts ⟨t.size, t.align⟩ ht fun t' ht => h t' (List.mem_cons_of_mem _ ht)
  have hs := aggregate_size (t :: ts) ⟨0, 0⟩
  rw [hfold] at hs
  have hpos : 0 < (ts.foldl aggregate ⟨t.size, t.align⟩).align := by
    obtain ⟨k, _, e⟩ := c
    rw [e]; exact Nat.pow_pos (by decide)
  have hn := padding_next (endOf 0 (t :: ts)) _ hpos
  have hal : (sizeInfo (t :: ts)).align = (ts.foldl aggregate ⟨t.size, t.align⟩).align := by
    unfold sizeInfo
    rw [hfold]; dsimp only; split <;> rfl
  have hsz : (sizeInfo (t :: ts)).size = endOf 0 (t :: ts) + padding (endOf 0 (t :: ts)) (ts.foldl aggregate ⟨t.size, t.align⟩).align := by
    unfold sizeInfo padding
    rw [hfold]; dsimp only at hs ⊢
    rw [← hs]
    by_cases hc : (ts.foldl aggregate ⟨t.size, t.align⟩).size % (ts.foldl aggregate ⟨t.size, t.align⟩).align = 0
    · rw [if_neg (fun x => x.2 hc), if_pos hc]; rfl
    · rw [if_pos ⟨by omega, hc⟩, if_neg hc]
  rw [hal, hsz]
  refine ⟨?_, ?_, hn⟩
  · intro t' ht'
    rcases List.mem_cons.mp ht' with rfl | ht'
    · exact a
    · exact b t' ht'
  · rcases d with d | ⟨t', h1, h2⟩
    · exact ⟨t, List.mem_cons_self, d⟩
    · exact ⟨t', List.mem_cons_of_mem _ h1, h2⟩

theorem objects_of (s : Span) (off : Nat) (ts : List TypeInfo) (h : ∀ t ∈ ts, 0 < t.align ∧ t.align ∣ s.data) (he : endOf off ts ≤ s.size) :
    Objects s ts ((offsets off ts).map (s.data + ·)) ∧
    ∀ (k : Nat) (t' : TypeInfo) (p' : Nat), ts[k]? = some t' → ((offsets off ts).map (s.data + ·))[k]? = some p' → s.data + off ≤ p' := by
  induction ts generalizing off with
  | nil => exact ⟨trivial, fun k t' p' h1 => by simp at h1⟩
  | cons t ts ih =>
    have hn := padding_next off t.align (h t List.mem_cons_self).1
    obtain ⟨h1, h2⟩ := ih (off + padding off t.align + t.size) (fun t' ht => h t' (List.mem_cons_of_mem _ ht)) he
    have hle := le_endOf (off + padding off t.align + t.size) ts
    have he' : endOf (off + padding off t.align + t.size) ts ≤ s.size := he
    refine ⟨⟨(Nat.dvd_add (h t List.mem_cons_self).2 hn.2.1 :), ⟨?_, ?_⟩, ?_, h1⟩, ?_⟩
    · show s.data ≤ s.data + _; omega
    · show s.data + (off + padding off t.align) + t.size ≤ _; omega
    · intro k t' p' e1 e2 x hx
      have := h2 k t' p' e1 e2
      obtain ⟨⟨_, b⟩, ⟨c, _⟩⟩ := hx
      dsimp only at b c
      omega
    · intro k t' p' e1 e2
      cases k with
      | zero =>
        simp [offsets] at e2
        omega
      | succ k =>
        have := h2 k t' p' (by simpa using e1) (by simpa [offsets] using e2)
        omega

/-! ### Memory -/

theorem put_outside {base : Nat} {m : Mem} {p : Nat} {v : List Byte} {x : Nat} (h : base + x < p ∨ p + v.length ≤ base + x) :
    put base m p v x = m x := by
  unfold put
  rw [if_neg (by omega)]

theorem get_congr {base : Nat} {m m' : Mem} {p n : Nat} (hb : base ≤ p) (h : ∀ x, p ≤ base + x → base + x < p + n → m x = m' x) :
    get base m p n = get base m' p n := by
  unfold get
  refine List.map_congr_left fun k hk => ?_
  have := List.mem_range.mp hk
  exact h _ (by omega) (by omega)

theorem get_put {base : Nat} (m : Mem) {p : Nat} {v : List Byte} (hb : base ≤ p) : get base (put base m p v) p v.length = v := by
  refine List.ext_getElem (by simp [get]) fun k h1 h2 => ?_
  simp only [get, List.getElem_map, List.getElem_range]
  unfold put
  rw [if_pos ⟨by omega, by omega⟩]
  have : base + (p + k - base) - p = k := by omega
  rw [this, List.getD_eq_getElem?_getD, List.getElem?_eq_getElem h2]
  rfl

/-- The same bytes, seen by another process. -/
theorem get_other {base base' : Nat} {m : Mem} {o n : Nat} : get base' m (base' + o) n = get base m (base + o) n := by
  unfold get
  refine List.map_congr_left fun k _ => ?_
  congr 1
  omega

theorem putAll_outside {base d off : Nat} {ts : List TypeInfo} {vs : List (List Byte)} (hf : Fit ts vs) (m : Mem) (x : Nat)
    (h : x < d + off ∨ d + endOf off ts ≤ x) :
    putAll base m ((offsets off ts).map (base + d + ·)) vs x = m x := by
  induction ts generalizing off vs m with
  | nil => cases vs <;> rfl
  | cons t ts ih =>
    cases vs with
    | nil => exact hf.elim
    | cons v vs =>
      have hl := hf.1
      have he : endOf off (t :: ts) = endOf (off + padding off t.align + t.size) ts := rfl
      have hle := le_endOf (off + padding off t.align + t.size) ts
      rw [he] at h
      show putAll base (put base m (base + d + (off + padding off t.align)) v) _ vs x = m x
      rw [ih hf.2 _ (by omega), put_outside (by omega)]

/-- What has been written is read, also by another process. -/
theorem getAll_putAll {base base' d off : Nat} {ts : List TypeInfo} {vs : List (List Byte)} (hf : Fit ts vs) (m : Mem) :
    getAll base' (putAll base m ((offsets off ts).map (base + d + ·)) vs) ((offsets off ts).map (base' + d + ·)) ts = vs := by
  induction ts generalizing off vs m with
  | nil =>
    cases vs with
    | nil => rfl
    | cons v vs => exact hf.elim
  | cons t ts ih =>
    cases vs with
    | nil => exact hf.elim
    | cons v vs =>
      have hl := hf.1
      show get base' (putAll base (put base m (base + d + (off + padding off t.align)) v) ((offsets (off + padding off t.align + t.size) ts).map (base + d + ·)) vs)
          (base' + d + (off + padding off t.align)) t.size ::
        getAll base' (putAll base (put base m (base + d + (off + padding off t.align)) v) ((offsets (off + padding off t.align + t.size) ts).map (base + d + ·)) vs)
          ((offsets (off + padding off t.align + t.size) ts).map (base' + d + ·)) ts = v :: vs
      rw [ih hf.2, Nat.add_assoc base' d, get_other (base := base), get_congr (m' := put base m (base + d + (off + padding off t.align)) v) (by omega)]
      · rw [← Nat.add_assoc base d, ← hl, get_put m (by omega)]
      · intro x h1 h2
        exact putAll_outside hf.2 _ _ (by omega)

/-! ### Serialization -/

theorem serialize_eq {base d : Nat} {size off : Nat} (as : List Arg) (m : Mem) (h : ∀ a ∈ as, a.type.align ∣ base + d)
    (he : endOf off (as.map Arg.type) ≤ size) (ho : ∀ a ∈ as, overlapping ⟨base + d, size⟩ a = false) :
    serialize base m ⟨base + d, size⟩ off as =
      some (putAll base m ((offsets off (as.map Arg.type)).map (base + d + ·)) (as.map Arg.value)) := by
  induction as generalizing off m with
  | nil => rfl
  | cons a as ih =>
    have ep := padding_add off (h a List.mem_cons_self)
    have he' : endOf (off + padding off a.type.align + a.type.size) (as.map Arg.type) ≤ size := he
    have hle := le_endOf (off + padding off a.type.align + a.type.size) (as.map Arg.type)
    unfold serialize
    dsimp only
    rw [ep, if_neg (by omega), ho a List.mem_cons_self, if_neg (by simp),
      show off + (a.type.size + padding off a.type.align) = off + padding off a.type.align + a.type.size by omega,
      ih _ (fun x hx => h x (List.mem_cons_of_mem _ hx)) he' fun x hx => ho x (List.mem_cons_of_mem _ hx)]
    rw [show base + d + off + padding off a.type.align = base + d + (off + padding off a.type.align) by omega]
    rfl

theorem serialize_inside {base off : Nat} {m m' : Mem} {buf : Span} (as : List Arg) (ho : off ≤ buf.size)
    (hv : ∀ a ∈ as, a.value.length = a.type.size) (h : serialize base m buf off as = some m') {x : Nat} (hx : ¬ buf.Has (base + x)) :
    m' x = m x := by
  induction as generalizing off m with
  | nil => cases h; rfl
  | cons a as ih =>
    unfold serialize at h
    dsimp only at h
    split at h
    · cases h
    · split at h
      · cases h
      · rename_i h1 _
        rw [ih (by omega) (fun x hx => hv x (List.mem_cons_of_mem _ hx)) h]
        have := hv a List.mem_cons_self
        unfold Span.Has at hx
        exact put_outside (by omega)

end Verif.ArgStore
