import Verif.Spec.GwSerial
/-! Lemmas about the gateway serialisation. -/
namespace Verif.GwSerial

/-- Values that survive serialisation. -/
def Good : (t : Ty) → Val t → Prop
  | .str, v => CString (show List UInt8 from v)
  | .triv n, v => (show List UInt8 from v).length = n
  | .vec e, v => (show List (Val e) from v).length ≤ 65535 ∧ ∀ x ∈ (show List (Val e) from v), Good e x
  | .unit, _ => True
  | .cons a b, v => Good a v.1 ∧ Good b v.2

theorem le_length (k v : Nat) : (le k v).length = k := by
  induction k generalizing v with
  | zero => rfl
  | succ k ih => simp [le, ih]

theorem fromLe_le (k v : Nat) : fromLe (le k v) = v % 256 ^ k := by
  induction k generalizing v with
  | zero => simp [le, fromLe, Nat.mod_one]
  | succ k ih =>
    simp only [le, fromLe, ih, UInt8.toNat_ofNat']
    have h : v % 256 ^ (k + 1) = v % 256 + 256 * (v / 256 % 256 ^ k) := by
      rw [Nat.pow_succ, Nat.mul_comm (256 ^ k) 256, Nat.mod_mul]
    rw [h]
    omega

theorem serList_ok {α : Type} (f : α → Nat → Option (List UInt8)) (g : α → Nat) (l : List α)
    (h : ∀ x ∈ l, ∀ room, g x ≤ room → ∃ b, f x room = some b ∧ b.length = g x) (room : Nat)
    (hr : sizeList g l ≤ room) : ∃ b, serList f l room = some b ∧ b.length = sizeList g l := by
  induction l generalizing room with
  | nil => exact ⟨[], rfl, rfl⟩
  | cons x xs ih =>
    simp only [sizeList] at hr
    obtain ⟨b, hb, hbl⟩ := h x (by simp) room (by omega)
    obtain ⟨c, hc, hcl⟩ := ih (fun y hy => h y (by simp [hy])) (room - b.length) (by omega)
    refine ⟨b ++ c, ?_, ?_⟩
    · simp only [serList, hb, hc]
    · simp only [List.length_append, sizeList]; omega

theorem ser_ok (t : Ty) (v : Val t) (hg : Good t v) (room : Nat) (hr : size t v ≤ room) :
    ∃ b, ser t v room = some b ∧ b.length = size t v := by
  induction t generalizing room with
  | str =>
    simp only [size] at hr
    refine ⟨(show List UInt8 from v) ++ [0], ?_, ?_⟩
    · simp only [ser]; rw [if_neg (by omega)]
    · simp only [size]; exact List.length_append
  | triv n =>
    simp only [size] at hr
    refine ⟨v, ?_, ?_⟩
    · simp only [ser]; rw [if_neg (by omega)]
    · exact hg
  | vec e ih =>
    simp only [size] at hr
    obtain ⟨b, hb, hbl⟩ := serList_ok (ser e) (size e) v (fun x hx room => ih x (hg.2 x hx) room) (room - 2) (by omega)
    refine ⟨le 2 (show List (Val e) from v).length ++ b, ?_, ?_⟩
    · simp only [ser]
      rw [if_neg (by have h : List.length _ ≤ 65535 := hg.1; exact Nat.not_lt.mpr h), if_neg (by omega), hb]
    · simp only [size, List.length_append, le_length]; omega
  | unit => exact ⟨[], rfl, rfl⟩
  | cons a b iha ihb =>
    simp only [size] at hr
    obtain ⟨x, hx, hxl⟩ := iha v.1 hg.1 room (by omega)
    obtain ⟨y, hy, hyl⟩ := ihb v.2 hg.2 (room - x.length) (by omega)
    refine ⟨x ++ y, ?_, ?_⟩
    · simp only [ser, hx, hy]
    · simp only [size, List.length_append]; omega

/-- The memory holds the bytes `b` at `off`. -/
def Holds (m : Nat → UInt8) (off : Nat) (b : List UInt8) : Prop := ∀ (i : Nat) (h : i < b.length), m (off + i) = b[i]

theorem Holds.left {m : Nat → UInt8} {off : Nat} {b c : List UInt8} (h : Holds m off (b ++ c)) : Holds m off b := by
  intro i hi
  rw [h i (by simp; omega), List.getElem_append_left hi]

theorem Holds.right {m : Nat → UInt8} {off : Nat} {b c : List UInt8} (h : Holds m off (b ++ c)) :
    Holds m (off + b.length) c := by
  intro i hi
  have := h (b.length + i) (by simp; omega)
  rw [List.getElem_append_right (by omega)] at this
  rw [Nat.add_assoc, this]
  congr 1
  omega

theorem bytesAt_holds {m : Nat → UInt8} {off : Nat} {b : List UInt8} (h : Holds m off b) :
    bytesAt m off b.length = b := by
  apply List.ext_getElem
  · simp [bytesAt]
  · intro i h1 h2
    simp only [bytesAt, List.getElem_map, List.getElem_range]
    exact h i h2

theorem strnlen_holds {m : Nat → UInt8} {off : Nat} {s : List UInt8} (len : Nat) (h : Holds m off (s ++ [0]))
    (hz : 0 ∉ s) (hl : s.length < len) : (strnlen m off len).1 = s.length := by
  induction s generalizing off len with
  | nil =>
    obtain ⟨n, rfl⟩ : ∃ n, len = n + 1 := ⟨len - 1, by simp at hl; omega⟩
    have h0 := h 0 (by simp)
    simp at h0
    simp [strnlen, h0]
  | cons x s ih =>
    obtain ⟨n, rfl⟩ : ∃ n, len = n + 1 := ⟨len - 1, by omega⟩
    have h0 := h 0 (by simp)
    simp at h0
    have hx : x ≠ 0 := by intro h; apply hz; simp [h]
    have := ih (off := off + 1) n (by
      have := Holds.right (b := [x]) (c := s ++ [0]) (by simpa using h)
      simpa using this) (by intro h; apply hz; simp [h]) (by simp at hl; omega)
    simp only [strnlen]
    rw [if_neg (by rw [h0]; exact hx)]
    simp [this]

theorem deList_ser {α : Type} (f : α → Nat → Option (List UInt8)) (d : (Nat → UInt8) → Nat → Nat → Out α)
    (l : List α) (h : ∀ x ∈ l, ∀ (room : Nat) b, f x room = some b → ∀ m off len, Holds m off b → b.length ≤ len →
      ∃ r, d m off len = ⟨.ok x b.length, r⟩)
    (room : Nat) (b : List UInt8) (hs : serList f l room = some b) (m : Nat → UInt8) (off len consumed : Nat)
    (hm : Holds m (off + consumed) b) (hl : consumed + b.length ≤ len) :
    ∃ r, deList d m off len l.length consumed = ⟨.ok l (consumed + b.length), r⟩ := by
  induction l generalizing room b consumed with
  | nil =>
    simp only [serList, Option.some.injEq] at hs
    subst hs
    exact ⟨[], rfl⟩
  | cons x xs ih =>
    simp only [serList] at hs
    split at hs
    · simp at hs
    · rename_i bx hbx
      split at hs
      · simp at hs
      · rename_i c hc
        simp only [Option.some.injEq] at hs
        subst hs
        simp only [List.length_append] at hl
        obtain ⟨r1, h1⟩ := h x (by simp) room bx hbx m (off + consumed) (len - consumed) hm.left (by omega)
        obtain ⟨r2, h2⟩ := ih (fun y hy => h y (by simp [hy])) _ c hc (consumed + bx.length)
          (by have := hm.right; rwa [Nat.add_assoc] at this) (by omega)
        refine ⟨r1 ++ r2, ?_⟩
        simp only [List.length_cons, deList]
        rw [if_neg (by omega), h1]
        dsimp only
        rw [h2]
        simp [Nat.add_assoc]

theorem de_ser (t : Ty) (v : Val t) (hg : Good t v) (room : Nat) (b : List UInt8) (hs : ser t v room = some b)
    (m : Nat → UInt8) (off len : Nat) (hm : Holds m off b) (hl : b.length ≤ len) :
    ∃ r, de t m off len = ⟨.ok v b.length, r⟩ := by
  induction t generalizing room b m off len with
  | str =>
    have hg' : (show List UInt8 from v) ≠ [] ∧ 0 ∉ (show List UInt8 from v) := hg
    generalize hv : (show List UInt8 from v) = s at *
    have hs' : (if room < s.length + 1 then none else some (s ++ [0])) = some b := by
      rw [← hs]; subst hv; rfl
    split at hs'
    · simp at hs'
    · simp only [Option.some.injEq] at hs'
      subst hs'
      simp only [List.length_append, List.length_singleton] at hl ⊢
      have hk := strnlen_holds len hm hg'.2 (by omega)
      have hp : 0 < s.length := List.length_pos_iff.mpr hg'.1
      simp only [de]
      rw [hk, if_neg (by simp only [Bool.or_eq_true, decide_eq_true_eq]; omega), bytesAt_holds hm.left]
      subst hv
      exact ⟨_, rfl⟩
  | triv n =>
    have hg' : (show List UInt8 from v).length = n := hg
    generalize hv : (show List UInt8 from v) = s at *
    have hs' : (if room < n then none else some s) = some b := by
      rw [← hs]; subst hv; rfl
    split at hs'
    · simp at hs'
    · simp only [Option.some.injEq] at hs'
      subst hs'
      simp only [de]
      rw [if_neg (by omega)]
      rw [← hg', bytesAt_holds hm]
      subst hv
      exact ⟨_, rfl⟩
  | vec e ih =>
    have hg' : (show List (Val e) from v).length ≤ 65535 ∧ ∀ x ∈ (show List (Val e) from v), Good e x := hg
    generalize hv : (show List (Val e) from v) = l at *
    have hs' : (if l.length > 65535 then none else if room < 2 then none else
        match serList (ser e) l (room - 2) with
        | none => none
        | some b => some (le 2 l.length ++ b)) = some b := by
      rw [← hs]; subst hv; rfl
    rw [if_neg (by omega)] at hs'
    split at hs'
    · simp at hs'
    · split at hs'
      · simp at hs'
      · rename_i c hc
        simp only [Option.some.injEq] at hs'
        subst hs'
        simp only [List.length_append, le_length] at hl ⊢
        have hb2 : bytesAt m off 2 = le 2 l.length := by
          have := bytesAt_holds hm.left
          rwa [le_length] at this
        have hn : fromLe (bytesAt m off 2) = l.length := by
          rw [hb2, fromLe_le]
          exact Nat.mod_eq_of_lt (by omega)
        have hr := hm.right
        rw [le_length] at hr
        obtain ⟨r, hd⟩ := deList_ser (ser e) (de e) l
          (fun x hx room b hb m off len hm hl => ih x (hg'.2 x hx) room b hb m off len hm hl) _ c hc m off len 2 hr hl
        simp only [de]
        rw [if_neg (by omega), hn, hd]
        subst hv
        exact ⟨_, rfl⟩
  | unit =>
    simp only [ser, Option.some.injEq] at hs
    subst hs
    exact ⟨[], rfl⟩
  | cons a c iha ihc =>
    simp only [ser] at hs
    split at hs
    · simp at hs
    · rename_i x hx
      split at hs
      · simp at hs
      · rename_i y hy
        simp only [Option.some.injEq] at hs
        subst hs
        simp only [List.length_append] at hl ⊢
        obtain ⟨r1, h1⟩ := iha v.1 hg.1 room x hx m off len hm.left (by omega)
        obtain ⟨r2, h2⟩ := ihc v.2 hg.2 _ y hy m (off + x.length) (len - x.length) hm.right (by omega)
        refine ⟨r1 ++ r2, ?_⟩
        simp only [de]
        rw [h1]
        dsimp only
        rw [if_neg (by omega), h2]
        rfl

/-- What a deserialisation of the span [off, off + len) may do. -/
def Safe {α : Type} (off len : Nat) (o : Out α) : Prop :=
  (∀ a ∈ o.reads, off ≤ a ∧ a < off + len) ∧ (match o.res with | .ok _ n => n ≤ len | .invalid => True | .ub => False)

theorem strnlen_safe (m : Nat → UInt8) (off len : Nat) :
    (∀ a ∈ (strnlen m off len).2, off ≤ a ∧ a < off + len) ∧ (strnlen m off len).1 ≤ len := by
  induction len generalizing off with
  | zero => simp [strnlen]
  | succ n ih =>
    simp only [strnlen]
    split
    · simp
    · obtain ⟨h1, h2⟩ := ih (off + 1)
      constructor
      · intro a ha
        simp only [List.mem_cons] at ha
        rcases ha with rfl | ha
        · omega
        · have := h1 a ha; omega
      · dsimp only; omega

theorem mem_range' {off n a : Nat} (h : a ∈ range off n) : off ≤ a ∧ a < off + n := by
  simp only [range, List.mem_map, List.mem_range] at h
  obtain ⟨i, hi, rfl⟩ := h
  omega

theorem deList_safe {α : Type} (d : (Nat → UInt8) → Nat → Nat → Out α) (hd : ∀ m off len, Safe off len (d m off len))
    (m : Nat → UInt8) (off len n consumed : Nat) (hc : consumed ≤ len) : Safe off len (deList d m off len n consumed) := by
  induction n generalizing consumed with
  | zero => exact ⟨by simp [deList], hc⟩
  | succ n ih =>
    simp only [deList]
    rw [if_neg (by omega)]
    have h := hd m (off + consumed) (len - consumed)
    generalize d m (off + consumed) (len - consumed) = x at h
    obtain ⟨res, reads⟩ := x
    obtain ⟨h1, h2⟩ := h
    have h1' : ∀ a ∈ reads, off ≤ a ∧ a < off + len := fun a ha => by have := h1 a ha; omega
    cases res with
    | ub => exact h2.elim
    | invalid => exact ⟨h1', trivial⟩
    | ok v k =>
      have h2 : k ≤ len - consumed := h2
      have hy := ih (consumed + k) (by omega)
      dsimp only
      generalize deList d m off len n (consumed + k) = y at hy
      obtain ⟨res', reads'⟩ := y
      obtain ⟨h3, h4⟩ := hy
      have h5 : ∀ a ∈ reads ++ reads', off ≤ a ∧ a < off + len := by
        intro a ha
        rcases List.mem_append.mp ha with ha | ha
        · exact h1' a ha
        · exact h3 a ha
      cases res' with
      | ub => exact h4.elim
      | invalid => exact ⟨h5, trivial⟩
      | ok vs c => exact ⟨h5, h4⟩

theorem de_safe (t : Ty) (m : Nat → UInt8) (off len : Nat) : Safe off len (de t m off len) := by
  induction t generalizing m off len with
  | str =>
    obtain ⟨h1, h2⟩ := strnlen_safe m off len
    simp only [de]
    split
    · exact ⟨h1, trivial⟩
    · rename_i hk
      simp only [Bool.or_eq_true, decide_eq_true_eq, not_or] at hk
      refine ⟨?_, ?_⟩
      · intro a ha
        rcases List.mem_append.mp ha with ha | ha
        · exact h1 a ha
        · have := mem_range' ha; omega
      · dsimp only; omega
  | triv n =>
    simp only [de]
    split
    · exact ⟨by simp, trivial⟩
    · refine ⟨?_, ?_⟩
      · intro a ha; have := mem_range' ha; omega
      · dsimp only; omega
  | vec e ih =>
    simp only [de]
    split
    · exact ⟨by simp, trivial⟩
    · have h := deList_safe (de e) ih m off len (fromLe (bytesAt m off 2)) 2 (by omega)
      refine ⟨?_, h.2⟩
      intro a ha
      rcases List.mem_append.mp ha with ha | ha
      · have := mem_range' ha; omega
      · exact h.1 a ha
  | unit => exact ⟨by simp [de], Nat.zero_le _⟩
  | cons a b iha ihb =>
    simp only [de]
    have h := iha m off len
    generalize de a m off len = x at h
    obtain ⟨res, reads⟩ := x
    obtain ⟨h1, h2⟩ := h
    cases res with
    | ub => exact h2.elim
    | invalid => exact ⟨h1, trivial⟩
    | ok v k =>
      have h2 : k ≤ len := h2
      dsimp only
      rw [if_neg (by omega)]
      have hy := ihb m (off + k) (len - k)
      generalize de b m (off + k) (len - k) = y at hy
      obtain ⟨res', reads'⟩ := y
      obtain ⟨h3, h4⟩ := hy
      have h5 : ∀ a ∈ reads ++ reads', off ≤ a ∧ a < off + len := by
        intro a ha
        rcases List.mem_append.mp ha with ha | ha
        · exact h1 a ha
        · have := h3 a ha; omega
      cases res' with
      | ub => exact h4.elim
      | invalid => exact ⟨h5, trivial⟩
      | ok w c =>
        refine ⟨h5, ?_⟩
        have h4 : c ≤ len - k := h4
        dsimp only
        omega

end Verif.GwSerial
