import Verif.Spec.SamplePtr
namespace Verif.SamplePtr
open Verif.Spec.SamplePtr

section
variable {V : Type}

/-! ## Variables -/

theorem get_put (w : World V) (i x : Nat) (p : Ptr) (hi : i < w.ptrs.length) : (w.put i p).get x = if x = i then p else w.get x := by
  unfold World.get World.put
  dsimp only
  rw [List.getD_eq_getElem?_getD, List.getD_eq_getElem?_getD, List.getElem?_set]
  by_cases h : x = i
  · subst h; simp [hi]
  · rw [if_neg (Ne.symm h), if_neg h]

@[simp] theorem put_length (w : World V) (i : Nat) (p : Ptr) : (w.put i p).ptrs.length = w.ptrs.length := by simp [World.put]

theorem get_ge {w : World V} {i : Nat} (h : w.ptrs.length ≤ i) : w.get i = {} := by
  unfold World.get
  rw [List.getD_eq_getElem?_getD, List.getElem?_eq_none h]; rfl

theorem get_congr {w w' : World V} (h : w'.ptrs = w.ptrs) (i : Nat) : w'.get i = w.get i := by unfold World.get; rw [h]

theorem dropGuard_frame (w : World V) (p : Ptr) : (dropGuard w p).ptrs = w.ptrs ∧ (dropGuard w p).data = w.data ∧
    (dropGuard w p).stamp = w.stamp ∧ (dropGuard w p).n = w.n ∧ (dropGuard w p).clock = w.clock ∧ (dropGuard w p).max = w.max ∧
    (dropGuard w p).refs = w.refs := by
  unfold dropGuard
  split
  · exact ⟨rfl, rfl, rfl, rfl, rfl, rfl, rfl⟩
  · rename_i c _
    by_cases h : w.avail c + 1 ≤ w.max c <;> simp [h, World.fail]

theorem dropSlot_frame (w : World V) (p : Ptr) : (dropSlot w p).ptrs = w.ptrs ∧ (dropSlot w p).data = w.data ∧
    (dropSlot w p).stamp = w.stamp ∧ (dropSlot w p).n = w.n ∧ (dropSlot w p).clock = w.clock ∧ (dropSlot w p).max = w.max ∧
    (dropSlot w p).avail = w.avail := by
  unfold dropSlot
  split
  · exact ⟨rfl, rfl, rfl, rfl, rfl, rfl, rfl⟩
  · split <;> exact ⟨rfl, rfl, rfl, rfl, rfl, rfl, rfl⟩

/-! ## Counting -/

def slotIs (s : Nat) (p : Ptr) : Bool := decide (p.dec.map (·.2) = some s)
def guardIs (c : Nat) (p : Ptr) : Bool := decide (p.guard = some c)

/-- Reference counts and trackers agree with the variables and the temporary pointers `ex`. -/
structure Cnt (w : World V) (ex : List Ptr) : Prop where
  fault : w.fault = none
  refs : ∀ s, w.refs s = (w.ptrs ++ ex).countP (slotIs s)
  avail : ∀ c, w.avail c + (w.ptrs ++ ex).countP (guardIs c) = w.max c

theorem countP_exch (f : Ptr → Bool) : ∀ (l : List Ptr) (i : Nat) (q : Ptr) (ex : List Ptr), i < l.length →
    (l.set i q ++ (l.getD i {} :: ex)).countP f = (l ++ (q :: ex)).countP f := by
  intro l
  induction l with
  | nil => intro i q ex h; simp at h
  | cons a l ih =>
    intro i q ex h
    cases i with
    | zero => simp [List.countP_append, List.countP_cons]; omega
    | succ i =>
      have := ih i q ex (by simpa using h)
      simp only [List.set_cons_succ, List.getD_cons_succ, List.cons_append, List.countP_cons]
      omega

theorem Cnt.exch {w : World V} {q : Ptr} {ex : List Ptr} (h : Cnt w (q :: ex)) {i : Nat} (hi : i < w.ptrs.length) :
    Cnt (w.put i q) (w.get i :: ex) where
  fault := h.fault
  refs s := (h.refs s).trans (countP_exch _ _ _ _ _ hi).symm
  avail c := by
    have := h.avail c
    have e := countP_exch (guardIs c) w.ptrs i q ex hi
    show w.avail c + (w.ptrs.set i q ++ (w.ptrs.getD i {} :: ex)).countP (guardIs c) = w.max c
    rw [e]; exact this

theorem cnt_congr {w : World V} {ex ex' : List Ptr} (h : Cnt w ex) (hs : ∀ s, ex'.countP (slotIs s) = ex.countP (slotIs s))
    (hg : ∀ c, ex'.countP (guardIs c) = ex.countP (guardIs c)) : Cnt w ex' where
  fault := h.fault
  refs s := by rw [h.refs s, List.countP_append, List.countP_append, hs]
  avail c := by rw [← h.avail c, List.countP_append, List.countP_append, hg]

theorem Cnt.discard {w : World V} {p : Ptr} {ex : List Ptr} (h : Cnt w (p :: ex)) (h1 : p.dec = none) (h2 : p.guard = none) : Cnt w ex :=
  cnt_congr h (fun s => by simp [List.countP_cons, slotIs, h1]) (fun c => by simp [List.countP_cons, guardIs, h2])

theorem Cnt.add {w : World V} {p : Ptr} {ex : List Ptr} (h : Cnt w ex) (h1 : p.dec = none) (h2 : p.guard = none) : Cnt w (p :: ex) :=
  cnt_congr h (fun s => by simp [List.countP_cons, slotIs, h1]) (fun c => by simp [List.countP_cons, guardIs, h2])

theorem Cnt.perm {w : World V} {p q : Ptr} {ex : List Ptr} (h : Cnt w (p :: q :: ex)) : Cnt w (q :: p :: ex) :=
  cnt_congr h (fun s => by simp only [List.countP_cons]; omega) (fun c => by simp only [List.countP_cons]; omega)

theorem Cnt.dropGuard {w : World V} {p : Ptr} {ex : List Ptr} (h : Cnt w (p :: ex)) :
    Cnt (dropGuard w p) ({ p with guard := none } :: ex) := by
  unfold SamplePtr.dropGuard
  split
  · rename_i hg
    exact cnt_congr h (fun s => by simp only [List.countP_cons]; rfl) (fun c => by simp [List.countP_cons, guardIs, hg])
  · rename_i c hg
    have hc := h.avail c
    have e : (p :: ex).countP (guardIs c) = ex.countP (guardIs c) + 1 := by simp [List.countP_cons, guardIs, hg]
    rw [List.countP_append, e] at hc
    dsimp only
    rw [if_pos (by simp only [if_true]; omega)]
    refine ⟨h.fault, fun s => ?_, fun d => ?_⟩
    · have := h.refs s
      simp only [List.countP_append, List.countP_cons] at this ⊢
      exact this
    · have hd := h.avail d
      simp only [List.countP_append, List.countP_cons] at hd ⊢
      have e2 : guardIs d { p with guard := none } = false := by simp [guardIs]
      rw [e2]
      by_cases hdc : d = c
      · subst hdc
        have e3 : guardIs d p = true := by simp [guardIs, hg]
        rw [e3] at hd
        simp only [if_true] at hd ⊢
        simp; omega
      · have e3 : guardIs d p = false := by
          simp only [guardIs, hg, decide_eq_false_iff_not, Option.some.injEq]
          exact fun x => hdc x.symm
        rw [e3] at hd
        rw [if_neg hdc]
        exact hd

theorem Cnt.dropSlot {w : World V} {p : Ptr} {ex : List Ptr} (h : Cnt w (p :: ex)) :
    Cnt (dropSlot w p) ({ p with dec := none } :: ex) := by
  unfold SamplePtr.dropSlot
  split
  · rename_i hg
    exact cnt_congr h (fun c => by simp [List.countP_cons, slotIs, hg]) (fun s => by simp only [List.countP_cons]; rfl)
  · rename_i c s hg
    have hc := h.refs s
    have e : (p :: ex).countP (slotIs s) = ex.countP (slotIs s) + 1 := by simp [List.countP_cons, slotIs, hg]
    rw [List.countP_append, e] at hc
    rw [if_neg (by omega)]
    refine ⟨h.fault, fun t => ?_, fun d => ?_⟩
    · have hd := h.refs t
      simp only [List.countP_append, List.countP_cons] at hd ⊢
      have e2 : slotIs t { p with dec := none } = false := by simp [slotIs]
      rw [e2]
      by_cases hdc : t = s
      · subst hdc
        have e3 : slotIs t p = true := by simp [slotIs, hg]
        rw [e3] at hd
        simp only [if_true] at hd ⊢
        simp; omega
      · have e3 : slotIs t p = false := by
          simp only [slotIs, hg, Option.map_some, decide_eq_false_iff_not, Option.some.injEq]
          exact fun x => hdc x.symm
        rw [e3] at hd
        rw [if_neg hdc]
        exact hd
    · have := h.avail d
      simp only [List.countP_append, List.countP_cons] at this ⊢
      exact this

theorem Cnt.destroy {w : World V} {p : Ptr} {ex : List Ptr} (h : Cnt w (p :: ex)) : Cnt (destroy w p) ex := by
  have h1 := h.dropGuard
  have h2 := h1.dropSlot
  exact Cnt.discard (p := { p with guard := none, dec := none }) h2 rfl rfl

/-! ## Invariant -/

/-- A well formed pointer. -/
structure Ok (w : World V) (p : Ptr) : Prop where
  blank : p.lola = false → p = {}
  obj : p.lola = true → p.obj.isSome
  dec : ∀ c s, p.dec = some (c, s) → p.obj = some s ∧ s < w.n ∧ p.stamp = w.stamp s ∧ 0 < w.stamp s ∧
    (p.guard = none ∨ p.guard = some c)
  guard : ∀ c, p.guard = some c → ∃ s, p.dec = some (c, s)

/-- A pointer that may be read. -/
def Live (p : Ptr) : Prop := p.lola = true → ∃ c s, p.dec = some (c, s) ∧ p.guard = some c

structure Inv (w : World V) (sp : Nat → Bool) : Prop where
  cnt : Cnt w []
  ok : ∀ i, Ok w (w.get i)
  live : ∀ i, sp i = false → Live (w.get i)
  new : ∀ i, w.ptrs.length ≤ i → sp i = false
  stamps : ∀ s, w.stamp s ≤ w.clock
  diff : ∀ s t, w.stamp s = w.stamp t → 0 < w.stamp s → s = t

theorem ok_blank (w : World V) : Ok w {} := ⟨fun _ => rfl, by simp, by simp, by simp⟩
theorem live_blank : Live {} := by simp [Live]

theorem Ok.congr {w w' : World V} {p : Ptr} (h : Ok w p) (hn : w'.n = w.n) (hs : w'.stamp = w.stamp) : Ok w' p :=
  ⟨h.blank, h.obj, by rw [hn, hs]; exact h.dec, h.guard⟩

theorem ok_left {w : World V} {p : Ptr} (h : Ok w p) : Ok w (left p) := by
  refine ⟨fun hl => ?_, h.obj, by simp [left], by simp [left]⟩
  have := h.blank hl
  subst this; rfl

theorem ok_half {w : World V} {p : Ptr} (h : Ok w p) : Ok w { p with guard := none } := by
  refine ⟨fun hl => ?_, h.obj, fun c s hd => ?_, by simp⟩
  · have := h.blank hl
    subst this; rfl
  · obtain ⟨a, b, c', d, _⟩ := h.dec c s hd
    exact ⟨a, b, c', d, .inl rfl⟩

theorem get_out (w : World V) (i : Nat) (hi : i < w.ptrs.length) : (w.put i {}).get i = {} := by rw [get_put _ _ _ _ hi, if_pos rfl]

/-- What remains to be shown of a step that only moves pointers. -/
theorem Inv.moved {w w' : World V} {sp sp' : Nat → Bool} (h : Inv w sp) (hc : Cnt w' []) (hn : w'.n = w.n) (hs : w'.stamp = w.stamp)
    (hk : w'.clock = w.clock) (ok : ∀ i, Ok w (w'.get i)) (live : ∀ i, sp' i = false → Live (w'.get i))
    (new : ∀ i, w'.ptrs.length ≤ i → sp' i = false) : Inv w' sp' :=
  ⟨hc, fun i => (ok i).congr hn hs, live, new, by rw [hs, hk]; exact h.stamps, by rw [hs]; exact h.diff⟩

/-- Content of the world after some steps, as far as the theorems speak of it. -/
theorem assign_get {w : World V} {i j : Nat} (hi : i < w.ptrs.length) (hj : j < w.ptrs.length) (hne : i ≠ j) (x : Nat) :
    (assign w i j).get x = if x = i then w.get j else if x = j then left (w.get j) else w.get x := by
  unfold assign
  rw [if_neg hne]
  dsimp only
  have f1 := dropSlot_frame ((w.put i {}).put j (left (w.get j))) (w.get i)
  have f2 := dropGuard_frame (dropSlot ((w.put i {}).put j (left (w.get j))) (w.get i)) (w.get i)
  rw [get_put _ _ _ _ (by rw [f2.1, f1.1]; simpa using hi)]
  by_cases h : x = i
  · rw [if_pos h, if_pos h]
  · rw [if_neg h, if_neg h, get_congr f2.1, get_congr f1.1, get_put _ _ _ _ (by simpa using hj), get_put _ _ _ _ hi, if_neg h]

theorem swap_get {w : World V} {i j : Nat} (hi : i < w.ptrs.length) (hj : j < w.ptrs.length) (x : Nat) :
    (swap w i j).get x = if x = i then w.get j else if x = j then w.get i else w.get x := by
  unfold swap
  dsimp only
  rw [get_put _ _ _ _ (by simpa using hi), get_put _ _ _ _ (by simpa using hj), get_put _ _ _ _ hi]
  by_cases h : x = i
  · rw [if_pos h, if_pos h]
  · rw [if_neg h, if_neg h, if_neg h]

theorem destroy_frame (w : World V) (p : Ptr) : (destroy w p).ptrs = w.ptrs ∧ (destroy w p).data = w.data ∧
    (destroy w p).stamp = w.stamp ∧ (destroy w p).n = w.n ∧ (destroy w p).clock = w.clock ∧ (destroy w p).max = w.max := by
  have f1 := dropGuard_frame w p
  have f2 := dropSlot_frame (dropGuard w p) p
  unfold destroy
  exact ⟨f2.1.trans f1.1, f2.2.1.trans f1.2.1, f2.2.2.1.trans f1.2.2.1, f2.2.2.2.1.trans f1.2.2.2.1,
    f2.2.2.2.2.1.trans f1.2.2.2.2.1, f2.2.2.2.2.2.1.trans f1.2.2.2.2.2.1⟩

theorem drop_get {w : World V} {i : Nat} (hi : i < w.ptrs.length) (x : Nat) :
    (drop w i).get x = if x = i then {} else w.get x := by
  unfold drop
  rw [get_congr (destroy_frame _ _).1, get_put _ _ _ _ hi]

theorem resetTo_get {w : World V} {i j : Nat} (hi : i < w.ptrs.length) (hj : j < w.ptrs.length) (x : Nat) :
    (resetTo w i j).get x = if x = i then w.get j else if x = j then {} else w.get x := by
  unfold resetTo
  dsimp only
  rw [get_congr (destroy_frame _ _).1, get_put _ _ _ _ (by simpa using hi), get_put _ _ _ _ hj]

theorem move_get {w : World V} {i : Nat} (hi : i < w.ptrs.length) (x : Nat) :
    (move w i).get x = if x = w.ptrs.length then w.get i else if x = i then {} else w.get x := by
  unfold move
  dsimp only
  rw [show World.get { w.put i {} with ptrs := (w.put i {}).ptrs ++ [w.get i] } x = ((w.put i {}).ptrs ++ [w.get i]).getD x {} from rfl]
  rw [List.getD_eq_getElem?_getD]
  by_cases h : x = w.ptrs.length
  · rw [if_pos h, List.getElem?_append_right (by simp [h])]
    simp [h]
  · rw [if_neg h, ← get_put w i x {} hi]
    unfold World.get
    by_cases h2 : x < w.ptrs.length
    · rw [List.getElem?_append_left (by simpa using h2), List.getD_eq_getElem?_getD]
    · rw [List.getElem?_eq_none (by simp; omega), List.getD_eq_getElem?_getD, List.getElem?_eq_none (by simp; omega)]

theorem endBegin_get {w : World V} {i : Nat} (hi : i < w.ptrs.length) (x : Nat) :
    (endBegin w i).get x = if x = i then { w.get i with guard := none } else w.get x := by
  unfold endBegin
  rw [get_congr (dropGuard_frame _ _).1, get_put _ _ _ _ hi]

/-! ## Steps -/

theorem assign_frame {w : World V} {i j : Nat} : (assign w i j).data = w.data ∧ (assign w i j).stamp = w.stamp ∧
    (assign w i j).n = w.n ∧ (assign w i j).clock = w.clock ∧ (assign w i j).ptrs.length = w.ptrs.length := by
  unfold assign
  split
  · exact ⟨rfl, rfl, rfl, rfl, rfl⟩
  · dsimp only
    have f1 := dropSlot_frame ((w.put i {}).put j (left (w.get j))) (w.get i)
    have f2 := dropGuard_frame (dropSlot ((w.put i {}).put j (left (w.get j))) (w.get i)) (w.get i)
    refine ⟨f2.2.1.trans f1.2.1, f2.2.2.1.trans f1.2.2.1, f2.2.2.2.1.trans f1.2.2.2.1, f2.2.2.2.2.1.trans f1.2.2.2.2.1, ?_⟩
    rw [put_length, f2.1, f1.1]; simp

theorem assign_cnt {w : World V} (hc : Cnt w []) {i j : Nat} (hi : i < w.ptrs.length) (hj : j < w.ptrs.length) :
    Cnt (assign w i j) [] := by
  unfold assign
  split
  · exact hc
  rename_i hne
  dsimp only
  have c1 := (hc.add (p := {}) rfl rfl).exch hi
  have c2 := (c1.add (p := left (w.get j)) rfl rfl).exch (by simpa using hj)
  rw [get_put _ _ _ _ hi, if_neg (Ne.symm hne)] at c2
  have c3 := c2.perm.dropSlot
  have c4 := c3.dropGuard
  have c5 := Cnt.discard (p := { w.get i with dec := none, guard := none }) c4 rfl rfl
  have f1 := dropSlot_frame ((w.put i {}).put j (left (w.get j))) (w.get i)
  have f2 := dropGuard_frame (dropSlot ((w.put i {}).put j (left (w.get j))) (w.get i)) (w.get i)
  have c6 := c5.exch (i := i) (by
    show i < (SamplePtr.dropGuard (SamplePtr.dropSlot ((w.put i {}).put j (left (w.get j))) (w.get i)) (w.get i)).ptrs.length
    rw [f2.1, f1.1]; simpa using hi)
  have e : (SamplePtr.dropGuard (SamplePtr.dropSlot ((w.put i {}).put j (left (w.get j))) (w.get i)) (w.get i)).get i = {} := by
    rw [get_congr f2.1, get_congr f1.1, get_put _ _ _ _ (by simpa using hj), if_neg hne, get_out _ _ hi]
  exact Cnt.discard (p := (SamplePtr.dropGuard (SamplePtr.dropSlot ((w.put i {}).put j (left (w.get j))) (w.get i)) (w.get i)).get i) c6
    (by rw [e]) (by rw [e])

theorem swap_cnt {w : World V} (hc : Cnt w []) {i j : Nat} (hi : i < w.ptrs.length) (hj : j < w.ptrs.length) : Cnt (swap w i j) [] := by
  unfold swap
  dsimp only
  have c1 := (hc.add (p := {}) rfl rfl).exch hi
  by_cases hne : j = i
  · subst hne
    have c2 := c1.exch (i := j) (by simpa using hj)
    rw [get_out _ _ hj] at c2
    have c3 := Cnt.discard c2 rfl rfl
    have e : ((w.put j {}).put j (w.get j)).get j = w.get j := by rw [get_put _ _ _ _ (by simpa using hj), if_pos rfl]
    have e2 : (((w.put j {}).put j (w.get j)).put j (w.get j)) = (w.put j {}).put j (w.get j) := by
      simp [World.put]
    rw [e2]; exact c3
  · have c2 := c1.exch (i := j) (by simpa using hj)
    rw [get_put _ _ _ _ hi, if_neg hne] at c2
    have c3 := c2.exch (i := i) (by simpa using hi)
    have e : ((w.put i {}).put j (w.get i)).get i = {} := by
      rw [get_put _ _ _ _ (by simpa using hj), if_neg (Ne.symm hne), get_out _ _ hi]
    rw [e] at c3
    exact Cnt.discard c3 rfl rfl

theorem drop_cnt {w : World V} (hc : Cnt w []) {i : Nat} (hi : i < w.ptrs.length) : Cnt (drop w i) [] :=
  ((hc.add (p := {}) rfl rfl).exch hi).destroy

theorem resetTo_cnt {w : World V} (hc : Cnt w []) {i j : Nat} (hi : i < w.ptrs.length) (hj : j < w.ptrs.length) : Cnt (resetTo w i j) [] := by
  unfold resetTo
  dsimp only
  have c1 := (hc.add (p := {}) rfl rfl).exch hj
  exact (c1.exch (i := i) (by simpa using hi)).destroy

theorem move_cnt {w : World V} (hc : Cnt w []) {i : Nat} (hi : i < w.ptrs.length) : Cnt (move w i) [] := by
  unfold move
  dsimp only
  have c1 := (hc.add (p := {}) rfl rfl).exch hi
  exact ⟨c1.fault, fun s => by rw [List.append_nil]; exact c1.refs s, fun c => by rw [List.append_nil]; exact c1.avail c⟩

theorem endBegin_cnt {w : World V} (hc : Cnt w []) {i : Nat} (hi : i < w.ptrs.length) : Cnt (endBegin w i) [] := by
  unfold endBegin
  have hx : Cnt w [{ w.get i with guard := none, dec := none }] := hc.add rfl rfl
  have c1 := hx.exch hi
  -- count with the guard in the temporary and the slot in the variable
  have c2 : Cnt (w.put i { w.get i with guard := none }) [{ w.get i with dec := none }] := by
    refine ⟨c1.fault, fun s => ?_, fun c => ?_⟩
    · have e1 := countP_exch (slotIs s) w.ptrs i { w.get i with guard := none } [] hi
      have e2 := hc.refs s
      simp only [List.countP_append, List.countP_cons, List.countP_nil] at e1 e2 ⊢
      have e3 : slotIs s { w.get i with dec := none } = false := by simp [slotIs]
      have e4 : slotIs s { w.get i with guard := none } = slotIs s (w.ptrs.getD i {}) := rfl
      rw [e3]
      rw [e4] at e1
      show w.refs s = (w.ptrs.set i { w.get i with guard := none }).countP (slotIs s) + _
      simp only [Bool.false_eq_true, if_false]
      omega
    · have e1 := countP_exch (guardIs c) w.ptrs i { w.get i with guard := none } [] hi
      have e2 := hc.avail c
      simp only [List.countP_append, List.countP_cons, List.countP_nil] at e1 e2 ⊢
      have e3 : guardIs c { w.get i with dec := none } = guardIs c (w.ptrs.getD i {}) := rfl
      have e4 : guardIs c { w.get i with guard := none } = false := by simp [guardIs]
      rw [e4] at e1
      rw [e3]
      simp only [Bool.false_eq_true, if_false] at e1
      have e5 : (w.put i { w.get i with guard := none }).ptrs = w.ptrs.set i { w.get i with guard := none } := rfl
      have e6 : (w.put i { w.get i with guard := none }).avail = w.avail := rfl
      have e7 : (w.put i { w.get i with guard := none }).max = w.max := rfl
      rw [e5, e6, e7]
      dsimp only at e1 ⊢
      omega
  have c3 := c2.dropGuard
  exact Cnt.discard (p := { w.get i with dec := none, guard := none }) c3 rfl rfl

theorem endFinish_cnt {w : World V} (hc : Cnt w []) {i : Nat} (hi : i < w.ptrs.length) : Cnt (endFinish w i) [] := by
  unfold endFinish
  split
  · rename_i hg
    exact Cnt.discard ((hc.add (p := {}) rfl rfl).exch hi).dropSlot rfl hg
  · exact hc

/-- The pointer is not null and refers to the slot. -/
theorem holds_dec {w : World V} {sp : Nat → Bool} (h : Inv w sp) {i s : Nat} (hs : sp i = false) (hh : Holds w i s) :
    ∃ c, (w.get i).dec = some (c, s) ∧ (w.get i).guard = some c := by
  obtain ⟨h1, h2⟩ := hh
  obtain ⟨c, t, h3, h4⟩ := h.live i hs h1
  have := (h.ok i).dec c t h3
  unfold Ptr.target at h2
  rw [if_pos (show (w.get i).lola = true from h1), this.1] at h2
  cases h2
  exact ⟨c, h3, h4⟩

theorem count_pos {l : List Ptr} {f : Ptr → Bool} {i : Nat} (hi : i < l.length) (hf : f (l.getD i {}) = true) : 0 < l.countP f := by
  rw [List.countP_pos_iff]
  refine ⟨l[i], List.getElem_mem hi, ?_⟩
  rw [List.getD_eq_getElem?_getD, List.getElem?_eq_getElem hi] at hf
  exact hf

theorem refs_pos {w : World V} (hc : Cnt w []) {i c s : Nat} (hd : (w.get i).dec = some (c, s)) : 0 < w.refs s := by
  have hi : i < w.ptrs.length := by
    apply Nat.lt_of_not_le
    intro h
    rw [get_ge h] at hd; cases hd
  rw [hc.refs s, List.append_nil]
  exact count_pos hi (by show slotIs s (w.get i) = true; simp [slotIs, hd])

theorem publish_inv {w : World V} {sp : Nat → Bool} (h : Inv w sp) (s : Nat) (x : V) : Inv (publish w s x) sp := by
  unfold publish
  split
  · rename_i hg
    refine ⟨⟨h.cnt.fault, h.cnt.refs, h.cnt.avail⟩, fun i => ⟨(h.ok i).blank, (h.ok i).obj, fun c t hd => ?_, (h.ok i).guard⟩, h.live, h.new, fun t => ?_,
      fun t u e ht => ?_⟩
    · have hp := refs_pos h.cnt hd
      have hne : t ≠ s := by intro e; subst e; omega
      have := (h.ok i).dec c t hd
      dsimp only
      rw [if_neg hne]
      exact this
    · have := h.stamps t
      dsimp only; split <;> omega
    · have h1 := h.stamps t
      have h2 := h.stamps u
      dsimp only at e ht
      by_cases e1 : t = s <;> by_cases e2 : u = s
      · rw [e1, e2]
      · rw [if_pos e1, if_neg e2] at e; omega
      · rw [if_neg e1, if_pos e2] at e; omega
      · rw [if_neg e1, if_neg e2] at e; rw [if_neg e1] at ht; exact h.diff t u e ht
  · exact h

theorem ready_spec (w : World V) (k : Nat) (l : List Nat) : (ready w k l).length ≤ k ∧
    ∀ s ∈ ready w k l, s ∈ l ∧ s < w.n ∧ 0 < w.stamp s := by
  unfold ready
  refine ⟨List.length_take_le _ _, fun s hs => ?_⟩
  have := List.mem_of_mem_take hs
  rw [List.mem_filter] at this
  simp only [Bool.and_eq_true, decide_eq_true_eq] at this
  exact ⟨this.1, this.2⟩

theorem fresh_count_slot (w : World V) (c s : Nat) : ∀ l : List Nat, (l.map (fresh w c)).countP (slotIs s) = l.count s := by
  intro l
  induction l with
  | nil => rfl
  | cons a l ih =>
    rw [List.map_cons, List.countP_cons, List.count_cons, ih]
    congr 1
    by_cases h : a = s
    · subst h; simp [slotIs, fresh]
    · simp [slotIs, fresh, h]

theorem fresh_count_guard (w : World V) (c d : Nat) : ∀ l : List Nat,
    (l.map (fresh w c)).countP (guardIs d) = if d = c then l.length else 0 := by
  intro l
  induction l with
  | nil => simp
  | cons a l ih =>
    rw [List.map_cons, List.countP_cons, ih]
    by_cases h : d = c
    · subst h; simp [guardIs, fresh]
    · simp [guardIs, fresh, h, Ne.symm h]

theorem getNew_get (w : World V) (c k : Nat) (l : List Nat) (i : Nat) :
    ((getNew w c k l).1.get i = w.get i) ∨ (w.ptrs.length ≤ i ∧ ∃ s ∈ ready w (min k (w.avail c)) l,
      (getNew w c k l).1.get i = fresh w c s) := by
  unfold getNew
  dsimp only
  split
  · exact .inl rfl
  · dsimp only
    by_cases hi : i < w.ptrs.length
    · left
      unfold World.get
      dsimp only
      rw [List.getD_eq_getElem?_getD, List.getD_eq_getElem?_getD]
      rw [List.getElem?_append_left (by exact hi)]
      rfl
    · by_cases hj : i - w.ptrs.length < (ready w (min k (w.avail c)) l).length
      · right
        refine ⟨by omega, _, List.getElem_mem hj, ?_⟩
        unfold World.get
        dsimp only
        rw [List.getD_eq_getElem?_getD, List.getElem?_append_right (by show w.ptrs.length ≤ i; omega)]
        show ((ready w (min k (w.avail c)) l).map _)[i - w.ptrs.length]?.getD ({} : Ptr) = _
        rw [List.getElem?_map, List.getElem?_eq_getElem hj]
        rfl
      · left
        rw [get_ge (by simp only [List.length_append, List.length_map]; show w.ptrs.length + _ ≤ i; omega), get_ge (by omega)]

theorem getNew_frame (w : World V) (c k : Nat) (l : List Nat) : (getNew w c k l).1.data = w.data ∧ (getNew w c k l).1.stamp = w.stamp ∧
    (getNew w c k l).1.n = w.n ∧ (getNew w c k l).1.clock = w.clock ∧ w.ptrs.length ≤ (getNew w c k l).1.ptrs.length := by
  unfold getNew
  dsimp only
  split
  · exact ⟨rfl, rfl, rfl, rfl, Nat.le_refl _⟩
  · refine ⟨rfl, rfl, rfl, rfl, ?_⟩
    simp only [List.length_append]; exact Nat.le_add_right _ _

theorem getNew_cnt {w : World V} (hc : Cnt w []) (c k : Nat) (l : List Nat) : Cnt (getNew w c k l).1 [] := by
  unfold getNew
  dsimp only
  split
  · exact hc
  · have hr := (ready_spec w (min k (w.avail c)) l).1
    generalize hl : ready w (min k (w.avail c)) l = rl at hr
    refine ⟨hc.fault, fun s => ?_, fun d => ?_⟩
    · have := hc.refs s
      rw [List.append_nil] at this ⊢
      dsimp only
      rw [List.countP_append, fresh_count_slot]
      show w.refs s + rl.count s = w.ptrs.countP (slotIs s) + rl.count s
      omega
    · have := hc.avail d
      rw [List.append_nil] at this ⊢
      dsimp only
      rw [List.countP_append, fresh_count_guard]
      show (if d = c then w.avail d - min k (w.avail c) + (min k (w.avail c) - rl.length) else w.avail d) +
        (w.ptrs.countP (guardIs d) + if d = c then rl.length else 0) = w.max d
      by_cases h : d = c
      · subst h; simp only [if_true]; omega
      · simp only [if_neg h]; omega

theorem getNew_inv {w : World V} {sp : Nat → Bool} (h : Inv w sp) (c k : Nat) (l : List Nat) : Inv (getNew w c k l).1 sp := by
  have f := getNew_frame w c k l
  have hf : ∀ s ∈ ready w (min k (w.avail c)) l, Ok w (fresh w c s) ∧ Live (fresh w c s) := by
    intro s hs
    have := ((ready_spec w (min k (w.avail c)) l).2 s hs).2
    refine ⟨⟨by simp [fresh], by simp [fresh], fun c' t hd => ?_, fun c' hd => ?_⟩, fun _ => ⟨c, s, rfl, rfl⟩⟩
    · cases hd
      exact ⟨rfl, this.1, rfl, this.2, .inr rfl⟩
    · cases hd
      exact ⟨s, rfl⟩
  refine h.moved (getNew_cnt h.cnt c k l) f.2.2.1 f.2.1 f.2.2.2.1 (fun i => ?_) (fun i hi => ?_) (fun i hi => h.new i (Nat.le_trans f.2.2.2.2 hi))
  · rcases getNew_get w c k l i with e | ⟨_, s, hs, e⟩
    · rw [e]; exact h.ok i
    · rw [e]; exact (hf s hs).1
  · rcases getNew_get w c k l i with e | ⟨_, s, hs, e⟩
    · rw [e]; exact h.live i hi
    · rw [e]; exact (hf s hs).2

theorem move_inv {w : World V} {sp : Nat → Bool} (h : Inv w sp) {i : Nat} (hi : i < w.ptrs.length) :
    Inv (move w i) (spend w.ptrs.length sp (.move i : Step V)) := by
  refine h.moved (move_cnt h.cnt hi) rfl rfl rfl (fun x => ?_) (fun x hx => ?_) (fun x hx => ?_)
  · rw [move_get hi]
    split
    · exact h.ok i
    · split
      · exact ok_blank w
      · exact h.ok x
  · rw [move_get hi]
    unfold spend at hx
    dsimp only at hx
    split
    · rename_i e; rw [if_pos e] at hx; exact h.live i hx
    · rename_i e
      rw [if_neg e] at hx
      split
      · exact live_blank
      · rename_i e2; rw [if_neg e2] at hx; exact h.live x hx
  · have : x ≥ w.ptrs.length + 1 := by simpa [move] using hx
    unfold spend
    dsimp only
    rw [if_neg (by omega), if_neg (by omega)]
    exact h.new x (by omega)

theorem assign_inv {w : World V} {sp : Nat → Bool} (h : Inv w sp) {i j : Nat} (hi : i < w.ptrs.length) (hj : j < w.ptrs.length) :
    Inv (assign w i j) (spend w.ptrs.length sp (.assign i j : Step V)) := by
  have f := assign_frame (w := w) (i := i) (j := j)
  by_cases hne : i = j
  · have : spend w.ptrs.length sp (.assign i j : Step V) = sp := by funext x; simp [spend, hne]
    rw [this]
    unfold assign
    rw [if_pos hne]; exact h
  refine h.moved (assign_cnt h.cnt hi hj) f.2.2.1 f.2.1 f.2.2.2.1 (fun x => ?_) (fun x hx => ?_) (fun x hx => ?_)
  · rw [assign_get hi hj hne]
    split
    · exact h.ok j
    · split
      · exact ok_left (h.ok j)
      · exact h.ok x
  · rw [assign_get hi hj hne]
    unfold spend at hx
    dsimp only at hx
    rw [if_neg hne] at hx
    split
    · rename_i e; rw [if_pos e] at hx; exact h.live j hx
    · rename_i e
      rw [if_neg e] at hx
      split
      · rename_i e2; rw [if_pos e2] at hx; cases hx
      · rename_i e2; rw [if_neg e2] at hx; exact h.live x hx
  · rw [f.2.2.2.2] at hx
    unfold spend
    dsimp only
    rw [if_neg hne, if_neg (by omega), if_neg (by omega)]
    exact h.new x hx

theorem swap_inv {w : World V} {sp : Nat → Bool} (h : Inv w sp) {i j : Nat} (hi : i < w.ptrs.length) (hj : j < w.ptrs.length) :
    Inv (swap w i j) (spend w.ptrs.length sp (.swap i j : Step V)) := by
  refine h.moved (swap_cnt h.cnt hi hj) rfl rfl rfl (fun x => ?_) (fun x hx => ?_) (fun x hx => ?_)
  · rw [swap_get hi hj]
    split
    · exact h.ok j
    · split
      · exact h.ok i
      · exact h.ok x
  · rw [swap_get hi hj]
    unfold spend at hx
    dsimp only at hx
    split
    · rename_i e; rw [if_pos e] at hx; exact h.live j hx
    · rename_i e
      rw [if_neg e] at hx
      split
      · rename_i e2; rw [if_pos e2] at hx; exact h.live i hx
      · rename_i e2; rw [if_neg e2] at hx; exact h.live x hx
  · have hx : w.ptrs.length ≤ x := by simpa [swap] using hx
    unfold spend
    dsimp only
    rw [if_neg (by omega), if_neg (by omega)]
    exact h.new x hx

theorem drop_inv {w : World V} {sp : Nat → Bool} (h : Inv w sp) {i : Nat} (hi : i < w.ptrs.length) :
    Inv (drop w i) (spend w.ptrs.length sp (.drop i : Step V)) := by
  have f := destroy_frame (w.put i {}) (w.get i)
  refine h.moved (drop_cnt h.cnt hi) f.2.2.2.1 f.2.2.1 f.2.2.2.2.1 (fun x => ?_) (fun x hx => ?_) (fun x hx => ?_)
  · rw [drop_get hi]
    split
    · exact ok_blank w
    · exact h.ok x
  · rw [drop_get hi]
    unfold spend at hx
    dsimp only at hx
    split
    · exact live_blank
    · rename_i e; rw [if_neg e] at hx; exact h.live x hx
  · have hx : w.ptrs.length ≤ x := by
      unfold drop at hx; rw [f.1] at hx; simpa using hx
    unfold spend
    dsimp only
    rw [if_neg (by omega)]
    exact h.new x hx

theorem resetTo_frame {w : World V} {i j : Nat} : (resetTo w i j).data = w.data ∧ (resetTo w i j).stamp = w.stamp ∧
    (resetTo w i j).n = w.n ∧ (resetTo w i j).clock = w.clock ∧ (resetTo w i j).ptrs.length = w.ptrs.length := by
  unfold resetTo
  dsimp only
  have f := destroy_frame ((w.put j {}).put i (w.get j)) ((w.put j {}).get i)
  exact ⟨f.2.1, f.2.2.1, f.2.2.2.1, f.2.2.2.2.1, by rw [f.1]; simp⟩

theorem resetTo_inv {w : World V} {sp : Nat → Bool} (h : Inv w sp) {i j : Nat} (hi : i < w.ptrs.length) (hj : j < w.ptrs.length) :
    Inv (resetTo w i j) (spend w.ptrs.length sp (.resetTo i j : Step V)) := by
  have f := resetTo_frame (w := w) (i := i) (j := j)
  refine h.moved (resetTo_cnt h.cnt hi hj) f.2.2.1 f.2.1 f.2.2.2.1 (fun x => ?_) (fun x hx => ?_) (fun x hx => ?_)
  · rw [resetTo_get hi hj]
    split
    · exact h.ok j
    · split
      · exact ok_blank w
      · exact h.ok x
  · rw [resetTo_get hi hj]
    unfold spend at hx
    dsimp only at hx
    split
    · rename_i e; rw [if_pos e] at hx; exact h.live j hx
    · rename_i e
      rw [if_neg e] at hx
      split
      · exact live_blank
      · rename_i e2; rw [if_neg e2] at hx; exact h.live x hx
  · rw [f.2.2.2.2] at hx
    unfold spend
    dsimp only
    rw [if_neg (by omega), if_neg (by omega)]
    exact h.new x hx

theorem endBegin_inv {w : World V} {sp : Nat → Bool} (h : Inv w sp) {i : Nat} (hi : i < w.ptrs.length) :
    Inv (endBegin w i) (spend w.ptrs.length sp (.endBegin i : Step V)) := by
  have f := dropGuard_frame (w.put i { w.get i with guard := none }) (w.get i)
  refine h.moved (endBegin_cnt h.cnt hi) f.2.2.2.1 f.2.2.1 f.2.2.2.2.1 (fun x => ?_) (fun x hx => ?_) (fun x hx => ?_)
  · rw [endBegin_get hi]
    split
    · exact ok_half (h.ok i)
    · exact h.ok x
  · rw [endBegin_get hi]
    unfold spend at hx
    dsimp only at hx
    split
    · rename_i e; rw [if_pos e] at hx; cases hx
    · rename_i e; rw [if_neg e] at hx; exact h.live x hx
  · have hx : w.ptrs.length ≤ x := by
      unfold endBegin at hx; rw [f.1] at hx; simpa using hx
    unfold spend
    dsimp only
    rw [if_neg (by omega)]
    exact h.new x hx

theorem endFinish_get {w : World V} {i : Nat} (hi : i < w.ptrs.length) (x : Nat) : (endFinish w i).get x = w.get x ∨
    (x = i ∧ (w.get i).guard = none ∧ (endFinish w i).get x = {}) := by
  unfold endFinish
  split
  · rename_i hg
    rw [get_congr (dropSlot_frame _ _).1, get_put _ _ _ _ hi]
    by_cases e : x = i
    · exact .inr ⟨e, hg, by rw [if_pos e]⟩
    · exact .inl (by rw [if_neg e])
  · exact .inl rfl

theorem endFinish_frame {w : World V} {i : Nat} : (endFinish w i).data = w.data ∧ (endFinish w i).stamp = w.stamp ∧
    (endFinish w i).n = w.n ∧ (endFinish w i).clock = w.clock ∧ (endFinish w i).ptrs.length = w.ptrs.length := by
  unfold endFinish
  split
  · have f := dropSlot_frame (w.put i {}) (w.get i)
    exact ⟨f.2.1, f.2.2.1, f.2.2.2.1, f.2.2.2.2.1, by rw [f.1]; simp⟩
  · exact ⟨rfl, rfl, rfl, rfl, rfl⟩

theorem endFinish_inv {w : World V} {sp : Nat → Bool} (h : Inv w sp) {i : Nat} (hi : i < w.ptrs.length) :
    Inv (endFinish w i) (spend w.ptrs.length sp (.endFinish i : Step V)) := by
  have f := endFinish_frame (w := w) (i := i)
  refine h.moved (endFinish_cnt h.cnt hi) f.2.2.1 f.2.1 f.2.2.2.1 (fun x => ?_) (fun x hx => ?_) (fun x hx => ?_)
  · rcases endFinish_get hi x with e | ⟨_, _, e⟩
    · rw [e]; exact h.ok x
    · rw [e]; exact ok_blank w
  · rcases endFinish_get hi x with e | ⟨_, _, e⟩
    · rw [e]; exact h.live x hx
    · rw [e]; exact live_blank
  · rw [f.2.2.2.2] at hx
    exact h.new x hx

/-- The invariant for the step with the variables that must not be read. -/
def next (a : World V × (Nat → Bool)) (st : Step V) : World V × (Nat → Bool) :=
  (step a.1 st, if (match st with
        | .move i | .drop i | .endBegin i | .endFinish i => decide (i < a.1.ptrs.length)
        | .assign i j | .swap i j | .resetTo i j => decide (i < a.1.ptrs.length) && decide (j < a.1.ptrs.length)
        | _ => true) then spend a.1.ptrs.length a.2 st else a.2)

theorem next_inv {a : World V × (Nat → Bool)} (h : Inv a.1 a.2) (st : Step V) : Inv (next a st).1 (next a st).2 := by
  obtain ⟨w, sp⟩ := a
  cases st with
  | publish s x => exact publish_inv h s x
  | getNew c k l => exact getNew_inv h c k l
  | move i =>
    by_cases hi : i < w.ptrs.length
    · simpa [next, step, hi] using move_inv h hi
    · simpa [next, step, hi] using h
  | assign i j =>
    by_cases hi : i < w.ptrs.length ∧ j < w.ptrs.length
    · simpa [next, step, hi] using assign_inv h hi.1 hi.2
    · simpa [next, step, hi] using h
  | swap i j =>
    by_cases hi : i < w.ptrs.length ∧ j < w.ptrs.length
    · simpa [next, step, hi] using swap_inv h hi.1 hi.2
    · simpa [next, step, hi] using h
  | drop i =>
    by_cases hi : i < w.ptrs.length
    · simpa [next, step, hi] using drop_inv h hi
    · simpa [next, step, hi] using h
  | resetTo i j =>
    by_cases hi : i < w.ptrs.length ∧ j < w.ptrs.length
    · simpa [next, step, hi] using resetTo_inv h hi.1 hi.2
    · simpa [next, step, hi] using h
  | endBegin i =>
    by_cases hi : i < w.ptrs.length
    · simpa [next, step, hi] using endBegin_inv h hi
    · simpa [next, step, hi] using h
  | endFinish i =>
    by_cases hi : i < w.ptrs.length
    · simpa [next, step, hi] using endFinish_inv h hi
    · simpa [next, step, hi] using h

theorem run_inv_from {w : World V} {sp : Nat → Bool} (h : Inv w sp) : ∀ l : List (Step V),
    Inv (l.foldl next (w, sp)).1 (l.foldl next (w, sp)).2 ∧ (l.foldl next (w, sp)).1 = run w l := by
  intro l
  induction l generalizing w sp with
  | nil => exact ⟨h, rfl⟩
  | cons st l ih =>
    have h1 := next_inv (a := (w, sp)) h st
    have := ih h1
    exact this

theorem init_inv (n : Nat) (max : Nat → Nat) (v : V) : Inv (init n max v) (fun _ => false) :=
  ⟨⟨rfl, fun s => by simp [init], fun c => by simp [init]⟩, fun i => by rw [get_ge (by simp [init])]; exact ok_blank _,
    fun i _ => by rw [get_ge (by simp [init])]; exact live_blank, fun _ _ => rfl, fun _ => Nat.le_refl _, fun s t _ h => absurd h (Nat.lt_irrefl 0)⟩

theorem run_inv (n : Nat) (max : Nat → Nat) (v : V) (l : List (Step V)) :
    Inv (run (init n max v) l) (spent (init n max v) l) := by
  have := run_inv_from (init_inv n max v) l
  rw [← this.2]
  exact this.1

/-! ## What a step leaves alone -/

theorem touch_get {w : World V} (st : Step V) {i : Nat} (hi : i < w.ptrs.length) (h : ¬ touches st i) : (step w st).get i = w.get i := by
  cases st with
  | publish s x => unfold step publish; dsimp only; split <;> rfl
  | getNew c k l =>
    rcases getNew_get w c k l i with e | ⟨e, _⟩
    · exact e
    · omega
  | move j =>
    unfold step; dsimp only
    split
    · rename_i hj; rw [move_get hj, if_neg (by omega), if_neg (show ¬ i = j from h)]
    · rfl
  | assign j k =>
    unfold step; dsimp only
    split
    · rename_i hj
      by_cases e : j = k
      · unfold assign; rw [if_pos e]
      · rw [assign_get hj.1 hj.2 e, if_neg (fun x => h (.inl x)), if_neg (fun x => h (.inr x))]
    · rfl
  | swap j k =>
    unfold step; dsimp only
    split
    · rename_i hj; rw [swap_get hj.1 hj.2, if_neg (fun x => h (.inl x)), if_neg (fun x => h (.inr x))]
    · rfl
  | drop j =>
    unfold step; dsimp only
    split
    · rename_i hj; rw [drop_get hj, if_neg (show ¬ i = j from h)]
    · rfl
  | resetTo j k =>
    unfold step; dsimp only
    split
    · rename_i hj; rw [resetTo_get hj.1 hj.2, if_neg (fun x => h (.inl x)), if_neg (fun x => h (.inr x))]
    · rfl
  | endBegin j =>
    unfold step; dsimp only
    split
    · rename_i hj; rw [endBegin_get hj, if_neg (show ¬ i = j from h)]
    · rfl
  | endFinish j =>
    unfold step; dsimp only
    split
    · rename_i hj
      rcases endFinish_get hj i with e | ⟨e, _⟩
      · exact e
      · exact absurd e h
    · rfl

theorem step_data {w : World V} (st : Step V) {s : Nat} (hs : 0 < w.refs s) :
    (step w st).data s = w.data s ∧ (step w st).stamp s = w.stamp s := by
  cases st with
  | publish t x =>
    unfold step publish; dsimp only
    split
    · rename_i h
      have : s ≠ t := by intro e; subst e; omega
      dsimp only
      rw [if_neg this, if_neg this]; exact ⟨rfl, rfl⟩
    · exact ⟨rfl, rfl⟩
  | getNew c k l => have f := getNew_frame w c k l; exact ⟨congrFun f.1 s, congrFun f.2.1 s⟩
  | move j => unfold step; dsimp only; split <;> exact ⟨rfl, rfl⟩
  | assign j k =>
    unfold step; dsimp only
    split
    · have f := assign_frame (w := w) (i := j) (j := k); exact ⟨congrFun f.1 s, congrFun f.2.1 s⟩
    · exact ⟨rfl, rfl⟩
  | swap j k => unfold step; dsimp only; split <;> exact ⟨rfl, rfl⟩
  | drop j =>
    unfold step; dsimp only
    split
    · have f := destroy_frame (w.put j {}) (w.get j); exact ⟨congrFun f.2.1 s, congrFun f.2.2.1 s⟩
    · exact ⟨rfl, rfl⟩
  | resetTo j k =>
    unfold step; dsimp only
    split
    · have f := resetTo_frame (w := w) (i := j) (j := k); exact ⟨congrFun f.1 s, congrFun f.2.1 s⟩
    · exact ⟨rfl, rfl⟩
  | endBegin j =>
    unfold step; dsimp only
    split
    · have f := dropGuard_frame (w.put j { w.get j with guard := none }) (w.get j); exact ⟨congrFun f.2.1 s, congrFun f.2.2.1 s⟩
    · exact ⟨rfl, rfl⟩
  | endFinish j =>
    unfold step; dsimp only
    split
    · have f := endFinish_frame (w := w) (i := j); exact ⟨congrFun f.1 s, congrFun f.2.1 s⟩
    · exact ⟨rfl, rfl⟩

theorem touch_spent {a : World V × (Nat → Bool)} {st : Step V} {i : Nat} (hi : i < a.1.ptrs.length) (h : ¬ touches st i) :
    (next a st).2 i = a.2 i := by
  unfold next
  dsimp only
  generalize (match st with
        | .move i | .drop i | .endBegin i | .endFinish i => decide (i < a.1.ptrs.length)
        | .assign i j | .swap i j | .resetTo i j => decide (i < a.1.ptrs.length) && decide (j < a.1.ptrs.length)
        | _ => true) = b
  cases b
  · rfl
  · rw [if_pos rfl]
    cases st with
    | publish s x => rfl
    | getNew c k l => rfl
    | move j => unfold spend; dsimp only; rw [if_neg (by omega), if_neg (show ¬ i = j from h)]
    | assign j k => unfold spend; dsimp only; rw [if_neg (fun x => h (.inl x)), if_neg (fun x => h (.inr x))]; split <;> rfl
    | swap j k => unfold spend; dsimp only; rw [if_neg (fun x => h (.inl x)), if_neg (fun x => h (.inr x))]
    | drop j => unfold spend; dsimp only; rw [if_neg (show ¬ i = j from h)]
    | resetTo j k => unfold spend; dsimp only; rw [if_neg (fun x => h (.inl x)), if_neg (fun x => h (.inr x))]
    | endBegin j => unfold spend; dsimp only; rw [if_neg (show ¬ i = j from h)]
    | endFinish j => rfl

theorem kept_from {i s : Nat} : ∀ (l : List (Step V)) (a : World V × (Nat → Bool)), Inv a.1 a.2 → a.2 i = false → Holds a.1 i s →
    (∀ st ∈ l, ¬ touches st i) → (l.foldl next a).1.get i = a.1.get i ∧ (l.foldl next a).1.data s = a.1.data s ∧
      (l.foldl next a).1.stamp s = a.1.stamp s := by
  intro l
  induction l with
  | nil => intro a _ _ _ _; exact ⟨rfl, rfl, rfl⟩
  | cons st l ih =>
    intro a h hs hh ht
    obtain ⟨c, hd, _⟩ := holds_dec h hs hh
    have hi : i < a.1.ptrs.length := by
      apply Nat.lt_of_not_le; intro e; rw [get_ge e] at hd; cases hd
    have ht0 := ht st List.mem_cons_self
    have e1 := touch_get st hi ht0
    have e2 := step_data st (refs_pos h.cnt hd)
    have e3 := touch_spent (a := a) hi ht0
    have := ih (next a st) (next_inv h st) (e3.trans hs) (by
      unfold Holds; show ((step a.1 st).get i).bool = true ∧ ((step a.1 st).get i).target = some s
      rw [e1]; exact hh) (fun x hx => ht x (List.mem_cons_of_mem _ hx))
    exact ⟨this.1.trans e1, this.2.1.trans e2.1, this.2.2.trans e2.2⟩

/-! ## Guards stay as long as slots, unless a destructor is interrupted -/

def PWhole (p : Ptr) : Prop := ∀ c s, p.dec = some (c, s) → p.guard = some c

def Whole (w : World V) : Prop := ∀ i, PWhole (w.get i)

theorem step_whole {w : World V} (h : Whole w) (st : Step V) (hst : ∀ i, st ≠ .endBegin i) : Whole (step w st) := by
  have blank : PWhole {} := by intro c s e; cases e
  intro i
  cases st with
  | publish t x =>
    have e : (step w (.publish t x)).get i = w.get i := by unfold step publish; dsimp only; split <;> rfl
    rw [e]; exact h i
  | getNew c' k l =>
    show PWhole ((getNew w c' k l).1.get i)
    rcases getNew_get w c' k l i with e | ⟨_, t, _, e⟩
    · rw [e]; exact h i
    · rw [e]; intro c s hd; cases hd; rfl
  | move j =>
    unfold step; dsimp only
    split
    · rename_i hj
      rw [move_get hj]
      split
      · exact h _
      · split
        · exact blank
        · exact h _
    · exact h i
  | assign j k =>
    unfold step; dsimp only
    split
    · rename_i hj
      by_cases e : j = k
      · unfold assign; rw [if_pos e]; exact h i
      · rw [assign_get hj.1 hj.2 e]
        split
        · exact h _
        · split
          · intro c s hd; cases hd
          · exact h _
    · exact h i
  | swap j k =>
    unfold step; dsimp only
    split
    · rename_i hj
      rw [swap_get hj.1 hj.2]
      split
      · exact h _
      · split
        · exact h _
        · exact h _
    · exact h i
  | drop j =>
    unfold step; dsimp only
    split
    · rename_i hj
      rw [drop_get hj]
      split
      · exact blank
      · exact h _
    · exact h i
  | resetTo j k =>
    unfold step; dsimp only
    split
    · rename_i hj
      rw [resetTo_get hj.1 hj.2]
      split
      · exact h _
      · split
        · exact blank
        · exact h _
    · exact h i
  | endBegin j => exact absurd rfl (hst j)
  | endFinish j =>
    unfold step; dsimp only
    split
    · rename_i hj
      rcases endFinish_get hj i with e | ⟨_, _, e⟩
      · rw [e]; exact h i
      · rw [e]; exact blank
    · exact h i

theorem run_whole {l : List (Step V)} : ∀ {w : World V}, Whole w → (∀ st ∈ l, ∀ i, st ≠ .endBegin i) → Whole (run w l) := by
  induction l with
  | nil => intro w h _; exact h
  | cons st l ih =>
    intro w h hl
    exact ih (step_whole h st (hl st List.mem_cons_self)) (fun x hx => hl x (List.mem_cons_of_mem _ hx))

theorem mem_get {w : World V} {p : Ptr} (hp : p ∈ w.ptrs) : ∃ i, i < w.ptrs.length ∧ w.get i = p := by
  obtain ⟨i, hi, e⟩ := List.getElem_of_mem hp
  exact ⟨i, hi, by unfold World.get; rw [List.getD_eq_getElem?_getD, List.getElem?_eq_getElem hi]; exact e⟩

/-! ## Giving back -/

theorem dropGuard_none {w : World V} {p : Ptr} (h : p.guard = none) : dropGuard w p = w := by unfold dropGuard; rw [h]
theorem dropSlot_none {w : World V} {p : Ptr} (h : p.dec = none) : dropSlot w p = w := by unfold dropSlot; rw [h]

theorem dropGuard_avail {w : World V} {p : Ptr} {c : Nat} (h : p.guard = some c) :
    (dropGuard w p).avail c = w.avail c + 1 ∧ ∀ d, d ≠ c → (dropGuard w p).avail d = w.avail d := by
  unfold dropGuard
  rw [h]
  dsimp only
  by_cases hc : (if c = c then w.avail c + 1 else w.avail c) ≤ w.max c
  · rw [if_pos hc]; exact ⟨by simp, fun d hd => by simp [hd]⟩
  · rw [if_neg hc]; exact ⟨by simp [World.fail], fun d hd => by simp [World.fail, hd]⟩

theorem dropSlot_refs {w : World V} {p : Ptr} {c s : Nat} (h : p.dec = some (c, s)) (hs : 0 < w.refs s) :
    (dropSlot w p).refs s + 1 = w.refs s ∧ ∀ t, t ≠ s → (dropSlot w p).refs t = w.refs t := by
  unfold dropSlot
  rw [h]
  dsimp only
  rw [if_neg (by omega)]
  exact ⟨by simp; omega, fun t ht => by simp [ht]⟩

theorem destroy_gives {w w1 : World V} {p : Ptr} {c s : Nat} (h1 : w1.refs = w.refs) (h2 : w1.avail = w.avail) (hd : p.dec = some (c, s))
    (hg : p.guard = some c) (hs : 0 < w.refs s) : GivesBack w (destroy w1 p) s := by
  have a := dropGuard_avail (w := w1) hg
  have f := dropGuard_frame w1 p
  have b := dropSlot_refs (w := dropGuard w1 p) hd (by rw [f.2.2.2.2.2.2, h1]; exact hs)
  have f2 := dropSlot_frame (dropGuard w1 p) p
  unfold destroy
  rw [f.2.2.2.2.2.2, h1] at b
  rw [h2] at a
  refine ⟨b.1, b.2, c, ?_, fun d hdc => ?_⟩
  · rw [f2.2.2.2.2.2.2]; exact a.1
  · rw [f2.2.2.2.2.2.2]; exact a.2 d hdc

theorem destroy_none {w : World V} {p : Ptr} (hd : p.dec = none) (hg : p.guard = none) : destroy w p = w := by
  unfold destroy; rw [dropGuard_none hg, dropSlot_none hd]

theorem null_eq {w : World V} {sp : Nat → Bool} (h : Inv w sp) {i : Nat} (hn : Null w i) : w.get i = {} := (h.ok i).blank hn.1

theorem dropAll_get (w : World V) : ∀ k, k ≤ w.ptrs.length → (run w ((List.range k).map .drop)).ptrs.length = w.ptrs.length ∧
    ∀ x, (run w ((List.range k).map .drop)).get x = if x < k then {} else w.get x := by
  intro k
  induction k with
  | zero => intro _; exact ⟨rfl, fun x => by simp [run]⟩
  | succ k ih =>
    intro hk
    have e : run w ((List.range (k + 1)).map .drop) = step (run w ((List.range k).map .drop)) (.drop k) := by
      unfold run
      rw [List.range_succ, List.map_append, List.foldl_append]
      rfl
    obtain ⟨h1, h2⟩ := ih (by omega)
    rw [e]
    unfold step
    dsimp only
    rw [if_pos (by rw [h1]; omega)]
    refine ⟨?_, fun x => ?_⟩
    · unfold drop; rw [(destroy_frame _ _).1]; simpa using h1
    · rw [drop_get (by rw [h1]; omega), h2]
      by_cases e : x = k
      · subst e; simp
      · rw [if_neg e]
        by_cases hx : x < k
        · rw [if_pos hx, if_pos (by omega)]
        · rw [if_neg hx, if_neg (by omega)]

theorem run_append (w : World V) (l l' : List (Step V)) : run w (l ++ l') = run (run w l) l' := by
  unfold run; rw [List.foldl_append]

end
end Verif.SamplePtr
