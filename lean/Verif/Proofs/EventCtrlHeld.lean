import Verif.Proofs.EventCtrlInv
/-! The samples a user holds are samples that were delivered in this subscription. -/
namespace Verif.Ctrl
open Verif Verif.Slot
variable {V : Type}

/-- A slot is newly held only because its sample was just delivered. -/
def HEffect (slots : Nat → Word) (data : Nat → V) (c c' : Cons V) (i : Nat) : Prop :=
  (c.held i = true ∧ ∀ x ∈ c.delivered, x ∈ c'.delivered) ∨
  (c.cnt i = true ∧ (tsN (slots i), data i) ∈ c'.delivered)

theorem getter_held {n : Nat} {slots : Nat → Word} {data : Nat → V} {c : Cons V} {sp : Bool}
    (h : CInv n slots c) {i : Nat} (hi : (getterStep n slots data c sp).1.held i = true) :
    HEffect slots data c (getterStep n slots data c sp).1 i := by
  cases hpc : c.pc with
  | deliver todo =>
    cases htd : todo with
    | nil =>
      simp only [getterStep, hpc, htd] at hi ⊢
      exact Or.inl ⟨hi, fun _ h => h⟩
    | cons j rest =>
      simp only [getterStep, hpc, htd] at hi ⊢
      by_cases hij : i = j
      · subst hij
        right
        refine ⟨?_, by simp⟩
        have hsi := h.slot (by rw [hpc]; rfl) i
        have hmem : i ∈ pend c.pc := by rw [hpc, htd]; simp [pend]
        rcases hsi with h | h | ⟨_, _, h⟩ | h | h | h <;> simp_all
      · left
        simp only [upd_ne _ _ hij] at hi
        exact ⟨hi, fun _ h => List.mem_cons_of_mem _ h⟩
  | rbAt k =>
    have hd := (h.dead (by rw [hpc]; rfl)).1 i
    simp only [getterStep, hpc] at hi
    (repeat' split at hi) <;> simp_all
  | _ =>
    left
    revert hi
    simp only [getterStep, hpc]
    (repeat' split) <;> intro hi <;> first | exact ⟨hi, fun _ h => h⟩ | cases hi

theorem step_held {s : St V} (h : Inv s) (op : Op V) {c i : Nat} (hc : c < s.m)
    (hi : ((step s op).cons c).held i = true) : HEffect s.slots s.data (s.cons c) ((step s op).cons c) i := by
  have same : ((step s op).cons c) = s.cons c → HEffect s.slots s.data (s.cons c) ((step s op).cons c) i := by
    intro he; rw [he] at hi ⊢; exact Or.inl ⟨hi, fun _ h => h⟩
  have upd_case : ∀ d (c' : Cons V), (step s op).cons = upd s.cons d c' →
      (d = c → c'.held i = true → HEffect s.slots s.data (s.cons d) c' i) →
      HEffect s.slots s.data (s.cons c) ((step s op).cons c) i := by
    intro d c' he hx
    by_cases hdc : d = c
    · subst hdc
      rw [he, upd_self] at hi ⊢
      exact hx rfl hi
    · exact same (by rw [he, upd_ne _ _ (Ne.symm hdc)])
  cases op with
  | provAlloc => apply same; simp only [step]; split <;> rfl
  | provStep => apply same; simp only [step, provStep]; repeat' split
                all_goals rfl
  | provWrite => apply same; simp only [step]; split <;> rfl
  | provSend => apply same; simp only [step]; split <;> rfl
  | provDiscard => apply same; simp only [step]; split <;> rfl
  | provRestart => apply same; rfl
  | consGet d k =>
    by_cases hx : d < s.m ∧ (s.cons d).pc = .idle
    · refine upd_case d _ (by simp only [step, hx, and_self, if_true]; rfl) ?_
      exact fun _ hh => Or.inl ⟨hh, fun _ h => h⟩
    · exact same (by simp only [step, hx, if_false])
  | consStep d sp =>
    by_cases hx : d < s.m
    · exact upd_case d _ (by simp only [step, hx, if_true]; rfl) (fun _ hh => getter_held (h.cons d hx) hh)
    · exact same (by simp only [step, hx, if_false])
  | consRelease d j =>
    by_cases hx : d < s.m ∧ (s.cons d).pc.live
    · refine upd_case d _ (by simp only [step, hx, and_self, if_true]; rfl) ?_
      intro _ hh
      left
      revert hh
      unfold relStart
      (repeat' split) <;> intro hh
      · simp only [upd_apply] at hh
        split at hh
        · cases hh
        · exact ⟨hh, fun _ h => h⟩
      · cases hh
      · exact ⟨hh, fun _ h => h⟩
    · exact same (by simp only [step, hx, if_false])
  | consRelStep d j =>
    by_cases hx : d < s.m
    · refine upd_case d _ (by simp only [step, hx, if_true]; rfl) ?_
      intro _ hh
      left
      revert hh
      unfold relStep
      (repeat' split) <;> intro hh <;> first | exact ⟨hh, fun _ h => h⟩ | cases hh
    · exact same (by simp only [step, hx, if_false])
  | consResubscribe d =>
    by_cases hx : d < s.m ∧ (s.cons d).pc = .idle
    · have hci := h.cons d hx.1
      by_cases he : logEmpty (s.cons d) s.n = true
      · refine upd_case d _ (by simp only [step, hx, he, and_self, if_true]; rfl) ?_
        intro _ hh
        have hh : (s.cons d).held i = true := hh
        have he' := (logEmpty_iff _ _).mp he
        have hz : (s.cons d).b i = false := by
          by_cases hi : i < s.n
          · exact (he' i hi).1
          · exact (hci.bound i (by omega)).1
        rcases hci.slot (by rw [hx.2]; rfl) i with h | h | ⟨_, _, h⟩ | h | h | h <;> simp_all
      · refine upd_case d _ (by simp only [step, hx, he, and_self, if_true]; rfl) ?_
        intro _ hh; simp [Cons.die] at hh
    · exact same (by simp only [step, hx, if_false])
  | consCrash d =>
    by_cases hx : d < s.m
    · by_cases hp : (s.cons d).pc = .rbFailed
      · exact same (by simp only [step, hx, if_true, hp])
      · refine upd_case d _ (by simp only [step, hx, if_true]; rfl) ?_
        intro _ hh; simp [Cons.die] at hh
    · exact same (by simp only [step, hx, if_false])
  | consRecover d =>
    by_cases hx : d < s.m
    · have : (step s (.consRecover d)).cons = s.cons ∨
          (step s (.consRecover d)).cons = upd s.cons d { s.cons d with pc := .rbAt 0 } := by
        simp only [step, hx, if_true]
        split <;> simp
      rcases this with h1 | h1
      · exact same (by rw [h1])
      · exact upd_case d _ h1 (fun _ hh => Or.inl ⟨hh, fun _ h => h⟩)
    · exact same (by simp only [step, hx, if_false])

/-- Every sample in the hands of the user is listed as delivered in this subscription. -/
def HeldDelivered (s : St V) : Prop :=
  ∀ c, c < s.m → ∀ i, (s.cons c).held i = true → (tsN (s.slots i), s.data i) ∈ (s.cons c).delivered

theorem heldDelivered_step {s : St V} (h : Inv s) (hd : HeldDelivered s) (op : Op V) :
    HeldDelivered (step s op) := by
  intro c hc i hi
  rw [(step_nm s op).2] at hc
  rcases step_held h op hc hi with ⟨h1, h2⟩ | ⟨h1, h2⟩
  · have hst := step_stable h op (refs_pos hc (held_cnt (h.cons c hc) h1))
    rw [hst.1, hst.2]
    exact h2 _ (hd c hc i h1)
  · have hst := step_stable h op (refs_pos hc h1)
    rw [hst.1, hst.2]
    exact h2

theorem heldDelivered_run {s : St V} (h : Inv s) (hd : HeldDelivered s) (ops : List (Op V)) :
    HeldDelivered (run s ops) := by
  induction ops generalizing s with
  | nil => exact hd
  | cons op ops ih => exact ih (step_inv h op) (heldDelivered_step h hd op)

/-! ### Timestamps without restart -/

/-- Counter invariant as long as the provider does not restart and the counter does not wrap. -/
structure SentInv (s : St V) : Prop where
  cur : s.sent.length < 2 ^ 32 → s.cur = s.sent.length
  ts : s.sent.length < 2 ^ 32 → s.sent.map (·.1) = (List.range s.sent.length).reverse.map (· + 1)

theorem step_sent (s : St V) (op : Op V) (hr : op.isRestart = false) :
    ((step s op).sent = s.sent ∧ (step s op).cur = s.cur) ∨
    ∃ v, (step s op).cur = (s.cur + 1) % 2 ^ 32 ∧ (step s op).sent = ((s.cur + 1) % 2 ^ 32, v) :: s.sent := by
  cases op with
  | provSend i =>
    simp only [step]
    split
    · right; exact ⟨_, rfl, rfl⟩
    · left; exact ⟨rfl, rfl⟩
  | provRestart => simp [Op.isRestart] at hr
  | provStep => left; simp only [step, provStep]; repeat' split
                all_goals exact ⟨rfl, rfl⟩
  | _ => left; simp only [step]; repeat' split
         all_goals exact ⟨rfl, rfl⟩

theorem sentInv_step {s : St V} (h : SentInv s) (op : Op V) (hr : op.isRestart = false) : SentInv (step s op) := by
  rcases step_sent s op hr with ⟨h1, h2⟩ | ⟨v, h1, h2⟩
  · constructor
    · rw [h1, h2]; exact h.cur
    · rw [h1]; exact h.ts
  · have hm : s.sent.length + 1 < 2 ^ 32 → (s.cur + 1) % 2 ^ 32 = s.sent.length + 1 := by
      intro hl
      rw [h.cur (by omega)]
      exact Nat.mod_eq_of_lt hl
    constructor
    · intro hl
      rw [h2] at hl ⊢
      simp only [List.length_cons] at hl ⊢
      rw [h1]; exact hm hl
    · intro hl
      rw [h2] at hl ⊢
      simp only [List.length_cons] at hl ⊢
      rw [List.map_cons, h.ts (by omega), hm hl, List.range_succ]
      simp

theorem sentInv_run {s : St V} (h : SentInv s) (ops : List (Op V)) (hr : ∀ op ∈ ops, op.isRestart = false) :
    SentInv (run s ops) := by
  induction ops generalizing s with
  | nil => exact h
  | cons op ops ih =>
    exact ih (sentInv_step h op (hr op (by simp))) (fun o ho => hr o (by simp [ho]))

theorem sentInv_init (n m : Nat) (v0 : V) : SentInv (init n m v0) :=
  ⟨fun _ => rfl, fun _ => rfl⟩

theorem pairwise_desc_range (k : Nat) :
    ((List.range k).reverse.map (· + 1)).Pairwise (fun x y => y < x) := by
  rw [List.pairwise_map, List.pairwise_reverse]
  exact List.pairwise_lt_range.imp (by intro a b h; omega)

/-- Two strictly descending lists, one contained in the other: it is a sublist. -/
theorem sublist_of_desc {a b : List (Nat × V)} (ha : a.Pairwise (fun x y => y.1 < x.1))
    (hb : b.Pairwise (fun x y => y.1 < x.1)) (hab : ∀ x ∈ a, x ∈ b) : a.Sublist b := by
  induction b generalizing a with
  | nil =>
    cases a with
    | nil => exact List.Sublist.slnil
    | cons x xs => exact absurd (hab x (by simp)) (by simp)
  | cons y ys ih =>
    rw [List.pairwise_cons] at hb
    cases a with
    | nil => exact List.nil_sublist _
    | cons x xs =>
      rw [List.pairwise_cons] at ha
      rcases List.mem_cons.mp (hab x (by simp)) with h1 | h1
      · subst h1
        refine List.Sublist.cons_cons _ (ih ha.2 hb.2 ?_)
        intro z hz
        rcases List.mem_cons.mp (hab z (by simp [hz])) with h2 | h2
        · subst h2; have := ha.1 z hz; omega
        · exact h2
      · refine List.Sublist.cons _ (ih (by rw [List.pairwise_cons]; exact ha) hb.2 ?_)
        intro z hz
        rcases List.mem_cons.mp (hab z hz) with h2 | h2
        · subst h2
          have h3 := hb.1 x h1
          rcases List.mem_cons.mp hz with h4 | h4
          · subst h4; omega
          · have := ha.1 z h4; omega
        · exact h2


/-! ### References in terms of what the code can observe -/

theorem cnt_hasRef {n : Nat} {slots : Nat → Word} {c : Cons V} (h : CInv n slots c)
    (hl : c.pc.live = true) (i : Nat) : c.cnt i = hasRef c i := by
  unfold hasRef
  rcases h.slot hl i with h | h | ⟨h0, k, h⟩ | h | h | h
  · simp_all
  · obtain ⟨h1, h2, h3, h4, h5, h6, h7⟩ := h
    have := h7 true
    have h8 : (mid c.pc == some (i, true)) = false := by simpa using this
    simp [*]
  · obtain ⟨h1, h2, h3, h4, h5, h6⟩ := h
    rw [h1, h4, h0, h5]
    have h8 : (pend c.pc).contains i = false := by simpa using h6
    rw [h8]
    cases k <;> simp
  · obtain ⟨h1, h2, h3, h4, h5, h6, h7⟩ := h
    have := h2 true
    have h8 : (mid c.pc == some (i, true)) = false := by simpa using this
    simp [*]
  · simp_all
  · simp_all

/-! ### Ambiguous log entries -/

/-- A dead consumer whose log entry `i` is ambiguous, recovery not beyond `i`. -/
def Amb (c : Cons V) (i : Nat) : Prop :=
  c.pc.live = false ∧ c.b i ≠ c.e i ∧ (∀ j, c.rel j = .none) ∧
  match c.pc with
  | .rbAt k => k ≤ i
  | .rbBegun k => k < i
  | .rbSubbed k => k < i
  | _ => True

theorem amb_getter {n : Nat} {slots : Nat → Word} {data : Nat → V} {c : Cons V} {sp : Bool} {i : Nat}
    (hin : i < n) (h : Amb c i) :
    Amb (getterStep n slots data c sp).1 i ∧ (getterStep n slots data c sp).2 i = slots i ∧
    (getterStep n slots data c sp).1.cnt i = c.cnt i ∧
    (getterStep n slots data c sp).1.b i = c.b i ∧ (getterStep n slots data c sp).1.e i = c.e i := by
  obtain ⟨h1, h2, h4, h3⟩ := h
  cases hpc : c.pc with
  | rbAt k =>
    simp only [hpc] at h3
    simp only [getterStep, hpc]
    have hk : k < n := by omega
    simp only [hk, if_true]
    split
    · rename_i hbe
      have : k ≠ i := by intro e; subst e; rw [hbe.1, hbe.2] at h2; exact h2 rfl
      refine ⟨⟨rfl, ?_, h4, by show k < i; omega⟩, by trivial, by trivial, ?_, by trivial⟩
      · show upd c.b k false i ≠ c.e i
        rw [upd_ne _ _ (Ne.symm this)]; exact h2
      · show upd c.b k false i = _
        rw [upd_ne _ _ (Ne.symm this)]
    · split
      · exact ⟨⟨rfl, h2, h4, trivial⟩, by trivial, by trivial, by trivial, by trivial⟩
      · rename_i hx hy
        have : k ≠ i := by
          intro e; subst e
          apply h2
          cases h5 : c.b k <;> cases h6 : c.e k <;> simp_all
        exact ⟨⟨rfl, h2, h4, by show k + 1 ≤ i; omega⟩, by trivial, by trivial, by trivial, by trivial⟩
  | rbBegun k =>
    simp only [hpc] at h3
    simp only [getterStep, hpc]
    refine ⟨⟨rfl, h2, h4, h3⟩, ?_, ?_, by trivial, by trivial⟩
    · exact upd_ne _ _ (by omega)
    · exact upd_ne _ _ (by omega)
  | rbSubbed k =>
    simp only [hpc] at h3
    simp only [getterStep, hpc]
    have he : upd c.e k false i = c.e i := upd_ne _ _ (by omega)
    refine ⟨⟨rfl, ?_, h4, by show k + 1 ≤ i; omega⟩, by trivial, by trivial, by trivial, he⟩
    show c.b i ≠ upd c.e k false i
    rw [he]; exact h2
  | crashed => simp only [getterStep, hpc]; exact ⟨⟨h1, h2, h4, h3⟩, by trivial, by trivial, by trivial, by trivial⟩
  | assertFailed => simp only [getterStep, hpc]; exact ⟨⟨h1, h2, h4, h3⟩, by trivial, by trivial, by trivial, by trivial⟩
  | waitTimeout => simp only [getterStep, hpc]; exact ⟨⟨h1, h2, h4, h3⟩, by trivial, by trivial, by trivial, by trivial⟩
  | unsubAbort => simp only [getterStep, hpc]; exact ⟨⟨h1, h2, h4, h3⟩, by trivial, by trivial, by trivial, by trivial⟩
  | rbFailed => simp only [getterStep, hpc]; exact ⟨⟨h1, h2, h4, h3⟩, by trivial, by trivial, by trivial, by trivial⟩
  | _ => rw [hpc] at h1; simp [CPc.live] at h1

theorem amb_step {s : St V} (op : Op V) {c i : Nat} (hc : c < s.m) (hin : i < s.n)
    (ha : Amb (s.cons c) i) :
    Amb ((step s op).cons c) i ∧ ((step s op).cons c).cnt i = (s.cons c).cnt i ∧
    ((step s op).cons c).b i = (s.cons c).b i ∧ ((step s op).cons c).e i = (s.cons c).e i := by
  have same : ((step s op).cons c) = s.cons c → Amb ((step s op).cons c) i ∧
      ((step s op).cons c).cnt i = (s.cons c).cnt i ∧
      ((step s op).cons c).b i = (s.cons c).b i ∧ ((step s op).cons c).e i = (s.cons c).e i := by
    intro he; rw [he]; exact ⟨ha, rfl, rfl, rfl⟩
  have upd_case : ∀ d (c' : Cons V), (step s op).cons = upd s.cons d c' →
      (d = c → Amb c' i ∧ c'.cnt i = (s.cons c).cnt i ∧ c'.b i = (s.cons c).b i ∧ c'.e i = (s.cons c).e i) →
      Amb ((step s op).cons c) i ∧ ((step s op).cons c).cnt i = (s.cons c).cnt i ∧
      ((step s op).cons c).b i = (s.cons c).b i ∧ ((step s op).cons c).e i = (s.cons c).e i := by
    intro d c' he hx
    by_cases hdc : d = c
    · subst hdc
      rw [he, upd_self]
      exact hx rfl
    · exact same (by rw [he, upd_ne _ _ (Ne.symm hdc)])
  have hnl : (s.cons c).pc.live = false := ha.1
  cases op with
  | provAlloc => apply same; simp only [step]; split <;> rfl
  | provStep => apply same; simp only [step, provStep]; repeat' split
                all_goals rfl
  | provWrite => apply same; simp only [step]; split <;> rfl
  | provSend => apply same; simp only [step]; split <;> rfl
  | provDiscard => apply same; simp only [step]; split <;> rfl
  | provRestart => apply same; rfl
  | consGet d k =>
    by_cases hx : d < s.m ∧ (s.cons d).pc = .idle
    · refine upd_case d _ (by simp only [step, hx, and_self, if_true]; rfl) ?_
      intro hdc; subst hdc; rw [hx.2] at hnl; simp [CPc.live] at hnl
    · exact same (by simp only [step, hx, if_false])
  | consStep d sp =>
    by_cases hx : d < s.m
    · refine upd_case d _ (by simp only [step, hx, if_true]; rfl) ?_
      intro hdc; subst hdc
      have := amb_getter (slots := s.slots) (data := s.data) (sp := sp) hin ha
      exact ⟨this.1, this.2.2⟩
    · exact same (by simp only [step, hx, if_false])
  | consRelease d j =>
    by_cases hx : d < s.m ∧ (s.cons d).pc.live
    · refine upd_case d _ (by simp only [step, hx, and_self, if_true]; rfl) ?_
      intro hdc; subst hdc; rw [hx.2] at hnl; simp at hnl
    · exact same (by simp only [step, hx, if_false])
  | consRelStep d j =>
    by_cases hx : d < s.m
    · refine upd_case d _ (by simp only [step, hx, if_true]; rfl) ?_
      intro hdc; subst hdc
      unfold relStep
      rw [ha.2.2.1 j]
      exact ⟨ha, rfl, rfl, rfl⟩
    · exact same (by simp only [step, hx, if_false])
  | consResubscribe d =>
    by_cases hx : d < s.m ∧ (s.cons d).pc = .idle
    · have hdc : d ≠ c := by intro e; subst e; rw [hx.2] at hnl; simp [CPc.live] at hnl
      by_cases he : logEmpty (s.cons d) s.n = true
      · exact upd_case d _ (by simp only [step, hx, he, and_self, if_true]; rfl) (fun e => absurd e hdc)
      · exact upd_case d _ (by simp only [step, hx, he, and_self, if_true]; rfl) (fun e => absurd e hdc)
    · exact same (by simp only [step, hx, if_false])
  | consCrash d =>
    by_cases hx : d < s.m
    · by_cases hp : (s.cons d).pc = .rbFailed
      · exact same (by simp only [step, hx, if_true, hp])
      · refine upd_case d _ (by simp only [step, hx, if_true]; rfl) ?_
        intro hdc; subst hdc
        exact ⟨⟨rfl, ha.2.1, fun _ => rfl, trivial⟩, rfl, rfl, rfl⟩
    · exact same (by simp only [step, hx, if_false])
  | consRecover d =>
    by_cases hx : d < s.m
    · have : (step s (.consRecover d)).cons = s.cons ∨
          (step s (.consRecover d)).cons = upd s.cons d { s.cons d with pc := .rbAt 0 } := by
        simp only [step, hx, if_true]
        split <;> simp
      rcases this with h1 | h1
      · exact same (by rw [h1])
      · refine upd_case d _ h1 ?_
        intro hdc; subst hdc
        exact ⟨⟨rfl, ha.2.1, ha.2.2.1, Nat.zero_le _⟩, rfl, rfl, rfl⟩
    · exact same (by simp only [step, hx, if_false])

theorem amb_run {s : St V} (ops : List (Op V)) {c i : Nat} (hc : c < s.m) (hin : i < s.n)
    (ha : Amb (s.cons c) i) :
    Amb ((run s ops).cons c) i ∧ ((run s ops).cons c).cnt i = (s.cons c).cnt i ∧
    ((run s ops).cons c).b i = (s.cons c).b i ∧ ((run s ops).cons c).e i = (s.cons c).e i := by
  induction ops generalizing s with
  | nil => exact ⟨ha, rfl, rfl, rfl⟩
  | cons op ops ih =>
    have h1 := amb_step op hc hin ha
    have hnm := step_nm s op
    have h2 := ih (s := step s op) (by rw [hnm.2]; exact hc) (by rw [hnm.1]; exact hin) h1.1
    have : run s (op :: ops) = run (step s op) ops := rfl
    rw [this]
    exact ⟨h2.1, h2.2.1.trans h1.2.1, h2.2.2.1.trans h1.2.2.1, h2.2.2.2.trans h1.2.2.2⟩

/-! ### Undisturbed recovery terminates -/

theorem cons_step_cons (s : St V) {c : Nat} (hc : c < s.m) :
    ((step s (.consStep c false)).cons c) = (getterStep s.n s.slots s.data (s.cons c) false).1 := by
  simp only [step, hc, if_true, upd_self]

/-- From `rbAt k`, undisturbed recovery succeeds if no remaining entry is ambiguous and fails
otherwise. -/
theorem rb_run (k : Nat) : ∀ (r : Nat) (s : St V) (c : Nat), c < s.m → (s.cons c).pc = .rbAt k → s.n - k = r →
    ∃ j, let s' := run s (List.replicate j (.consStep c false))
      ((∀ i, k ≤ i → i < s.n → (s.cons c).b i = (s.cons c).e i) → (s'.cons c).pc = .idle) ∧
      ((∃ i, k ≤ i ∧ i < s.n ∧ (s.cons c).b i ≠ (s.cons c).e i) → (s'.cons c).pc = .rbFailed) := by
  intro r
  induction r generalizing k with
  | zero =>
    intro s c hc hpc hr
    refine ⟨1, ?_⟩
    have hk : ¬ k < s.n := by omega
    constructor
    · intro _
      show ((step s (.consStep c false)).cons c).pc = _
      rw [cons_step_cons s hc]
      simp [getterStep, hpc, hk]
    · rintro ⟨i, h1, h2, _⟩; omega
  | succ r ih =>
    intro s c hc hpc hr
    have hk : k < s.n := by omega
    have hnm := step_nm s (.consStep c false)
    have hst := cons_step_cons s hc
    have cont : ∀ (p : Nat) (s1 : St V), s1 = run s (List.replicate p (.consStep c false)) →
        (s1.cons c).pc = .rbAt (k + 1) →
        (∀ i, k < i → (s1.cons c).b i = (s.cons c).b i ∧ (s1.cons c).e i = (s.cons c).e i) →
        (s.cons c).b k = (s.cons c).e k →
        ∃ j, let s' := run s (List.replicate j (.consStep c false))
          ((∀ i, k ≤ i → i < s.n → (s.cons c).b i = (s.cons c).e i) → (s'.cons c).pc = .idle) ∧
          ((∃ i, k ≤ i ∧ i < s.n ∧ (s.cons c).b i ≠ (s.cons c).e i) → (s'.cons c).pc = .rbFailed) := by
      intro p s1 hs1 hpc1 hbits hbk
      have hnm1 : s1.n = s.n ∧ s1.m = s.m := by rw [hs1]; exact run_nm s _
      obtain ⟨j, hj⟩ := ih (k + 1) s1 c (by rw [hnm1.2]; exact hc) hpc1 (by rw [hnm1.1]; omega)
      refine ⟨p + j, ?_⟩
      have hrun : run s (List.replicate (p + j) (.consStep c false)) = run s1 (List.replicate j (.consStep c false)) := by
        rw [← List.replicate_append_replicate, run_append, hs1]
      show _ ∧ _
      rw [hrun]
      constructor
      · intro hall
        apply hj.1
        intro i hi hin
        have hb := hbits i (by omega)
        rw [hb.1, hb.2]
        exact hall i (by omega) (by rw [← hnm1.1]; exact hin)
      · rintro ⟨i, h1, h2, h3⟩
        apply hj.2
        have hik : i ≠ k := by intro e; subst e; exact h3 hbk
        have hb := hbits i (by omega)
        exact ⟨i, by omega, by rw [hnm1.1]; exact h2, by rw [hb.1, hb.2]; exact h3⟩
    by_cases h11 : (s.cons c).b k = true ∧ (s.cons c).e k = true
    · -- three steps to rbAt (k+1)
      have e1 : (getterStep s.n s.slots s.data (s.cons c) false).1 =
          { s.cons c with b := upd (s.cons c).b k false, pc := .rbBegun k } := by
        simp [getterStep, hpc, hk, h11]
      rw [e1] at hst
      have hst2 := cons_step_cons (step s (.consStep c false)) (c := c) (by rw [hnm.2]; exact hc)
      have hnm2 := step_nm (step s (.consStep c false)) (.consStep c false)
      rw [hst] at hst2
      simp only [getterStep] at hst2
      have hst3 := cons_step_cons (step (step s (.consStep c false)) (.consStep c false)) (c := c)
        (by rw [hnm2.2, hnm.2]; exact hc)
      rw [hst2] at hst3
      simp only [getterStep] at hst3
      refine cont 3 _ rfl ?_ ?_ (by rw [h11.1, h11.2])
      · show ((step (step (step s (.consStep c false)) (.consStep c false)) (.consStep c false)).cons c).pc = _
        rw [hst3]
      · intro i hi
        show ((step (step (step s (.consStep c false)) (.consStep c false)) (.consStep c false)).cons c).b i = _ ∧ ((step (step (step s (.consStep c false)) (.consStep c false)) (.consStep c false)).cons c).e i = _
        rw [hst3]
        exact ⟨upd_ne _ _ (by omega), upd_ne _ _ (by omega)⟩
    · by_cases h10 : (s.cons c).b k = true ∨ (s.cons c).e k = true
      · refine ⟨1, ?_, ?_⟩
        · intro hall
          have := hall k (Nat.le_refl _) hk
          exfalso
          cases h5 : (s.cons c).b k <;> simp_all
        · intro _
          show ((step s (.consStep c false)).cons c).pc = _
          rw [hst]
          simp [getterStep, hpc, hk, h11, h10]
      · refine cont 1 _ rfl ?_ ?_ ?_
        · show ((step s (.consStep c false)).cons c).pc = _
          rw [hst]
          simp [getterStep, hpc, hk, h11, h10]
        · intro i _
          show ((step s (.consStep c false)).cons c).b i = _ ∧ ((step s (.consStep c false)).cons c).e i = _
          rw [hst]
          simp [getterStep, hpc, hk, h11, h10]
        · cases h5 : (s.cons c).b k <;> cases h6 : (s.cons c).e k <;> simp_all


/-! ### Timestamps of samples that are still visible -/

theorem latestTs_ge (slots : Nat → Word) (n i : Nat) (hi : i < n) (hr : readable (slots i) = true) :
    tsN (slots i) ≤ latestTs slots n := by
  induction n with
  | zero => omega
  | succ n ih =>
    unfold latestTs
    by_cases h : i = n
    · subst h; rw [if_pos hr]; omega
    · have := ih (by omega)
      split <;> omega

theorem latestTs_le (slots : Nat → Word) (n b : Nat) (h : ∀ i, i < n → readable (slots i) = true → tsN (slots i) ≤ b) :
    latestTs slots n ≤ b := by
  induction n with
  | zero => simp [latestTs]
  | succ n ih =>
    have h1 := ih (fun i hi => h i (by omega))
    unfold latestTs
    split
    · rename_i hr; have := h n (by omega) hr; omega
    · exact h1

/-- As long as fewer than `2^32` samples were sent, no visible sample is newer than the counter. -/
structure VisInv (s : St V) : Prop where
  cur : s.sent.length < 2 ^ 32 → s.cur ≤ s.sent.length
  vis : s.sent.length < 2 ^ 32 → ∀ i, i < s.n → readable (s.slots i) = true → tsN (s.slots i) ≤ s.cur

theorem visInv_step {s : St V} (h : Inv s) (hv : VisInv s) (op : Op V) : VisInv (step s op) := by
  cases hop : op.isCons with
  | true =>
    have hs := (cons_op_ts h hop 0).2.2.1
    have hcur : (step s op).cur = s.cur := by
      cases op <;> simp only [Op.isCons] at hop <;> (try cases hop) <;> simp only [step] <;> repeat' split
      all_goals rfl
    constructor
    · rw [hs, hcur]; exact hv.cur
    · rw [hs, hcur]
      intro hl i hi hr
      have := cons_op_ts h hop i
      rw [this.2.2.2.1]
      exact hv.vis hl i (by rw [← (step_nm s op).1]; exact hi) (this.2.2.2.2.2 hr)
  | false =>
    have triv : (step s op).sent = s.sent → (step s op).cur = s.cur →
        (∀ i, (step s op).slots i = s.slots i ∨ readable ((step s op).slots i) = false) → VisInv (step s op) := by
      intro h1 h2 h3
      constructor
      · rw [h1, h2]; exact hv.cur
      · rw [h1, h2]
        intro hl i hi hr
        rcases h3 i with h4 | h4
        · rw [h4] at hr ⊢; exact hv.vis hl i (by rw [← (step_nm s op).1]; exact hi) hr
        · rw [h4] at hr; cases hr
    have hnr : readable inWriting = false := by decide
    have hni : readable invalidEvent = false := by decide
    cases op with
    | provAlloc => apply triv <;> simp only [step] <;> split <;> simp
    | provStep =>
      apply triv
      · simp only [step, provStep]; repeat' split
        all_goals rfl
      · simp only [step, provStep]; repeat' split
        all_goals rfl
      · intro i
        simp only [step, provStep]
        cases s.ppc with
        | idle => simp
        | find => simp
        | cas r j w =>
          dsimp only
          split
          · simp only [upd_apply]; split
            · right; exact hnr
            · left; rfl
          · split <;> simp
    | provWrite i v => apply triv <;> simp only [step] <;> split <;> simp
    | provDiscard j =>
      by_cases hx : s.alloc j ∧ s.ppc = .idle
      · have hw : isInWriting (s.slots j) = true := (isInWriting_iff _).mpr ((h.alloc j).mp hx.1)
        apply triv
        · simp only [step, hx, and_self, if_true]
        · simp only [step, hx, and_self, if_true]
        · intro i
          simp only [step, hx, and_self, hw, if_true, upd_apply]
          split
          · right; exact hni
          · left; rfl
      · have : step s (.provDiscard j) = s := by simp only [step, hx, if_false]
        rw [this]; exact hv
    | provSend j =>
      by_cases hx : s.alloc j ∧ s.ppc = .idle
      · have e1 : (step s (.provSend j)).cur = (s.cur + 1) % 2 ^ 32 := by simp only [step, hx, and_self, if_true]
        have e2 : (step s (.provSend j)).sent.length = s.sent.length + 1 := by
          simp only [step, hx, and_self, if_true, List.length_cons]
        have e3 : (step s (.provSend j)).slots = upd s.slots j (readyWord ((s.cur + 1) % 2 ^ 32)) := by
          simp only [step, hx, and_self, if_true]
        constructor
        · rw [e1, e2]; intro hl
          have := hv.cur (by omega)
          omega
        · rw [e1, e2, e3]
          intro hl i hi hr
          have hc := hv.cur (by omega)
          have hlt : (s.cur + 1) % 2 ^ 32 = s.cur + 1 := Nat.mod_eq_of_lt (by omega)
          rw [hlt] at hr ⊢
          by_cases hij : i = j
          · subst hij
            rw [upd_self, tsN_ready]; exact Nat.mod_le _ _
          · rw [upd_ne _ _ hij] at hr ⊢
            have := hv.vis (by omega) i (by rw [← (step_nm s (.provSend j)).1]; exact hi) hr
            omega
      · have : step s (.provSend j) = s := by simp only [step, hx, if_false]
        rw [this]; exact hv
    | provRestart =>
      constructor
      · intro hl
        have hl' : s.sent.length < 2 ^ 32 := hl
        show latestTs _ s.n ≤ s.sent.length
        apply latestTs_le
        intro i hi hr
        split at hr
        · rw [hni] at hr; cases hr
        · rename_i hw
          rw [if_neg hw]
          have := hv.vis hl' i hi hr
          have := hv.cur hl'
          omega
      · intro hl i hi hr
        exact latestTs_ge _ _ i hi hr
    | _ => simp [Op.isCons] at hop

theorem visInv_run {s : St V} (h : Inv s) (hv : VisInv s) (ops : List (Op V)) : VisInv (run s ops) := by
  induction ops generalizing s with
  | nil => exact hv
  | cons op ops ih => exact ih (step_inv h op) (visInv_step h hv op)

theorem visInv_init (n m : Nat) (v0 : V) : VisInv (init n m v0) := by
  refine ⟨fun _ => Nat.le_refl _, fun _ i _ hr => ?_⟩
  simp [init, readable_iff] at hr

/-! ### Exhaustion of the timestamp counter with one slot -/

/-- One slot holding a sample with timestamp `k`, provider idle. -/
structure Full (s : St V) (k : Nat) : Prop where
  n : s.n = 1
  slot : s.slots 0 = readyWord k
  ppc : s.ppc = .idle
  cur : s.cur = k
  len : s.sent.length = k

theorem full_succ {s : St V} {k : Nat} (h : Full s k) (hk : k + 1 < 2 ^ 32) :
    ∃ ops, Full (run s ops) (k + 1) ∧ ∀ op ∈ ops, op.isRestart = false := by
  have hmod : (k + 1) % 2 ^ 32 = k + 1 := Nat.mod_eq_of_lt hk
  by_cases h0 : isInvalid (s.slots 0) = true
  · refine ⟨[.provAlloc, .provStep, .provStep, .provSend 0], ?_, by simp [Op.isRestart]⟩
    have e1 : step s .provAlloc = { s with ppc := .find 0 0 tsMax none } := by simp [step, h.ppc]
    have e2 : step { s with ppc := .find 0 0 tsMax none } .provStep = { s with ppc := .cas 0 0 (s.slots 0) } := by
      simp [step, provStep, provFind, h.n, h0]
    have e3 : step { s with ppc := .cas 0 0 (s.slots 0) } .provStep =
        { s with slots := upd s.slots 0 inWriting, alloc := upd s.alloc 0 true, ppc := .idle } := by
      simp [step, provStep]
    have : run s [.provAlloc, .provStep, .provStep, .provSend 0] =
        step { s with slots := upd s.slots 0 inWriting, alloc := upd s.alloc 0 true, ppc := .idle } (.provSend 0) := by
      simp only [run, List.foldl_cons, List.foldl_nil]
      rw [e1, e2, e3]
    rw [this]
    simp only [step, upd_self, and_self, if_true, h.cur, hmod]
    exact ⟨h.n, by simp, rfl, rfl, by simp [h.len]⟩
  · have hnw : isInWriting (s.slots 0) = false := by
      cases hx : isInWriting (s.slots 0) with
      | false => rfl
      | true =>
        have h1 := (isInWriting_iff _).mp hx
        have h2 := rcN_ready k
        rw [← h.slot, h1, rcN_inWriting] at h2; omega
    have hrc : rcN (s.slots 0) = 0 := by rw [h.slot]; exact rcN_ready k
    have hts : tsN (s.slots 0) < tsMax := by
      rw [h.slot, tsN_ready, Nat.mod_eq_of_lt (by omega)]; unfold tsMax; omega
    have e1 : step s .provAlloc = { s with ppc := .find 0 0 tsMax none } := by simp [step, h.ppc]
    have e2 : step { s with ppc := .find 0 0 tsMax none } .provStep =
        { s with ppc := .find 0 1 (tsN (s.slots 0)) (some (0, s.slots 0)) } := by
      simp only [step, provStep, provFind, h.n, h0, hrc, hnw, hts, and_self, if_true]
      rfl
    have e2' : step { s with ppc := .find 0 1 (tsN (s.slots 0)) (some (0, s.slots 0)) } .provStep =
        { s with ppc := .cas 0 0 (s.slots 0) } := by
      simp [step, provStep, provFind, h.n]
    have e3 : step { s with ppc := .cas 0 0 (s.slots 0) } .provStep =
        { s with slots := upd s.slots 0 inWriting, alloc := upd s.alloc 0 true, ppc := .idle } := by
      simp [step, provStep]
    refine ⟨[.provAlloc, .provStep, .provStep, .provStep, .provSend 0], ?_, by simp [Op.isRestart]⟩
    have : run s [.provAlloc, .provStep, .provStep, .provStep, .provSend 0] =
        step { s with slots := upd s.slots 0 inWriting, alloc := upd s.alloc 0 true, ppc := .idle } (.provSend 0) := by
      simp only [run, List.foldl_cons, List.foldl_nil]
      rw [e1, e2, e2', e3]
    rw [this]
    simp only [step, upd_self, and_self, if_true, h.cur, hmod]
    exact ⟨h.n, by simp, rfl, rfl, by simp [h.len]⟩

theorem full_reach (v0 : V) (k : Nat) (hk : k < 2 ^ 32) :
    ∃ ops, Full (run (init 1 0 v0) ops) k ∧ ∀ op ∈ ops, op.isRestart = false := by
  induction k with
  | zero => exact ⟨[], ⟨rfl, by show invalidEvent = readyWord 0; decide, rfl, rfl, rfl⟩, by simp⟩
  | succ k ih =>
    obtain ⟨ops, h1, h2⟩ := ih (by omega)
    obtain ⟨ops', h3, h4⟩ := full_succ h1 hk
    refine ⟨ops ++ ops', by rw [run_append]; exact h3, ?_⟩
    intro op hop
    rcases List.mem_append.mp hop with h | h
    · exact h2 op h
    · exact h4 op h

/-- Allocating never succeeds on a single slot with the maximum timestamp. -/
theorem stuck_run {s : St V} (hn : s.n = 1) (hs : s.slots 0 = readyWord tsMax)
    (hp : s.ppc = .idle ∨ ∃ r k, s.ppc = .find r k tsMax none) (ops : List (Op V))
    (ho : ∀ op ∈ ops, op = .provAlloc ∨ op = .provStep) :
    (run s ops).alloc = s.alloc := by
  induction ops generalizing s with
  | nil => rfl
  | cons op ops ih =>
    have hinv : isInvalid (s.slots 0) = false := by rw [hs]; decide
    have hts : ¬ tsN (s.slots 0) < tsMax := by rw [hs]; decide
    have hstep : (step s op).alloc = s.alloc ∧ (step s op).n = 1 ∧ (step s op).slots = s.slots ∧
        ((step s op).ppc = .idle ∨ ∃ r k, (step s op).ppc = .find r k tsMax none) := by
      rcases ho op (by simp) with h | h
      · subst h
        simp only [step]
        split
        · exact ⟨rfl, hn, rfl, Or.inr ⟨_, _, rfl⟩⟩
        · exact ⟨rfl, hn, rfl, hp⟩
      · subst h
        rcases hp with hp | ⟨r, k, hp⟩
        · simp only [step, provStep, hp]; exact ⟨trivial, hn, trivial, Or.inl trivial⟩
        · simp only [step, provStep, hp]
          refine ⟨trivial, hn, trivial, ?_⟩
          unfold provFind
          rw [hn]
          split
          · have : k = 0 := by omega
            subst this
            dsimp only
            rw [hinv]
            simp only [hts, and_false, if_false]
            exact Or.inr ⟨_, _, rfl⟩
          · dsimp only
            split
            · exact Or.inr ⟨_, _, rfl⟩
            · exact Or.inl rfl
    have : run s (op :: ops) = run (step s op) ops := rfl
    rw [this, ih hstep.2.1 (by rw [hstep.2.2.1]; exact hs) hstep.2.2.2 (fun o h => ho o (by simp [h])), hstep.1]

end Verif.Ctrl
