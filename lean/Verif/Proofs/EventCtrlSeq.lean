import Verif.Proofs.EventCtrlHeld
/-! Calls of GetNewSamples and Allocate that run without concurrent activity. -/
namespace Verif.Ctrl
open Verif Verif.Slot

variable {V : Type}

/-! ### Allocate -/

/-- Free for the provider: not being written, no reference. Never-used slots are free. -/
def Free (w : Word) : Prop := rcN w = 0 ∧ w ≠ inWriting

/-- What the scan of the provider knows after `k` slots. -/
structure BestOk (slots : Nat → Word) (k oldest : Nat) (best : Option (Nat × Word)) : Prop where
  noInvalid : ∀ j, j < k → slots j ≠ invalidEvent
  ifNone : best = none → oldest = tsMax ∧ ∀ j, j < k → ¬ Free (slots j)
  ifSome : ∀ i w, best = some (i, w) → i < k ∧ w = slots i ∧ Free w ∧ oldest = tsN w ∧
    ∀ j, j < k → Free (slots j) → tsN w ≤ tsN (slots j)

/-- `j` provider steps. -/
def provSteps (s : St V) : Nat → St V
  | 0 => s
  | j + 1 => provSteps (provStep s) j

theorem run_provSteps (s : St V) (j : Nat) : run s (List.replicate j .provStep) = provSteps s j := by
  induction j generalizing s with
  | zero => rfl
  | succ j ih => rw [List.replicate_succ]; exact ih (provStep s)

theorem provSteps_add (s : St V) (j k : Nat) : provSteps s (j + k) = provSteps (provSteps s j) k := by
  induction j generalizing s with
  | zero => simp [provSteps]
  | succ j ih => rw [Nat.succ_add]; exact ih (provStep s)

theorem isInvalid_iff (w : Word) : isInvalid w = true ↔ w = invalidEvent := by simp [isInvalid]

theorem invalid_free : Free invalidEvent := by unfold Free; decide

/-- The slot chosen by an undisturbed scan. -/
def Chosen (n : Nat) (slots : Nat → Word) (i : Nat) : Prop :=
  i < n ∧ Free (slots i) ∧
  (slots i ≠ invalidEvent → (∀ j, j < n → slots j ≠ invalidEvent) ∧
    ∀ j, j < n → Free (slots j) → tsN (slots i) ≤ tsN (slots j))

theorem find_run {s : St V} (ht : ∀ i, i < s.n → tsN (s.slots i) < tsMax) {r : Nat} (d : Nat) : ∀ k oldest best, k ≤ s.n → s.n - k = d →
    BestOk s.slots k oldest best →
    (∃ j i, provSteps { s with ppc := .find r k oldest best } j = { s with ppc := .cas r i (s.slots i) } ∧
      Chosen s.n s.slots i) ∨
    (∃ j, provSteps { s with ppc := .find r k oldest best } j =
        { s with ppc := if r < maxAllocateRetries then .find (r + 1) 0 tsMax none else .idle } ∧
      ∀ i, i < s.n → ¬ Free (s.slots i)) := by
  induction d with
  | zero =>
    intro k oldest best hk hd hb
    have hkn : ¬ k < s.n := by omega
    have hkn' : k = s.n := by omega
    subst hkn'
    cases hbest : best with
    | none =>
      right
      refine ⟨1, ?_, (hb.ifNone hbest).2⟩
      simp [provSteps, provStep, provFind]
    | some p =>
      obtain ⟨i, w⟩ := p
      obtain ⟨h1, h2, h3, h4, h5⟩ := hb.ifSome i w hbest
      left
      refine ⟨1, i, ?_, h1, h2 ▸ h3, fun _ => ⟨hb.noInvalid, ?_⟩⟩
      · simp [provSteps, provStep, provFind, ← h2]
      · rw [← h2]; exact h5
  | succ d ih =>
    intro k oldest best hk hd hb
    have hkn : k < s.n := by omega
    by_cases hinv : isInvalid (s.slots k) = true
    · left
      refine ⟨1, k, ?_, hkn, ?_, ?_⟩
      · simp [provSteps, provStep, provFind, hkn, hinv]
      · rw [(isInvalid_iff _).mp hinv]; exact invalid_free
      · intro h; exact absurd ((isInvalid_iff _).mp hinv) h
    · have hinv' : s.slots k ≠ invalidEvent := fun h => hinv ((isInvalid_iff _).mpr h)
      have hnoinv : ∀ j, j < k + 1 → s.slots j ≠ invalidEvent := by
        intro j hj
        by_cases hjk : j = k
        · rw [hjk]; exact hinv'
        · exact hb.noInvalid j (by omega)
      have hold : oldest = tsMax ∨ ∃ i w, best = some (i, w) := by
        cases hbest : best with
        | none => exact Or.inl (hb.ifNone hbest).1
        | some p => exact Or.inr ⟨p.1, p.2, rfl⟩
      by_cases hc : rcN (s.slots k) = 0 ∧ isInWriting (s.slots k) = false ∧ tsN (s.slots k) < oldest
      · have hfree : Free (s.slots k) := by
          refine ⟨hc.1, fun h => ?_⟩
          have := (isInWriting_iff _).mpr h
          rw [hc.2.1] at this; cases this
        have hb' : BestOk s.slots (k + 1) (tsN (s.slots k)) (some (k, s.slots k)) := by
          refine ⟨hnoinv, by simp, ?_⟩
          intro i w hiw
          simp only [Option.some.injEq, Prod.mk.injEq] at hiw
          obtain ⟨rfl, rfl⟩ := hiw
          refine ⟨by omega, rfl, hfree, rfl, ?_⟩
          intro j hj hf
          by_cases hjk : j = k
          · rw [hjk]; omega
          · cases hbest : best with
            | none => exact absurd hf ((hb.ifNone hbest).2 j (by omega))
            | some p =>
              have := (hb.ifSome p.1 p.2 hbest)
              have h5 := this.2.2.2.2 j (by omega) hf
              have h4 := this.2.2.2.1
              omega
        have e : provStep { s with ppc := .find r k oldest best } =
            { s with ppc := .find r (k + 1) (tsN (s.slots k)) (some (k, s.slots k)) } := by
          simp only [provStep, provFind, hkn, if_true, hinv, if_false, hc, and_self]
          simp
        rcases ih (k + 1) _ _ (by omega) (by omega) hb' with ⟨j, i, h1, h2⟩ | ⟨j, h1, h2⟩
        · exact Or.inl ⟨j + 1, i, by rw [provSteps, e]; exact h1, h2⟩
        · exact Or.inr ⟨j + 1, by rw [provSteps, e]; exact h1, h2⟩
      · have hb' : BestOk s.slots (k + 1) oldest best := by
          refine ⟨hnoinv, ?_, ?_⟩
          · intro hbest
            have := hb.ifNone hbest
            refine ⟨this.1, ?_⟩
            intro j hj
            by_cases hjk : j = k
            · rw [hjk]; intro hf
              apply hc
              refine ⟨hf.1, ?_, by rw [this.1]; exact ht k hkn⟩
              cases hw : isInWriting (s.slots k) with
              | false => rfl
              | true => exact absurd ((isInWriting_iff _).mp hw) hf.2
            · exact this.2 j (by omega)
          · intro i w hiw
            obtain ⟨h1, h2, h3, h4, h5⟩ := hb.ifSome i w hiw
            refine ⟨by omega, h2, h3, h4, ?_⟩
            intro j hj hf
            by_cases hjk : j = k
            · rw [hjk] at hf ⊢
              by_cases hlt : tsN (s.slots k) < oldest
              · exfalso; apply hc
                refine ⟨hf.1, ?_, hlt⟩
                cases hw : isInWriting (s.slots k) with
                | false => rfl
                | true => exact absurd ((isInWriting_iff _).mp hw) hf.2
              · omega
            · exact h5 j (by omega) hf
        have e : provStep { s with ppc := .find r k oldest best } =
            { s with ppc := .find r (k + 1) oldest best } := by
          simp only [provStep, provFind, hkn, if_true, hinv, if_false, hc]
          simp
        rcases ih (k + 1) _ _ (by omega) (by omega) hb' with ⟨j, i, h1, h2⟩ | ⟨j, h1, h2⟩
        · exact Or.inl ⟨j + 1, i, by rw [provSteps, e]; exact h1, h2⟩
        · exact Or.inr ⟨j + 1, by rw [provSteps, e]; exact h1, h2⟩

/-- Result of an undisturbed Allocate. -/
theorem alloc_run {s : St V} (ht : ∀ i, i < s.n → tsN (s.slots i) < tsMax) (d : Nat) :
    ∀ r, r ≤ maxAllocateRetries → maxAllocateRetries - r = d →
    (∃ j i, provSteps { s with ppc := .find r 0 tsMax none } j =
        { s with slots := upd s.slots i inWriting, alloc := upd s.alloc i true, ppc := .idle } ∧
      Chosen s.n s.slots i) ∨
    (∃ j, provSteps { s with ppc := .find r 0 tsMax none } j = { s with ppc := .idle } ∧
      ∀ i, i < s.n → ¬ Free (s.slots i)) := by
  have h0 : BestOk s.slots 0 tsMax none := ⟨by omega, by simp, by simp⟩
  induction d with
  | zero =>
    intro r hr hd
    rcases find_run (r := r) ht s.n 0 tsMax none (by omega) (by omega) h0 with ⟨j, i, h1, h2⟩ | ⟨j, h1, h2⟩
    · left; refine ⟨j + 1, i, ?_, h2⟩
      rw [provSteps_add, h1]
      simp [provSteps, provStep]
    · right
      refine ⟨j, ?_, h2⟩
      rw [h1, if_neg (by omega)]
  | succ d ih =>
    intro r hr hd
    rcases find_run (r := r) ht s.n 0 tsMax none (by omega) (by omega) h0 with ⟨j, i, h1, h2⟩ | ⟨j, h1, h2⟩
    · left; refine ⟨j + 1, i, ?_, h2⟩
      rw [provSteps_add, h1]
      simp [provSteps, provStep]
    · rw [if_pos (by omega)] at h1
      rcases ih (r + 1) (by omega) (by omega) with ⟨j', i, h3, h4⟩ | ⟨j', h3, h4⟩
      · exact Or.inl ⟨j + j', i, by rw [provSteps_add, h1]; exact h3, h4⟩
      · exact Or.inr ⟨j + j', by rw [provSteps_add, h1]; exact h3, h4⟩

/-- An idle provider does nothing. -/
theorem provSteps_idle {s : St V} (h : s.ppc = .idle) (j : Nat) : provSteps s j = s := by
  induction j with
  | zero => rfl
  | succ j ih =>
    have : provStep s = s := by simp [provStep, h]
    rw [provSteps, this, ih]

/-! ### Distinct timestamps -/

/-- Visible samples have different timestamps as long as the counter has not wrapped. -/
def DistInv (s : St V) : Prop := s.sent.length < 2 ^ 32 → ∀ i j, i < s.n → j < s.n →
  readable (s.slots i) = true → readable (s.slots j) = true → tsN (s.slots i) = tsN (s.slots j) → i = j

theorem distInv_step {s : St V} (h : Inv s) (hv : VisInv s) (hd : DistInv s) (op : Op V) : DistInv (step s op) := by
  cases hop : op.isCons with
  | true =>
    intro hl i j hi hj hri hrj he
    rw [(step_nm s op).1] at hi hj
    have h1 := cons_op_ts h hop i
    have h2 := cons_op_ts h hop j
    rw [h1.2.2.2.1, h2.2.2.2.1] at he
    rw [h1.2.2.1] at hl
    exact hd hl i j hi hj (h1.2.2.2.2.2 hri) (h2.2.2.2.2.2 hrj) he
  | false =>
    have triv : (step s op).sent = s.sent →
        (∀ i, (step s op).slots i = s.slots i ∨ readable ((step s op).slots i) = false) → DistInv (step s op) := by
      intro h1 h3 hl i j hi hj hri hrj he
      rw [h1] at hl
      rw [(step_nm s op).1] at hi hj
      rcases h3 i with h4 | h4
      · rcases h3 j with h5 | h5
        · rw [h4] at hri he; rw [h5] at hrj he
          exact hd hl i j hi hj hri hrj he
        · rw [h5] at hrj; cases hrj
      · rw [h4] at hri; cases hri
    have hnr : readable inWriting = false := by decide
    have hni : readable invalidEvent = false := by decide
    cases op with
    | provAlloc => apply triv <;> simp only [step] <;> split <;> simp
    | provStep =>
      apply triv
      · simp only [step, provStep]; repeat' split
        all_goals rfl
      · intro i
        simp only [step, provStep]
        cases s.ppc with
        | idle => simp
        | find => simp
        | cas r j w =>
          dsimp only
          split
          · simp only [upd_apply]; split
            · right; exact hnr
            · left; rfl
          · split <;> simp
    | provWrite i v => apply triv <;> simp only [step] <;> split <;> simp
    | provDiscard j =>
      by_cases hx : s.alloc j ∧ s.ppc = .idle
      · have hw : isInWriting (s.slots j) = true := (isInWriting_iff _).mpr ((h.alloc j).mp hx.1)
        apply triv
        · simp only [step, hx, and_self, if_true]
        · intro i
          simp only [step, hx, and_self, hw, if_true, upd_apply]
          split
          · right; exact hni
          · left; rfl
      · have : step s (.provDiscard j) = s := by simp only [step, hx, if_false]
        rw [this]; exact hd
    | provSend k =>
      by_cases hx : s.alloc k ∧ s.ppc = .idle
      · have e2 : (step s (.provSend k)).sent.length = s.sent.length + 1 := by
          simp only [step, hx, and_self, if_true, List.length_cons]
        have e3 : (step s (.provSend k)).slots = upd s.slots k (readyWord ((s.cur + 1) % 2 ^ 32)) := by
          simp only [step, hx, and_self, if_true]
        intro hl i j hi hj hri hrj he
        rw [e2] at hl
        rw [(step_nm s (.provSend k)).1] at hi hj
        have hc := hv.cur (by omega)
        have hlt : (s.cur + 1) % 2 ^ 32 = s.cur + 1 := Nat.mod_eq_of_lt (by omega)
        rw [e3, hlt] at hri hrj he
        have hts : tsN (readyWord (s.cur + 1)) = s.cur + 1 := by rw [tsN_ready, hlt]
        by_cases hik : i = k <;> by_cases hjk : j = k
        · rw [hik, hjk]
        · exfalso
          rw [hik, upd_self, hts, upd_ne _ _ hjk] at he
          rw [upd_ne _ _ hjk] at hrj
          have := hv.vis (by omega) j hj hrj
          omega
        · exfalso
          rw [hjk, upd_self, hts, upd_ne _ _ hik] at he
          rw [upd_ne _ _ hik] at hri
          have := hv.vis (by omega) i hi hri
          omega
        · rw [upd_ne _ _ hik, upd_ne _ _ hjk] at he
          rw [upd_ne _ _ hik] at hri
          rw [upd_ne _ _ hjk] at hrj
          exact hd (by omega) i j hi hj hri hrj he
      · have : step s (.provSend k) = s := by simp only [step, hx, if_false]
        rw [this]; exact hd
    | provRestart =>
      apply triv
      · rfl
      · intro i
        show (if isInWriting (s.slots i) then invalidEvent else s.slots i) = _ ∨
          readable (if isInWriting (s.slots i) then invalidEvent else s.slots i) = false
        split
        · right; exact hni
        · left; rfl
    | _ => simp [Op.isCons] at hop

theorem distInv_run {s : St V} (h : Inv s) (hv : VisInv s) (hd : DistInv s) (ops : List (Op V)) :
    DistInv (run s ops) := by
  induction ops generalizing s with
  | nil => exact hd
  | cons op ops ih => exact ih (step_inv h op) (visInv_step h hv op) (distInv_step h hv hd op)

theorem distInv_init (n m : Nat) (v0 : V) : DistInv (init n m v0) := by
  intro _ i j _ _ hr
  simp [init, readable_iff] at hr

/-! ### GetNewSamples -/

/-- A sample the consumer has not seen: readable, newer than the last one seen. -/
def unseen (slots : Nat → Word) (last i : Nat) : Bool := between (slots i) last tsMax

/-- `j` undisturbed steps of the getter. -/
def getSteps (n : Nat) (data : Nat → V) : Nat → Cons V × (Nat → Word) → Cons V × (Nat → Word)
  | 0, x => x
  | j + 1, x => getSteps n data j (getterStep n x.2 data x.1 false)

theorem getSteps_add (n : Nat) (data : Nat → V) (j k : Nat) (x : Cons V × (Nat → Word)) :
    getSteps n data (j + k) x = getSteps n data k (getSteps n data j x) := by
  induction j generalizing x with
  | zero => simp [getSteps]
  | succ j ih => rw [Nat.succ_add]; exact ih _

theorem run_getSteps (s : St V) {c : Nat} (hc : c < s.m) (j : Nat) :
    run s (List.replicate j (.consStep c false)) =
      { s with cons := upd s.cons c (getSteps s.n s.data j (s.cons c, s.slots)).1,
               slots := (getSteps s.n s.data j (s.cons c, s.slots)).2 } := by
  induction j generalizing s with
  | zero => simp [run, getSteps, upd_same]
  | succ j ih =>
    rw [List.replicate_succ]
    have e : step s (.consStep c false) =
        { s with cons := upd s.cons c (getterStep s.n s.slots s.data (s.cons c) false).1,
                 slots := (getterStep s.n s.slots s.data (s.cons c) false).2 } := by
      simp only [step, hc, if_true]
    show run (step s (.consStep c false)) _ = _
    rw [e, ih { s with cons := upd s.cons c (getterStep s.n s.slots s.data (s.cons c) false).1,
                       slots := (getterStep s.n s.slots s.data (s.cons c) false).2 } hc]
    simp only [upd_self, upd_upd, getSteps]

def Reaches (n : Nat) (data : Nat → V) (x y : Cons V × (Nat → Word)) : Prop := ∃ j, getSteps n data j x = y

theorem Reaches.refl (n : Nat) (data : Nat → V) (x) : Reaches n data x x := ⟨0, rfl⟩
theorem Reaches.trans {n : Nat} {data : Nat → V} {x y z} (h1 : Reaches n data x y) (h2 : Reaches n data y z) :
    Reaches n data x z := by
  obtain ⟨j, rfl⟩ := h1
  obtain ⟨k, rfl⟩ := h2
  exact ⟨j + k, getSteps_add n data j k x⟩
theorem Reaches.head {n : Nat} {data : Nat → V} {x z}
    (h : Reaches n data (getterStep n x.2 data x.1 false) z) : Reaches n data x z := by
  obtain ⟨j, rfl⟩ := h
  exact ⟨j + 1, rfl⟩

/-- What the consumer's scan knows after `k` slots. -/
structure CandOk (slots : Nat → Word) (last high k : Nat) (cand : Option (Nat × Word)) : Prop where
  ifNone : cand = none → ∀ j, j < k → between (slots j) last high = false
  ifSome : ∀ i w, cand = some (i, w) → i < k ∧ w = slots i ∧ between w last high = true ∧
    ∀ j, j < k → between (slots j) last high = true → tsN (slots j) ≤ tsN w

theorem scan_run {n : Nat} {data : Nat → V} {slots : Nat → Word} {c : Cons V} {cx : Ctx} {r : Nat} (d : Nat) :
    ∀ k cand, k ≤ n → n - k = d → CandOk slots c.last cx.high k cand →
    ∃ cand', Reaches n data ({ c with pc := .scan cx r k cand }, slots) ({ c with pc := .scan cx r n cand' }, slots) ∧
      CandOk slots c.last cx.high n cand' := by
  induction d with
  | zero =>
    intro k cand hk hd hc
    have : k = n := by omega
    subst this
    exact ⟨cand, Reaches.refl .., hc⟩
  | succ d ih =>
    intro k cand hk hd hc
    have hkn : k < n := by omega
    by_cases hb : between (slots k) (candTs c.last cand) cx.high = true
    · have hb1 := (between_iff _ _ _).mp hb
      have hlast : c.last ≤ candTs c.last cand := by
        cases hcand : cand with
        | none => simp [candTs]
        | some p =>
          have := (hc.ifSome p.1 p.2 hcand).2.2.1
          have := (between_iff _ _ _).mp this
          simp only [candTs]; omega
      have hb2 : between (slots k) c.last cx.high = true := by
        rw [between_iff]; refine ⟨hb1.1, by omega, hb1.2.2⟩
      have hc' : CandOk slots c.last cx.high (k + 1) (some (k, slots k)) := by
        refine ⟨by simp, ?_⟩
        intro i w hiw
        simp only [Option.some.injEq, Prod.mk.injEq] at hiw
        obtain ⟨rfl, rfl⟩ := hiw
        refine ⟨by omega, rfl, hb2, ?_⟩
        intro j hj hbj
        by_cases hjk : j = k
        · rw [hjk]; omega
        · cases hcand : cand with
          | none => rw [hc.ifNone hcand j (by omega)] at hbj; cases hbj
          | some p =>
            have := (hc.ifSome p.1 p.2 hcand).2.2.2 j (by omega) hbj
            rw [hcand] at hb1
            simp only [candTs] at hb1
            omega
      obtain ⟨cand', h1, h2⟩ := ih (k + 1) _ (by omega) (by omega) hc'
      refine ⟨cand', Reaches.head ?_, h2⟩
      simp only [getterStep, hkn, if_true, hb]
      exact h1
    · have hc' : CandOk slots c.last cx.high (k + 1) cand := by
        refine ⟨?_, ?_⟩
        · intro hcand j hj
          by_cases hjk : j = k
          · rw [hjk]; rw [hcand] at hb; simp only [candTs] at hb
            simpa using hb
          · exact hc.ifNone hcand j (by omega)
        · intro i w hiw
          obtain ⟨h1, h2, h3, h4⟩ := hc.ifSome i w hiw
          refine ⟨by omega, h2, h3, ?_⟩
          intro j hj hbj
          by_cases hjk : j = k
          · rw [hjk] at hbj ⊢
            rw [hiw] at hb
            simp only [candTs] at hb
            have := (between_iff _ _ _).mp hbj
            rw [between_iff] at hb
            by_cases hlt : tsN w < tsN (slots k)
            · exact absurd ⟨this.1, hlt, this.2.2⟩ hb
            · omega
          · exact h4 j (by omega) hbj
      obtain ⟨cand', h1, h2⟩ := ih (k + 1) _ (by omega) (by omega) hc'
      refine ⟨cand', Reaches.head ?_, h2⟩
      simp only [getterStep, hkn, if_true, hb]
      exact h1

/-- Mark of the collected slots. -/
def marks (f : Nat → Bool) (coll : List Nat) : Nat → Bool := fun i => f i || decide (i ∈ coll)

/-- Slots after referencing the collected ones. -/
def refd (slots : Nat → Word) (coll : List Nat) : Nat → Word :=
  fun i => if i ∈ coll then slots i + 1#64 else slots i

/-- The collected list is the newest part of the unseen samples at or above `high`. -/
structure CollSpec (n : Nat) (slots : Nat → Word) (last high : Nat) (coll : List Nat) : Prop where
  desc : coll.Pairwise (fun i j => tsN (slots j) < tsN (slots i))
  mem : ∀ i ∈ coll, i < n ∧ unseen slots last i = true ∧ high ≤ tsN (slots i)
  all : ∀ i, i < n → unseen slots last i = true → high ≤ tsN (slots i) → i ∈ coll

/-- The state of the consumer during an undisturbed collection. -/
def collState (c : Cons V) (coll : List Nat) (pc : CPc) : Cons V :=
  { c with b := marks c.b coll, e := marks c.e coll, cnt := marks c.cnt coll, pc := pc }

theorem refd_ts {slots : Nat → Word} {coll : List Nat} (hrc : ∀ i ∈ coll, rcN (slots i) + 1 < 2 ^ 32) (i : Nat) :
    tsN (refd slots coll i) = tsN (slots i) := by
  unfold refd
  split
  · rename_i h; exact (word_succ (hrc i h)).1
  · rfl

theorem refd_between {slots : Nat → Word} {coll : List Nat} (hrc : ∀ i ∈ coll, rcN (slots i) + 1 < 2 ^ 32)
    (hpos : ∀ i ∈ coll, 0 < tsN (slots i) ∧ readable (slots i) = true) (i lo hi : Nat) :
    between (refd slots coll i) lo hi = between (slots i) lo hi := by
  by_cases h : i ∈ coll
  · have hts := refd_ts hrc i
    have hr : readable (refd slots coll i) = true := by
      rw [readable_iff]
      have h1 := (hpos i h).1
      constructor
      · intro e; rw [e, tsN_inWriting] at hts; omega
      · intro e; rw [e] at hts
        have : tsN invalidEvent = 0 := by decide
        omega
    simp only [between, hts, hr, (hpos i h).2]
  · simp [refd, h]

theorem marks_nil (f : Nat → Bool) : marks f [] = f := by funext j; simp [marks]

theorem marks_snoc (f : Nat → Bool) (coll : List Nat) (i : Nat) :
    upd (marks f coll) i true = marks f (coll ++ [i]) := by
  funext j
  simp only [upd, marks]
  by_cases h : j = i
  · simp [h]
  · simp [h]

theorem refd_snoc {slots : Nat → Word} {coll : List Nat} {i : Nat} (h : i ∉ coll) :
    upd (refd slots coll) i (slots i + 1#64) = refd slots (coll ++ [i]) := by
  funext j
  simp only [upd, refd]
  by_cases hj : j = i
  · subst hj; simp
  · simp [hj]

theorem ts_allOnes : tsN (BitVec.allOnes 64) = tsMax := by decide +kernel

section collect
variable {n : Nat} {data : Nat → V} {slots : Nat → Word} {c : Cons V}

theorem collect_run (hdist : ∀ i j, i < n → j < n → unseen slots c.last i = true → unseen slots c.last j = true →
      tsN (slots i) = tsN (slots j) → i = j)
    (hlog : ∀ i, i < n → unseen slots c.last i = true → c.b i = false ∧ c.e i = false)
    (hrc : ∀ i, i < n → unseen slots c.last i = true → rcN (slots i) + 1 < 2 ^ 32)
    (rem : Nat) : ∀ coll high, high ≤ tsMax → CollSpec n slots c.last high coll →
    ∃ coll' high', Reaches n data
      (collState c coll (collectNext c.last { rem := rem, high := high, coll := coll }), refd slots coll)
      (collState c coll' (.final coll' coll'.reverse c.last), refd slots coll') ∧
      CollSpec n slots c.last high' coll' ∧ coll'.length ≤ coll.length + rem ∧
      (coll'.length = coll.length + rem ∨ ∀ i, i < n → unseen slots c.last i = true → i ∈ coll') := by
  induction rem with
  | zero =>
    intro coll high hh hs
    exact ⟨coll, high, by simp only [collectNext, if_true]; exact Reaches.refl .., hs, by simp, by simp⟩
  | succ rem ih =>
    intro coll high hh hs
    have hcrc : ∀ i ∈ coll, rcN (slots i) + 1 < 2 ^ 32 := fun i hi => hrc i (hs.mem i hi).1 (hs.mem i hi).2.1
    have hcpos : ∀ i ∈ coll, 0 < tsN (slots i) ∧ readable (slots i) = true := by
      intro i hi
      have := (between_iff _ _ _).mp (hs.mem i hi).2.1
      exact ⟨by omega, (readable_iff _).mpr this.1⟩
    obtain ⟨cand', h1, h2⟩ := scan_run (n := n) (data := data) (slots := refd slots coll)
      (c := collState c coll .idle) (cx := { rem := rem + 1, high := high, coll := coll }) (r := 0) n 0 none
      (by omega) (by omega) ⟨by omega, by simp⟩
    have hnext : collectNext c.last { rem := rem + 1, high := high, coll := coll } =
        .scan { rem := rem + 1, high := high, coll := coll } 0 0 none := by simp [collectNext]
    rw [hnext]
    cases hcand : cand' with
    | none =>
      subst hcand
      refine ⟨coll, high, Reaches.trans h1 ?_, hs, by omega, Or.inr ?_⟩
      · refine Reaches.head ?_
        simp only [getterStep, Nat.lt_irrefl, if_false]
        exact Reaches.refl ..
      · intro i hi hu
        have := h2.ifNone rfl i hi
        rw [refd_between hcrc hcpos] at this
        have hu' := (between_iff _ _ _).mp hu
        by_cases hlt : tsN (slots i) < high
        · have : between (slots i) c.last high = true := (between_iff _ _ _).mpr ⟨hu'.1, hu'.2.1, hlt⟩
          simp_all [collState]
        · exact hs.all i hi hu (by omega)
    | some p =>
      obtain ⟨i, w⟩ := p
      subst hcand
      obtain ⟨hi, hw, hb, hmax⟩ := h2.ifSome i w rfl
      have hlast : (collState c coll .idle).last = c.last := rfl
      rw [hlast] at hb hmax
      dsimp only at hb hmax
      rw [hw, refd_between hcrc hcpos] at hb
      have hb' := (between_iff _ _ _).mp hb
      have hu : unseen slots c.last i = true := by
        rw [unseen, between_iff]; exact ⟨hb'.1, hb'.2.1, by omega⟩
      have hni : i ∉ coll := by
        intro hm
        have := (hs.mem i hm).2.2
        omega
      have hwi : w = slots i := by rw [hw]; simp [refd, hni]
      subst hwi
      have hbi : marks c.b coll i = false := by simp [marks, hni, (hlog i hi hu).1]
      have hei : marks c.e coll i = false := by simp [marks, hni, (hlog i hi hu).2]
      have hne : slots i ≠ BitVec.allOnes 64 := by
        intro e
        have := hb'.2.2
        rw [e] at this
        rw [ts_allOnes] at this
        omega
      have hs' : CollSpec n slots c.last (tsN (slots i)) (coll ++ [i]) := by
        refine ⟨?_, ?_, ?_⟩
        · rw [List.pairwise_append]
          refine ⟨hs.desc, by simp, ?_⟩
          intro a ha b hb
          have := (hs.mem a ha).2.2
          simp only [List.mem_singleton] at hb; subst hb
          omega
        · intro j hj
          rcases List.mem_append.mp hj with h | h
          · have := hs.mem j h
            exact ⟨this.1, this.2.1, by omega⟩
          · simp only [List.mem_singleton] at h; subst h
            exact ⟨hi, hu, by omega⟩
        · intro j hj huj hle
          by_cases hjh : high ≤ tsN (slots j)
          · exact List.mem_append_left _ (hs.all j hj huj hjh)
          · have huj' := (between_iff _ _ _).mp huj
            have hbj : between (refd slots coll j) c.last high = true := by
              rw [refd_between hcrc hcpos, between_iff]; exact ⟨huj'.1, huj'.2.1, by omega⟩
            have := hmax j hj hbj
            rw [refd_ts hcrc] at this
            have := hdist i j hi hj hu huj (by omega)
            subst this
            simp
      obtain ⟨coll', high', g1, g2, g3, g4⟩ := ih (coll ++ [i]) (tsN (slots i)) (by omega) hs'
      refine ⟨coll', high', ?_, g2, by simp at g3; omega, ?_⟩
      · refine Reaches.trans h1 ?_
        -- end of scan
        refine Reaches.head ?_
        simp only [getterStep, Nat.lt_irrefl, if_false, hne]
        -- begin
        refine Reaches.head ?_
        simp only [getterStep, collState, hbi, hei, Bool.false_eq_true, if_false]
        -- cas
        refine Reaches.head ?_
        have hri : refd slots coll i = slots i := by simp [refd, hni]
        simp only [getterStep, hri, and_self, if_true]
        -- commit
        refine Reaches.head ?_
        simp only [getterStep, upd_self, hei, and_self, if_true]
        -- loadTs
        refine Reaches.head ?_
        simp only [getterStep, upd_self, marks_snoc, refd_snoc hni, (word_succ (hrc i hi hu)).1, Nat.add_sub_cancel]
        show Reaches n data (collState c (coll ++ [i]) _, _) _
        exact g1
      · rcases g4 with h | h
        · left; simp at h; omega
        · exact Or.inr h

theorem final_run (coll : List Nat) (todo : List Nat) : ∀ newest,
    ∃ N, Reaches n data ({ c with pc := .final coll todo newest }, slots)
      ({ c with last := N, pc := .deliver coll.reverse }, slots) ∧
      N = todo.foldl (fun m i => max m (tsN (slots i))) newest := by
  induction todo with
  | nil => intro newest; exact ⟨newest, ⟨1, rfl⟩, rfl⟩
  | cons i t ih =>
    intro newest
    obtain ⟨N, h1, h2⟩ := ih (max newest (tsN (slots i)))
    exact ⟨N, Reaches.head h1, h2⟩

theorem deliver_run (todo : List Nat) : ∀ c : Cons V,
    Reaches n data ({ c with pc := .deliver todo }, slots)
      ({ c with pc := .idle, held := marks c.held todo,
                delivered := (todo.map (fun i => (tsN (slots i), data i))).reverse ++ c.delivered }, slots) := by
  induction todo with
  | nil =>
    intro c
    refine ⟨1, ?_⟩
    have : marks c.held [] = c.held := by funext j; simp [marks]
    simp [getSteps, getterStep, this]
  | cons i t ih =>
    intro c
    refine Reaches.head ?_
    have := ih { c with held := upd c.held i true, delivered := (tsN (slots i), data i) :: c.delivered }
    have e : marks (upd c.held i true) t = marks c.held (i :: t) := by
      funext j; simp only [marks, upd]; by_cases h : j = i <;> simp [h]
    simp only [e] at this
    simp only [getterStep, List.map_cons, List.reverse_cons, List.append_assoc, List.singleton_append]
    exact this

end collect

theorem foldl_max (slots : Nat → Word) (l : List Nat) : ∀ m,
    m ≤ l.foldl (fun m i => max m (tsN (slots i))) m ∧ (∀ i ∈ l, tsN (slots i) ≤ l.foldl (fun m i => max m (tsN (slots i))) m) ∧
    (l.foldl (fun m i => max m (tsN (slots i))) m = m ∨ ∃ i ∈ l, l.foldl (fun m i => max m (tsN (slots i))) m = tsN (slots i)) := by
  induction l with
  | nil => intro m; simp
  | cons a t ih =>
    intro m
    have := ih (max m (tsN (slots a)))
    simp only [List.foldl_cons]
    refine ⟨by omega, ?_, ?_⟩
    · intro i hi
      rcases List.mem_cons.mp hi with h | h
      · subst h; omega
      · exact this.2.1 i h
    · rcases this.2.2 with h | ⟨i, hi, h⟩
      · rw [h]
        by_cases hx : m ≤ tsN (slots a)
        · right; exact ⟨a, by simp, by omega⟩
        · left; omega
      · right; exact ⟨i, by simp [hi], h⟩

/-- Nodup list of points satisfying `p`. -/
theorem length_le_count (l : List Nat) : ∀ (p : Nat → Bool) (n : Nat), l.Nodup → (∀ i ∈ l, i < n ∧ p i = true) →
    l.length ≤ count p n ∧ ((∀ i, i < n → p i = true → i ∈ l) → l.length = count p n) := by
  induction l with
  | nil =>
    intro p n _ _
    refine ⟨by simp, ?_⟩
    intro h
    symm
    rw [List.length_nil, count_eq_zero]
    intro j hj
    cases hp : p j with
    | false => rfl
    | true => have := h j hj hp; simp at this
  | cons a t ih =>
    intro p n hnd hm
    rw [List.nodup_cons] at hnd
    have ha := hm a (by simp)
    have hq : ∀ j, j ≠ a → (upd p a false) j = p j := fun j hj => upd_ne _ _ hj
    have hcu := count_upd (p := p) (q := upd p a false) ha.1 hq
    rw [upd_self, ha.2] at hcu
    simp at hcu
    have := ih (upd p a false) n hnd.2 (by
      intro i hi
      have hne : i ≠ a := fun e => hnd.1 (e ▸ hi)
      rw [upd_ne _ _ hne]; exact hm i (by simp [hi]))
    refine ⟨by simp; omega, ?_⟩
    intro hall
    have := this.2 (by
      intro i hi hp
      by_cases hne : i = a
      · rw [hne, upd_self] at hp; cases hp
      · rw [upd_ne _ _ hne] at hp
        rcases List.mem_cons.mp (hall i hi hp) with h | h
        · exact absurd h hne
        · exact h)
    simp; omega

/-- The whole undisturbed call. -/
theorem get_run {n : Nat} {data : Nat → V} {slots : Nat → Word} {c : Cons V}
    (hdist : ∀ i j, i < n → j < n → unseen slots c.last i = true → unseen slots c.last j = true →
      tsN (slots i) = tsN (slots j) → i = j)
    (hlog : ∀ i, i < n → unseen slots c.last i = true → c.b i = false ∧ c.e i = false)
    (hrc : ∀ i, i < n → unseen slots c.last i = true → rcN (slots i) + 1 < 2 ^ 32)
    (hidle : c.pc = .idle) (k : Nat) :
    ∃ coll c' slots', Reaches n data
      ({ c with pc := collectNext c.last { rem := k, high := tsMax, coll := [] } }, slots) (c', slots') ∧
      c'.pc = .idle ∧ c'.delivered = coll.map (fun i => (tsN (slots i), data i)) ++ c.delivered ∧
      c'.held = marks c.held coll ∧ slots' = refd slots coll ∧
      c.last ≤ c'.last ∧ (∀ i ∈ coll, tsN (slots i) ≤ c'.last) ∧
      (c'.last = c.last ∨ ∃ i ∈ coll, c'.last = tsN (slots i)) ∧
      coll.Pairwise (fun i j => tsN (slots j) < tsN (slots i)) ∧
      (∀ i ∈ coll, i < n ∧ unseen slots c.last i = true) ∧
      coll.length = min k (count (unseen slots c.last) n) ∧
      (∀ i ∈ coll, ∀ j, j < n → unseen slots c.last j = true → j ∉ coll → tsN (slots j) < tsN (slots i)) := by
  have h0 : CollSpec n slots c.last tsMax [] := by
    refine ⟨by simp, by simp, ?_⟩
    intro i hi hu hle
    have := (between_iff _ _ _).mp hu
    omega
  obtain ⟨coll, high, h1, h2, h3, h4⟩ := collect_run (data := data) hdist hlog hrc k [] tsMax (by omega) h0
  have hcrc : ∀ i ∈ coll, rcN (slots i) + 1 < 2 ^ 32 := fun i hi => hrc i (h2.mem i hi).1 (h2.mem i hi).2.1
  obtain ⟨N, h5, h6⟩ := final_run (n := n) (data := data) (slots := refd slots coll)
    (c := collState c coll .idle) coll coll.reverse c.last
  have h7 := deliver_run (n := n) (data := data) (slots := refd slots coll) coll.reverse
    { collState c coll .idle with last := N }
  have e0 : collState c [] (collectNext c.last { rem := k, high := tsMax, coll := [] }) =
      { c with pc := collectNext c.last { rem := k, high := tsMax, coll := [] } } := by
    simp [collState, marks_nil]
  have e1 : refd slots [] = slots := by funext i; simp [refd]
  rw [e0, e1] at h1
  have hf := foldl_max (refd slots coll) coll.reverse c.last
  rw [← h6] at hf
  refine ⟨coll, _, _, Reaches.trans (Reaches.trans h1 h5) h7, rfl, ?_, ?_, rfl, hf.1, ?_, ?_, h2.desc, ?_, ?_, ?_⟩
  · show _ ++ c.delivered = _
    congr 1
    rw [← List.map_reverse, List.reverse_reverse]
    apply List.map_congr_left
    intro i _
    rw [refd_ts hcrc]
  · show marks c.held coll.reverse = _
    funext j; simp [marks]
  · intro i hi
    have := hf.2.1 i (by simpa using hi)
    rw [refd_ts hcrc] at this; exact this
  · rcases hf.2.2 with h | ⟨i, hi, h⟩
    · exact Or.inl h
    · rw [refd_ts hcrc] at h; exact Or.inr ⟨i, by simpa using hi, h⟩
  · intro i hi; exact ⟨(h2.mem i hi).1, (h2.mem i hi).2.1⟩
  · have hnd : coll.Nodup := by
      refine List.Pairwise.imp ?_ h2.desc
      intro a b hab e; subst e; omega
    have hc := length_le_count coll (unseen slots c.last) n hnd (fun i hi => ⟨(h2.mem i hi).1, (h2.mem i hi).2.1⟩)
    simp only [List.length_nil, Nat.zero_add] at h3 h4
    rcases h4 with h4 | h4
    · omega
    · have := hc.2 h4
      omega
  · intro i hi j hj hu hnj
    have h8 := (h2.mem i hi).2.2
    by_cases hlt : tsN (slots j) < high
    · omega
    · exact absurd (h2.all j hj hu (by omega)) hnj

theorem numNewEvents_eq (slots : Nat → Word) (last n : Nat) :
    numNewEvents slots last n = count (unseen slots last) n := by
  induction n with
  | zero => rfl
  | succ n ih => rw [numNewEvents, count, ih]; rfl

/-! ### `last_ts_` is the newest delivered timestamp -/

def LastD (c : Cons V) : Prop := c.last = 0 ∨ ∃ d ∈ c.delivered, d.1 = c.last

/-- What `last_ts_` means at each program point. -/
def LastOk (slots : Nat → Word) (c : Cons V) : Prop :=
  match c.pc with
  | .final coll _ newest => LastD c ∧ (newest = c.last ∨ ∃ i ∈ coll, tsN (slots i) = newest)
  | .deliver todo => LastD c ∨ ∃ i ∈ todo, tsN (slots i) = c.last
  | .crashed | .assertFailed | .waitTimeout | .unsubAbort | .rbAt _ | .rbBegun _ | .rbSubbed _ | .rbFailed => True
  | _ => LastD c

theorem LastOk.transport {slots slots' : Nat → Word} {c : Cons V} (h : LastOk slots c)
    (hs : ∀ i ∈ pend c.pc, tsN (slots' i) = tsN (slots i)) : LastOk slots' c := by
  unfold LastOk at *
  cases hpc : c.pc <;> simp only [hpc, pend] at * <;> try exact h
  · refine ⟨h.1, ?_⟩
    rcases h.2 with h | ⟨i, hi, h⟩
    · exact Or.inl h
    · exact Or.inr ⟨i, hi, by rw [hs i hi]; exact h⟩
  · rcases h with h | ⟨i, hi, h⟩
    · exact Or.inl h
    · exact Or.inr ⟨i, hi, by rw [hs i hi]; exact h⟩

theorem lastOk_dead {slots : Nat → Word} {c : Cons V} (h : c.pc.live = false) : LastOk slots c := by
  unfold LastOk; cases hpc : c.pc <;> simp_all [CPc.live]

theorem lastD_collectNext {slots : Nat → Word} {c : Cons V} (h : LastD c) (cx : Ctx) :
    LastOk slots { c with pc := collectNext c.last cx } := by
  unfold LastOk collectNext
  split
  · rename_i coll _ newest heq
    split at heq
    · cases heq; exact ⟨h, Or.inl rfl⟩
    · cases heq
  · rename_i todo heq; split at heq <;> cases heq
  all_goals first | trivial | (exact h)

theorem lastOk_getter {n : Nat} {slots : Nat → Word} {data : Nat → V} {c : Cons V} {sp : Bool} (h : LastOk slots c)
    (hpk : PcOk n slots c) :
    LastOk slots (getterStep n slots data c sp).1 := by
  have hstart : ∀ cx : Ctx, LastD c → LastOk slots { c with pc := collectEnd c.last cx } :=
    fun cx hd => ⟨hd, Or.inl rfl⟩
  unfold getterStep
  unfold LastOk at h
  unfold PcOk at hpk
  cases hpc : c.pc <;> simp only [hpc] at h hpk ⊢
  · simp only [LastOk, hpc]; exact h
  · split
    · split
      · exact h
      · exact h
    · split
      · exact hstart _ h
      · split
        · exact lastOk_dead rfl
        · exact h
  · split
    · exact lastOk_dead rfl
    · split
      · split
        · exact h
        · exact lastOk_dead rfl
      · exact h
  · split
    · exact h
    · exact h
  · split
    · exact h
    · exact lastOk_dead rfl
  · split
    · split
      · exact h
      · exact ⟨h, Or.inl rfl⟩
    · exact lastOk_dead rfl
  · exact lastD_collectNext h _
  · rename_i coll todo newest
    cases todo with
    | nil =>
      show _ ∨ _
      rcases h.2 with h2 | ⟨i, hi, h2⟩
      · left; unfold LastD; dsimp only; rw [h2]; exact h.1
      · right; exact ⟨i, by simpa using hi, h2⟩
    | cons i t =>
      show _ ∧ _
      refine ⟨h.1, ?_⟩
      by_cases hle : tsN (slots i) ≤ newest
      · rw [Nat.max_eq_left hle]; exact h.2
      · right; exact ⟨i, hpk.2.2.2 i (by simp), by omega⟩
  · rename_i todo
    cases todo with
    | nil => 
      rcases h with h | ⟨i, hi, _⟩
      · exact h
      · simp at hi
    | cons i t =>
      show _ ∨ _
      rcases h with h | ⟨j, hj, h⟩
      · left
        rcases h with h | ⟨d, hd, h⟩
        · exact Or.inl h
        · exact Or.inr ⟨d, by simp [hd], h⟩
      · rcases List.mem_cons.mp hj with e | e
        · subst e; left; right; exact ⟨_, List.mem_cons_self, h⟩
        · right; exact ⟨j, e, h⟩
  · simp only [LastOk, hpc]
  · simp only [LastOk, hpc]
  · simp only [LastOk, hpc]
  · split
    · split
      · trivial
      · split <;> trivial
    · exact Or.inl rfl
  · trivial
  · trivial
  · simp only [LastOk, hpc]

def LastInv (s : St V) : Prop := ∀ c, c < s.m → LastOk s.slots (s.cons c)

theorem pend_cnt {n : Nat} {slots : Nat → Word} {c : Cons V} (h : CInv n slots c) {i : Nat}
    (hi : i ∈ pend c.pc) : c.cnt i = true := by
  cases hl : c.pc.live with
  | false => cases hpc : c.pc <;> simp_all [pend, CPc.live]
  | true => rcases h.slot hl i with h | h | ⟨_, _, h⟩ | h | h | h <;> simp_all

theorem lastInv_step {s : St V} (h : Inv s) (hl : LastInv s) (op : Op V) : LastInv (step s op) := by
  intro c hc
  rw [(step_nm s op).2] at hc
  have hci := h.cons c hc
  have hold := hl c hc
  cases hop : op.isCons with
  | false =>
    have e : (step s op).cons = s.cons := by
      cases op <;> simp only [step, provStep] <;> (repeat' split) <;> first | rfl | (simp [Op.isCons] at hop)
    rw [e]
    apply hold.transport
    intro i hi
    exact (step_stable h op (refs_pos hc (pend_cnt hci hi))).2
  | true =>
    have hts := fun i => (cons_op_ts h hop i).2.2.2.1
    refine LastOk.transport (slots := s.slots) ?_ (fun i _ => hts i)
    have self : ∀ {d : Nat} {x : Cons V}, LastOk s.slots x →
        LastOk s.slots (upd s.cons d x c) := by
      intro d x hx
      by_cases hcd : c = d
      · subst hcd; rw [upd_self]; exact hx
      · rw [upd_ne _ _ hcd]; exact hold
    cases op with
    | consGet d k =>
      simp only [step]
      split
      · rename_i hd
        refine self ?_
        have h1 := hl d hd.1
        unfold LastOk at h1
        rw [hd.2] at h1
        exact lastD_collectNext h1 _
      · exact hold
    | consStep d sp =>
      simp only [step]
      split
      · rename_i hd
        exact self (lastOk_getter (hl d hd) (h.cons d hd).pcok)
      · exact hold
    | consRelease d i =>
      simp only [step]
      split
      · rename_i hd
        refine self ?_
        unfold relStart
        split
        · split
          · have := hl d hd.1
            exact this
          · exact lastOk_dead rfl
        · exact hl d hd.1
      · exact hold
    | consRelStep d i =>
      simp only [step]
      split
      · rename_i hd
        refine self ?_
        unfold relStep
        split
        · exact hl d hd
        · have := hl d hd
          exact this
        · split
          · have := hl d hd
            exact this
          · exact lastOk_dead rfl
      · exact hold
    | consResubscribe d =>
      simp only [step]
      split
      · rename_i hd
        split
        · refine self ?_
          unfold LastOk
          simp only [hd.2]
          exact Or.inl rfl
        · exact self (lastOk_dead rfl)
      · exact hold
    | consCrash d =>
      simp only [step]
      split
      · rename_i hd
        split
        · exact hold
        · exact self (lastOk_dead rfl)
      · exact hold
    | consRecover d =>
      simp only [step]
      split
      · rename_i hd
        split <;> first | exact hold | exact self (lastOk_dead rfl)
      · exact hold
    | _ => simp [Op.isCons] at hop

theorem lastInv_run {s : St V} (h : Inv s) (hl : LastInv s) (ops : List (Op V)) : LastInv (run s ops) := by
  induction ops generalizing s with
  | nil => exact hl
  | cons op ops ih => exact ih (step_inv h op) (lastInv_step h hl op)

theorem lastInv_init (n m : Nat) (v0 : V) : LastInv (init n m v0) := fun _ _ => Or.inl rfl

end Verif.Ctrl
