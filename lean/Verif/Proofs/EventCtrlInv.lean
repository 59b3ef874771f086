import Verif.Proofs.EventCtrlStep
/-! The invariant holds in every reachable state. -/
namespace Verif.Ctrl
open Verif Verif.Slot

variable {V : Type}

theorem relStart_inv {n : Nat} {slots : Nat → Word} {c : Cons V} {i : Nat} (h : CInv n slots c)
    (hl : c.pc.live = true) :
    CInv n slots (relStart c i) ∧ (relStart c i).cnt = c.cnt ∧ (relStart c i).delivered = c.delivered := by
  unfold relStart
  split
  · rename_i hh
    have hsi := h.slot hl i
    have hbe : c.b i = true ∧ c.e i = true ∧ i ∉ pend c.pc ∧ (∀ k, mid c.pc ≠ some (i, k)) ∧ c.cnt i = true := by
      rcases hsi with h | h | ⟨_, _, h⟩ | h | h | h <;> simp_all
    obtain ⟨hb, he, hp, hm, hc⟩ := hbe
    simp only [hb, he, and_self, if_true]
    refine ⟨⟨?_, ?_, ?_, ?_, ?_, h.deliv, h.delivLe⟩, trivial⟩
    · intro j hj
      have hbj := h.bound j hj
      have : j ≠ i := by intro e; subst e; simp_all
      show upd c.b i false j = false ∧ _
      rw [upd_ne _ _ this]; exact hbj
    · intro _ j
      have hsl := h.slot hl j
      unfold SlotOk at *
      by_cases hji : j = i
      · subst hji; left; simp_all
      · simp only [upd_ne _ _ hji]; exact hsl
    · intro j hj
      by_cases hji : j = i
      · subst hji; simp at hj
      · simp only [upd_ne _ _ hji] at hj; exact h.heldTs j hj
    · have hpk := h.pcok
      have hbm : ∀ j, c.b j = false → upd c.b i false j = false := by
        intro j hj; rw [upd_apply]; split <;> simp [hj]
      unfold PcOk at *
      cases hpc : c.pc <;> simp only [hpc, CPc.live] at hpk hl ⊢ <;> try exact hpk
      · exact ⟨hpk.1.congr rfl, fun j w hj => ⟨(hpk.2 j w hj).1, hbm j (hpk.2 j w hj).2⟩⟩
      · exact ⟨hpk.1.congr rfl, hpk.2.1, hbm _ hpk.2.2⟩
      · cases hl
      · cases hl
      · cases hl
    · intro hd; simp_all
  · exact ⟨h, rfl, rfl⟩

theorem relStep_inv {n : Nat} {slots : Nat → Word} {c : Cons V} {i : Nat} (h : CInv n slots c)
    (hrc0 : ∀ i, c.cnt i = true → 0 < rcN (slots i)) :
    CInv n (relStep slots c i).2 (relStep slots c i).1 ∧
    Effect n slots (relStep slots c i).2 c (relStep slots c i).1 ∧
    (relStep slots c i).1.delivered = c.delivered := by
  unfold relStep
  have hlive : c.rel i ≠ .none → c.pc.live = true := by
    intro hr
    cases hl : c.pc.live with
    | true => rfl
    | false => exact absurd ((h.dead hl).1 i).1 hr
  cases hr : c.rel i with
  | none => exact ⟨h, Or.inl ⟨rfl, rfl⟩, rfl⟩
  | begun =>
    have hl := hlive (by rw [hr]; simp)
    have hsi := h.slot hl i
    have hbe : c.b i = false ∧ c.e i = true ∧ i ∉ pend c.pc ∧ (∀ k, mid c.pc ≠ some (i, k)) ∧ c.cnt i = true ∧
        c.held i = false := by
      rcases hsi with h | h | ⟨_, _, h⟩ | h | h | h <;> simp_all
    obtain ⟨hb, he, hp, hm, hc, hh⟩ := hbe
    have hin : i < n := by
      apply Decidable.byContradiction; intro hn
      have := h.bound i (by omega); simp_all
    have htr : CInv n (upd slots i (slots i - 1#64)) c := by
      apply h.transport
      intro j hcj
      by_cases hjk : j = i
      · subst hjk; rw [upd_self]; exact (word_pred (hrc0 j hc)).1
      · rw [upd_ne _ _ hjk]
    refine ⟨⟨?_, ?_, htr.heldTs, ?_, ?_, h.deliv, h.delivLe⟩, Or.inr (Or.inr ⟨i, hin, rfl, hc, rfl⟩), rfl⟩
    · intro j hj
      show _ ∧ _ ∧ upd c.cnt i false j = false
      rw [upd_ne _ _ (by omega)]; exact h.bound j hj
    · intro _ j
      have hsl := h.slot hl j
      unfold SlotOk at *
      by_cases hji : j = i
      · subst hji; right; left; simp_all
      · simp only [upd_ne _ _ hji]; exact hsl
    · have hpk := htr.pcok
      unfold PcOk at *
      cases hpc : c.pc <;> simp only [hpc, CPc.live] at hpk hl ⊢ <;> try exact hpk
      all_goals cases hl
    · intro hd; simp_all
  | subbed =>
    have hl := hlive (by rw [hr]; simp)
    have hsi := h.slot hl i
    have hbe : c.b i = false ∧ c.e i = true ∧ i ∉ pend c.pc ∧ (∀ k, mid c.pc ≠ some (i, k)) ∧ c.cnt i = false ∧
        c.held i = false := by
      rcases hsi with h | h | ⟨_, _, h⟩ | h | h | h <;> simp_all
    obtain ⟨hb, he, hp, hm, hc, hh⟩ := hbe
    have hin : i < n := by
      apply Decidable.byContradiction; intro hn
      have := h.bound i (by omega); simp_all
    simp only [hb, he, and_self, if_true]
    refine ⟨⟨?_, ?_, h.heldTs, ?_, ?_, h.deliv, h.delivLe⟩, Or.inl ⟨rfl, rfl⟩, trivial⟩
    · intro j hj
      show _ ∧ upd c.e i false j = false ∧ _
      rw [upd_ne _ _ (by omega)]; exact h.bound j hj
    · intro _ j
      have hsl := h.slot hl j
      unfold SlotOk at *
      by_cases hji : j = i
      · subst hji; right; right; right; left; simp_all
      · simp only [upd_ne _ _ hji]; exact hsl
    · have hpk := h.pcok
      unfold PcOk at *
      cases hpc : c.pc <;> simp only [hpc, CPc.live] at hpk hl ⊢ <;> try exact hpk
      all_goals cases hl
    · intro hd; simp_all

theorem logEmpty_iff (c : Cons V) (n : Nat) :
    logEmpty c n = true ↔ ∀ i, i < n → c.b i = false ∧ c.e i = false := by
  induction n with
  | zero => simp [logEmpty]
  | succ n ih =>
    simp only [logEmpty, Bool.and_eq_true, ih, Bool.not_eq_true']
    constructor
    · rintro ⟨⟨h1, h2⟩, h3⟩ i hi
      by_cases hin : i = n
      · subst hin; exact ⟨h2, h3⟩
      · exact h1 i (by omega)
    · intro h
      exact ⟨⟨fun i hi => h i (by omega), (h n (by omega)).1⟩, (h n (by omega)).2⟩

theorem rc_bounds {s : St V} (h : Inv s) :
    (∀ i, s.slots i ≠ inWriting → rcN (s.slots i) + 1 < 2 ^ 32) ∧
    (∀ c, c < s.m → ∀ i, (s.cons c).cnt i = true → 0 < rcN (s.slots i)) := by
  constructor
  · intro i hi
    rcases h.rc i with h1 | h1
    · exact absurd h1.1 hi
    · have : refs s i ≤ s.m := count_le _ _
      have := h.small
      omega
  · intro c hc i hi
    have hp := refs_pos hc hi
    rcases h.rc i with h1 | h1
    · omega
    · omega

/-- A consumer step with known effect keeps the system invariant. -/
theorem cons_step_inv {s : St V} (h : Inv s) {c : Nat} (hc : c < s.m) {c' : Cons V} {slots' : Nat → Word}
    (hci : CInv s.n slots' c') (he : Effect s.n s.slots slots' (s.cons c) c')
    (hd : ∀ d ∈ c'.delivered, d ∈ s.sent) :
    Inv { s with cons := upd s.cons c c', slots := slots' } := by
  have hb := rc_bounds h
  have hrefs : ∀ i, refs { s with cons := upd s.cons c c', slots := slots' } i + (if (s.cons c).cnt i then 1 else 0)
      = refs s i + (if c'.cnt i then 1 else 0) := by
    intro i
    have := count_upd (p := fun d => (s.cons d).cnt i) (q := fun d => (upd s.cons c c' d).cnt i) (m := s.m) hc
      (by intro j hj; simp only [upd_ne _ _ hj])
    simpa [refs] using this
  have hslot : (∀ i, slots' i = s.slots i ∧ c'.cnt i = (s.cons c).cnt i ∨
      s.slots i ≠ inWriting ∧ s.slots i ≠ invalidEvent ∧ slots' i = s.slots i + 1#64 ∧ (s.cons c).cnt i = false ∧ c'.cnt i = true ∨
      slots' i = s.slots i - 1#64 ∧ (s.cons c).cnt i = true ∧ c'.cnt i = false) := by
    intro i
    rcases he with ⟨h1, h2⟩ | ⟨j, _, h1, h2, h3, h4, h5⟩ | ⟨j, _, h1, h2, h3⟩
    · left; rw [h1, h2]; simp
    · by_cases hij : i = j
      · subst hij; right; left; simp_all
      · left; rw [h3, h5, upd_ne _ _ hij, upd_ne _ _ hij]; simp
    · by_cases hij : i = j
      · subst hij; right; right; simp_all
      · left; rw [h1, h3, upd_ne _ _ hij, upd_ne _ _ hij]; simp
  have hts : ∀ i, tsN (slots' i) = tsN (s.slots i) ∧ (slots' i = inWriting ↔ s.slots i = inWriting) ∧
      (readable (slots' i) = true → readable (s.slots i) = true) := by
    intro i
    rcases hslot i with ⟨h1, _⟩ | ⟨h1, h2, h3, _, _⟩ | ⟨h1, h2, _⟩
    · rw [h1]; simp
    · have hw := word_succ (hb.1 i h1)
      rw [h3]
      refine ⟨hw.1, ⟨?_, fun e => absurd e h1⟩, fun _ => (readable_iff _).mpr ⟨h1, h2⟩⟩
      intro e
      have h5 : rcN (s.slots i + 1#64) = 2 ^ 32 - 1 := by rw [e]; exact rcN_inWriting
      rcases h.rc i with h6 | h6
      · exact absurd h6.1 h1
      · have : refs s i ≤ s.m := count_le _ _
        have := h.small
        have hz : refs s i < s.m := by
          have := hrefs i
          simp_all
          have : count (fun d => (upd s.cons c c' d).cnt i) s.m ≤ s.m := count_le _ _
          simp only [refs] at *
          omega
        omega
    · have h0 := hb.2 c hc i h2
      have hp := refs_pos hc h2
      have hnw : s.slots i ≠ inWriting := by
        intro e
        rcases h.rc i with h6 | h6
        · omega
        · exact h6.1 e
      have hw := word_pred h0
      rw [h1]
      refine ⟨hw.1, ⟨?_, fun e => absurd e hnw⟩, fun _ => readable_of_rc hnw h0⟩
      intro e
      have h5 : rcN (s.slots i - 1#64) = 2 ^ 32 - 1 := by rw [e]; exact rcN_inWriting
      have := hb.1 i hnw
      omega
  refine ⟨h.small, ?_, ?_, h.allocLt, h.prov, ?_, ?_, ?_⟩
  · intro i
    have hr := hrefs i
    rcases hslot i with ⟨h1, h2⟩ | ⟨h1, h2, h3, h4, h5⟩ | ⟨h1, h2, h3⟩
    · show (slots' i = _ ∧ _) ∨ (slots' i ≠ _ ∧ rcN (slots' i) = _)
      rw [h1]
      rw [h2] at hr
      have hr := Nat.add_right_cancel hr
      rw [hr]
      exact h.rc i
    · right
      have := (hts i).2.1
      refine ⟨fun e => h1 (this.mp e), ?_⟩
      show rcN (slots' i) = _
      rw [h3, (word_succ (hb.1 i h1)).2]
      rcases h.rc i with h6 | h6
      · exact absurd h6.1 h1
      · simp_all
    · right
      have h0 := hb.2 c hc i h2
      have hp := refs_pos hc h2
      have hnw : s.slots i ≠ inWriting := by
        intro e
        rcases h.rc i with h6 | h6
        · omega
        · exact h6.1 e
      refine ⟨fun e => hnw ((hts i).2.1.mp e), ?_⟩
      show rcN (slots' i) = _
      rw [h1, (word_pred h0).2]
      rcases h.rc i with h6 | h6
      · exact absurd h6.1 hnw
      · simp_all; omega
  · intro i
    show s.alloc i = true ↔ slots' i = inWriting
    rw [(hts i).2.1]; exact h.alloc i
  · intro i hi
    show (tsN (slots' i), s.data i) ∈ s.sent
    rw [(hts i).1]; exact h.sent i ((hts i).2.2 hi)
  · intro d hdm
    show CInv s.n slots' (upd s.cons c c' d)
    by_cases hdc : d = c
    · subst hdc; rw [upd_self]; exact hci
    · rw [upd_ne _ _ hdc]
      exact (h.cons d hdm).transport (fun i _ => (hts i).1)
  · intro d hdm x hx
    by_cases hdc : d = c
    · subst hdc; exact hd x (by simpa using hx)
    · exact h.delivSent d hdm x (by simpa [upd_ne _ _ hdc] using hx)

/-- A provider step that changes slots nobody references keeps the system invariant. -/
theorem prov_step_inv {s : St V} (h : Inv s) {slots' : Nat → Word} {data' : Nat → V} {ppc' : PPc}
    {alloc' : Nat → Bool} {cur' : Nat} {sent' : List (Nat × V)}
    (hslot : ∀ i, (slots' i = s.slots i ∧ alloc' i = s.alloc i ∧
        (data' i = s.data i ∨ s.slots i = inWriting)) ∨
      (refs s i = 0 ∧ slots' i = inWriting ∧ alloc' i = true ∧ i < s.n) ∨
      (s.slots i = inWriting ∧ slots' i = invalidEvent ∧ alloc' i = false) ∨
      (s.slots i = inWriting ∧ slots' i ≠ inWriting ∧ rcN (slots' i) = 0 ∧ alloc' i = false ∧
        (tsN (slots' i), data' i) ∈ sent'))
    (hp : ProvOk s.n ppc') (hs : ∀ x ∈ s.sent, x ∈ sent') :
    Inv { s with slots := slots', data := data', ppc := ppc', alloc := alloc', cur := cur', sent := sent' } := by
  have hw : ∀ i, s.slots i = inWriting → refs s i = 0 := by
    intro i hi
    rcases h.rc i with h1 | h1
    · exact h1.2
    · exact absurd hi h1.1
  refine ⟨h.small, ?_, ?_, ?_, hp, ?_, ?_, ?_⟩
  · intro i
    show (slots' i = _ ∧ refs s i = 0) ∨ (slots' i ≠ _ ∧ rcN (slots' i) = refs s i)
    rcases hslot i with ⟨h1, _⟩ | ⟨h1, h2, _⟩ | ⟨h1, h2, _⟩ | ⟨h1, h2, h3, _⟩
    · rw [h1]; exact h.rc i
    · exact Or.inl ⟨h2, h1⟩
    · right; rw [h2, hw i h1]; exact ⟨by decide, rcN_invalid⟩
    · right; rw [hw i h1]; exact ⟨h2, h3⟩
  · intro i
    show alloc' i = true ↔ slots' i = inWriting
    rcases hslot i with ⟨h1, h2, _⟩ | ⟨h1, h2, h3, _⟩ | ⟨h1, h2, h3⟩ | ⟨h1, h2, _, h3, _⟩
    · rw [h1, h2]; exact h.alloc i
    · simp [h2, h3]
    · rw [h2, h3]; simp; decide
    · simp [h3, h2]
  · intro i hi
    rcases hslot i with ⟨h1, h2, _⟩ | ⟨h1, h2, h3, h4⟩ | ⟨h1, h2, h3⟩ | ⟨h1, h2, _, h3, _⟩
    · exact h.allocLt i (by rw [← h2]; exact hi)
    · exact h4
    · have hi : alloc' i = true := hi
      simp_all
    · have hi : alloc' i = true := hi
      simp_all
  · intro i hi
    show (tsN (slots' i), data' i) ∈ sent'
    have hi : readable (slots' i) = true := hi
    rcases hslot i with ⟨h1, _, h2⟩ | ⟨h1, h2, h3, _⟩ | ⟨h1, h2, h3⟩ | ⟨h1, h2, _, h3, h4⟩
    · rw [h1] at hi ⊢
      rcases h2 with h2 | h2
      · rw [h2]; exact hs _ (h.sent i hi)
      · rw [h2] at hi; simp [readable_iff] at hi
    · rw [h2] at hi; simp [readable_iff] at hi
    · rw [h2] at hi; simp [readable_iff] at hi
    · exact h4
  · intro c hc
    refine (h.cons c hc).transport ?_
    intro i hi
    have hp : 0 < refs s i := refs_pos hc hi
    show tsN (slots' i) = _
    rcases hslot i with ⟨h1, _⟩ | ⟨h1, _⟩ | ⟨h1, _⟩ | ⟨h1, _⟩
    · rw [h1]
    · omega
    · have := hw i h1; omega
    · have := hw i h1; omega
  · intro c hc x hx
    exact hs x (h.delivSent c hc x hx)

theorem provFind_ok {s : St V} {retry k oldest : Nat} {best : Option (Nat × Word)}
    (hb : ∀ i w, best = some (i, w) → PWOk s.n i w) :
    ProvOk s.n (provFind s.n s.slots retry k oldest best) := by
  unfold provFind
  split
  · rename_i hk
    dsimp only
    split
    · rename_i hi
      refine ⟨hk, ?_⟩
      rw [(isInvalid_iff _).mp hi]; exact rcN_invalid
    · split
      · rename_i hh
        intro i w hiw
        simp only [Option.some.injEq, Prod.mk.injEq] at hiw
        obtain ⟨rfl, rfl⟩ := hiw
        exact ⟨hk, hh.1⟩
      · exact hb
  · split
    · rename_i i w
      exact hb i w rfl
    · split
      · intro i w hiw; simp at hiw
      · trivial

theorem same {s : St V} {i : Nat} :
    (s.slots i = s.slots i ∧ s.alloc i = s.alloc i ∧ (s.data i = s.data i ∨ s.slots i = inWriting)) := by simp

theorem step_inv {s : St V} (h : Inv s) (op : Op V) : Inv (step s op) := by
  have hb := rc_bounds h
  cases op with
  | provAlloc =>
    simp only [step]
    split
    · exact prov_step_inv h (fun i => Or.inl same) (by simp [ProvOk]) (fun x hx => hx)
    · exact h
  | provStep =>
    simp only [step, provStep]
    cases hp : s.ppc with
    | idle => exact h
    | find retry k oldest best =>
      have hpr := h.prov
      rw [hp] at hpr
      exact prov_step_inv h (fun i => Or.inl same) (provFind_ok hpr) (fun x hx => hx)
    | cas retry i w =>
      have hpr := h.prov
      rw [hp] at hpr
      dsimp only
      split
      · rename_i hw
        have hnw : s.slots i ≠ inWriting := by
          intro e
          have := hpr.2
          rw [← hw, e, rcN_inWriting] at this
          omega
        have hz : refs s i = 0 := by
          rcases h.rc i with h1 | h1
          · exact absurd h1.1 hnw
          · rw [← h1.2, hw]; exact hpr.2
        refine prov_step_inv h ?_ trivial (fun x hx => hx)
        intro j
        by_cases hji : j = i
        · subst hji; right; left; exact ⟨hz, by simp, by simp, hpr.1⟩
        · left; rw [upd_ne _ _ hji, upd_ne _ _ hji]; exact same
      · split
        · exact prov_step_inv h (fun i => Or.inl same) (by simp [ProvOk]) (fun x hx => hx)
        · exact prov_step_inv h (fun i => Or.inl same) trivial (fun x hx => hx)
  | provWrite i v =>
    simp only [step]
    split
    · rename_i ha
      refine prov_step_inv h ?_ h.prov (fun x hx => hx)
      intro j
      left
      refine ⟨rfl, rfl, ?_⟩
      by_cases hji : j = i
      · subst hji; right; exact (h.alloc j).mp ha
      · left; rw [upd_ne _ _ hji]
    · exact h
  | provSend i =>
    simp only [step]
    split
    · rename_i ha
      have hw := (h.alloc i).mp ha.1
      have hrd := rcN_ready ((s.cur + 1) % 2 ^ 32)
      refine prov_step_inv h ?_ h.prov (fun x hx => List.mem_cons_of_mem _ hx)
      intro j
      by_cases hji : j = i
      · subst hji
        right; right; right
        refine ⟨hw, ?_, by simpa using hrd, by simp, ?_⟩
        · simp only [upd_self]
          intro e; rw [e, rcN_inWriting] at hrd; omega
        · simp only [upd_self]
          rw [tsN_ready, Nat.mod_mod]; simp
      · left; rw [upd_ne _ _ hji, upd_ne _ _ hji]; exact same
    · exact h
  | provDiscard i =>
    simp only [step]
    split
    · rename_i ha
      have hw := (h.alloc i).mp ha.1
      have : isInWriting (s.slots i) = true := (isInWriting_iff _).mpr hw
      simp only [this, if_true]
      refine prov_step_inv h ?_ h.prov (fun x hx => hx)
      intro j
      by_cases hji : j = i
      · subst hji
        right; right; left
        exact ⟨hw, by simp, by simp⟩
      · left; rw [upd_ne _ _ hji, upd_ne _ _ hji]; exact same
    · exact h
  | provRestart =>
    simp only [step]
    refine prov_step_inv h ?_ trivial (fun x hx => hx)
    intro j
    by_cases hw : s.slots j = inWriting
    · right; right; left
      refine ⟨hw, ?_, rfl⟩
      simp [(isInWriting_iff _).mpr hw]
    · left
      have h1 : isInWriting (s.slots j) = false := by
        cases hx : isInWriting (s.slots j) with
        | false => rfl
        | true => exact absurd ((isInWriting_iff _).mp hx) hw
      have h2 : s.alloc j = false := by
        cases hx : s.alloc j with
        | false => rfl
        | true => exact absurd ((h.alloc j).mp hx) hw
      simp [h1, h2]
  | consGet c k =>
    simp only [step]
    split
    · rename_i hc
      refine cons_step_inv h hc.1 (slots' := s.slots) ?_ (Or.inl ⟨rfl, rfl⟩) (h.delivSent c hc.1)
      have hci := h.cons c hc.1
      refine hci.move (by rw [hc.2]; rfl) (live_next _ _) (by rw [pend_next, hc.2]; rfl)
        (by rw [mid_next, hc.2]; rfl) ?_
      exact next_ok (cx := { rem := k, high := tsMax, coll := [] }) ⟨Nat.le_refl _, by simp, by simp⟩ rfl
    · exact h
  | consStep c sp =>
    simp only [step]
    split
    · rename_i hc
      have := getter_inv (data := s.data) (sp := sp) (h.cons c hc) hb.1 (hb.2 c hc)
      refine cons_step_inv h hc this.1 this.2.1 ?_
      intro d hd
      rcases this.2.2 with h1 | h1 | ⟨i, h1, h2⟩
      · rw [h1] at hd; exact h.delivSent c hc d hd
      · rw [h1] at hd; simp at hd
      · rw [h2] at hd
        simp only [List.mem_cons] at hd
        rcases hd with hd | hd
        · subst hd
          apply h.sent
          refine readable_of_rc ?_ (hb.2 c hc i h1)
          intro e
          have := refs_pos hc h1
          rcases h.rc i with h3 | h3
          · omega
          · exact h3.1 e
        · exact h.delivSent c hc d hd
    · exact h
  | consRelease c i =>
    simp only [step]
    split
    · rename_i hc
      have := relStart_inv (i := i) (h.cons c hc.1) hc.2
      refine cons_step_inv h hc.1 (slots' := s.slots) this.1 (Or.inl ⟨rfl, this.2.1⟩) ?_
      rw [this.2.2]; exact h.delivSent c hc.1
    · exact h
  | consRelStep c i =>
    simp only [step]
    split
    · rename_i hc
      have := relStep_inv (i := i) (h.cons c hc) (hb.2 c hc)
      refine cons_step_inv h hc this.1 this.2.1 ?_
      rw [this.2.2]; exact h.delivSent c hc
    · exact h
  | consResubscribe c =>
    simp only [step]
    split
    · rename_i hc
      have hci := h.cons c hc.1
      split
      · rename_i he
        rw [logEmpty_iff] at he
        have hl : (s.cons c).pc.live = true := by rw [hc.2]; rfl
        have hnoheld : ∀ i, (s.cons c).held i = false := by
          intro i
          have hz : (s.cons c).b i = false ∧ (s.cons c).e i = false := by
            by_cases hi : i < s.n
            · exact he i hi
            · have := hci.bound i (by omega); exact ⟨this.1, this.2.1⟩
          rcases hci.slot hl i with h | h | ⟨_, _, h⟩ | h | h | h <;> simp_all
        refine cons_step_inv h hc.1 (slots' := s.slots) ?_ (Or.inl ⟨rfl, rfl⟩) (by simp)
        refine ⟨hci.bound, ?_, ?_, ?_, ?_, by simp, by simp⟩
        · intro _ i; exact hci.slot hl i
        · intro i hi
          have : (s.cons c).held i = true := hi
          rw [hnoheld] at this; cases this
        · unfold PcOk; simp [hc.2]
        · intro hd; simp [hc.2, CPc.live] at hd
      · exact cons_step_inv h hc.1 (slots' := s.slots) (hci.die (by simp)) (Or.inl ⟨rfl, rfl⟩)
          (h.delivSent c hc.1)
    · exact h
  | consCrash c =>
    simp only [step]
    split
    · rename_i hc
      split
      · exact h
      · exact cons_step_inv h hc (slots' := s.slots) ((h.cons c hc).die (by simp)) (Or.inl ⟨rfl, rfl⟩)
          (h.delivSent c hc)
    · exact h
  | consRecover c =>
    simp only [step]
    split
    · rename_i hc
      have hci := h.cons c hc
      have key : (s.cons c).pc.live = false → Inv { s with cons := upd s.cons c { s.cons c with pc := .rbAt 0 } } := by
        intro hl
        refine cons_step_inv h hc (slots' := s.slots) ?_ (Or.inl ⟨rfl, rfl⟩) (h.delivSent c hc)
        exact ⟨hci.bound, by simp [CPc.live], hci.heldTs, by simp [PcOk], fun _ => hci.dead hl, hci.deliv, hci.delivLe⟩
      split
      · rename_i hp; exact key (by rw [hp]; rfl)
      · rename_i hp; exact key (by rw [hp]; rfl)
      · rename_i hp; exact key (by rw [hp]; rfl)
      · rename_i hp; exact key (by rw [hp]; rfl)
      · exact h
    · exact h

theorem count_false (m : Nat) : count (fun _ => false) m = 0 := count_eq_zero.mpr (fun _ _ => rfl)

theorem init_inv {n m : Nat} (v0 : V) (hm : m < 2 ^ 32 - 1) : Inv (init n m v0) := by
  refine ⟨hm, ?_, ?_, by simp [init], trivial, ?_, ?_, by simp [init, Cons.fresh]⟩
  · intro i; right
    refine ⟨by show invalidEvent ≠ _; decide, ?_⟩
    show rcN invalidEvent = count (fun _ => false) m
    rw [count_false]; exact rcN_invalid
  · intro i
    simp [init]; decide
  · intro i hi
    simp [init, readable_iff] at hi
  · intro c _
    refine ⟨by simp [init, Cons.fresh], ?_, by simp [init, Cons.fresh], trivial, ?_, by simp [init, Cons.fresh],
      by simp [init, Cons.fresh]⟩
    · intro _ i; simp [init, Cons.fresh, SlotOk, pend, mid]
    · intro hd; simp [init, Cons.fresh, CPc.live] at hd

theorem run_inv {s : St V} (h : Inv s) (ops : List (Op V)) : Inv (run s ops) := by
  induction ops generalizing s with
  | nil => exact h
  | cons op ops ih => exact ih (step_inv h op)

/-- Parameters never change. -/
theorem step_nm (s : St V) (op : Op V) : (step s op).n = s.n ∧ (step s op).m = s.m := by
  cases op <;> simp only [step, provStep] <;> (repeat' split) <;> simp

theorem run_nm (s : St V) (ops : List (Op V)) : (run s ops).n = s.n ∧ (run s ops).m = s.m := by
  induction ops generalizing s with
  | nil => exact ⟨rfl, rfl⟩
  | cons op ops ih =>
    have h1 := ih (step s op)
    have h2 := step_nm s op
    simp only [run, List.foldl_cons] at *
    exact ⟨h1.1.trans h2.1, h1.2.trans h2.2⟩


/-- A consumer step keeps the timestamp of every slot and never touches a slot being written. -/
theorem effect_ts {s : St V} (h : Inv s) {c : Nat} (hc : c < s.m) {c' : Cons V} {slots' : Nat → Word}
    (he : Effect s.n s.slots slots' (s.cons c) c') (i : Nat) :
    tsN (slots' i) = tsN (s.slots i) ∧ (s.slots i = inWriting → slots' i = inWriting) ∧
    (readable (slots' i) = true → readable (s.slots i) = true) := by
  have hb := rc_bounds h
  rcases he with ⟨h1, h2⟩ | ⟨j, _, h1, h2, h3, h4, h5⟩ | ⟨j, _, h1, h2, h3⟩
  · rw [h1]; simp
  · rw [h3]
    by_cases hij : i = j
    · subst hij; rw [upd_self]
      exact ⟨(word_succ (hb.1 i h1)).1, fun e => absurd e h1, fun _ => (readable_iff _).mpr ⟨h1, h2⟩⟩
    · rw [upd_ne _ _ hij]; simp
  · rw [h1]
    by_cases hij : i = j
    · subst hij; rw [upd_self]
      have hnw : s.slots i ≠ inWriting := by
        have := refs_pos hc h2
        rcases h.rc i with h6 | h6
        · omega
        · exact h6.1
      exact ⟨(word_pred (hb.2 c hc i h2)).1, fun e => absurd e hnw, fun _ => readable_of_rc hnw (hb.2 c hc i h2)⟩
    · rw [upd_ne _ _ hij]; simp

theorem cons_op_ts {s : St V} (h : Inv s) {op : Op V} (hop : op.isCons = true) (i : Nat) :
    (step s op).data = s.data ∧ (step s op).alloc = s.alloc ∧ (step s op).sent = s.sent ∧
    tsN ((step s op).slots i) = tsN (s.slots i) ∧
    (s.slots i = inWriting → (step s op).slots i = inWriting) ∧
    (readable ((step s op).slots i) = true → readable (s.slots i) = true) := by
  have hb := rc_bounds h
  cases op with
  | consGet c k => simp only [step]; split <;> simp
  | consStep c sp =>
    simp only [step]
    split
    · rename_i hc
      have := getter_inv (data := s.data) (sp := sp) (h.cons c hc) hb.1 (hb.2 c hc)
      exact ⟨rfl, rfl, rfl, effect_ts h hc this.2.1 i⟩
    · simp
  | consRelease c j => simp only [step]; split <;> simp
  | consRelStep c j =>
    simp only [step]
    split
    · rename_i hc
      have := relStep_inv (i := j) (h.cons c hc) (hb.2 c hc)
      exact ⟨rfl, rfl, rfl, effect_ts h hc this.2.1 i⟩
    · simp
  | consCrash c => simp only [step]; repeat' split
                   all_goals simp
  | consRecover c => simp only [step]; repeat' split
                     all_goals simp
  | consResubscribe c => simp only [step]; repeat' split
                         all_goals simp
  | _ => simp [Op.isCons] at hop

/-- A referenced slot keeps its timestamp and its data, whatever anybody does. -/
theorem step_stable {s : St V} (h : Inv s) (op : Op V) {i : Nat} (hr : 0 < refs s i) :
    (step s op).data i = s.data i ∧ tsN ((step s op).slots i) = tsN (s.slots i) := by
  have hnw : s.slots i ≠ inWriting := by
    intro e
    rcases h.rc i with h1 | h1
    · omega
    · exact h1.1 e
  have hna : s.alloc i = false := by
    cases hx : s.alloc i with
    | false => rfl
    | true => exact absurd ((h.alloc i).mp hx) hnw
  cases hop : op.isCons with
  | true => have := cons_op_ts h hop i; rw [this.1]; exact ⟨rfl, this.2.2.2.1⟩
  | false =>
    cases op with
    | provAlloc => simp only [step]; split <;> simp
    | provStep =>
      simp only [step, provStep]
      cases hp : s.ppc with
      | idle => simp
      | find => simp
      | cas retry j w =>
        dsimp only
        split
        · rename_i hw
          have hpr := h.prov
          rw [hp] at hpr
          have : i ≠ j := by
            intro e; subst e
            rcases h.rc i with h1 | h1
            · omega
            · have := hpr.2; rw [← hw] at this; omega
          simp [upd_ne _ _ this]
        · split <;> simp
    | provWrite j v =>
      simp only [step]
      split
      · have : i ≠ j := by intro e; subst e; simp_all
        simp [upd_ne _ _ this]
      · simp
    | provSend j =>
      simp only [step]
      split
      · rename_i hx
        have : i ≠ j := by intro e; subst e; rw [hna] at hx; exact absurd hx.1 (by decide)
        exact ⟨rfl, congrArg tsN (upd_ne _ _ this)⟩
      · exact ⟨rfl, rfl⟩
    | provDiscard j =>
      simp only [step]
      split
      · rename_i hx
        have hji : i ≠ j := by intro e; subst e; rw [hna] at hx; exact absurd hx.1 (by decide)
        have hw : isInWriting (s.slots j) = true := (isInWriting_iff _).mpr ((h.alloc j).mp hx.1)
        simp only [hw, if_true]
        exact ⟨trivial, congrArg tsN (upd_ne _ _ hji)⟩
      · exact ⟨rfl, rfl⟩
    | provRestart =>
      simp only [step]
      have : isInWriting (s.slots i) = false := by
        cases hx : isInWriting (s.slots i) with
        | false => rfl
        | true => exact absurd ((isInWriting_iff _).mp hx) hnw
      simp [this]
    | _ => simp [Op.isCons] at hop

theorem held_cnt {n : Nat} {slots : Nat → Word} {c : Cons V} (h : CInv n slots c) {i : Nat}
    (hi : c.held i = true) : c.cnt i = true := by
  cases hl : c.pc.live with
  | false => have := (h.dead hl).1 i; simp_all
  | true => rcases h.slot hl i with h | h | ⟨_, _, h⟩ | h | h | h <;> simp_all

theorem run_append (s : St V) (a b : List (Op V)) : run s (a ++ b) = run (run s a) b := by
  simp [run]

end Verif.Ctrl
