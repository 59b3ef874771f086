import Verif.Proofs.EventCtrl
/-! Preservation of the invariant, one kind of step at a time. -/
namespace Verif.Ctrl
open Verif Verif.Slot

variable {V : Type}

/-- Effect of a consumer step on the shared slots and the ghost references. -/
def Effect (n : Nat) (slots slots' : Nat → Word) (c c' : Cons V) : Prop :=
  (slots' = slots ∧ c'.cnt = c.cnt) ∨
  (∃ i, i < n ∧ slots i ≠ inWriting ∧ slots i ≠ invalidEvent ∧ slots' = upd slots i (slots i + 1#64) ∧
    c.cnt i = false ∧ c'.cnt = upd c.cnt i true) ∨
  (∃ i, i < n ∧ slots' = upd slots i (slots i - 1#64) ∧ c.cnt i = true ∧ c'.cnt = upd c.cnt i false)

/-- Effect of a consumer step on the ghost list of delivered samples. -/
def DEffect (slots : Nat → Word) (data : Nat → V) (c c' : Cons V) : Prop :=
  c'.delivered = c.delivered ∨ c'.delivered = [] ∨
  ∃ i, c.cnt i = true ∧ c'.delivered = (tsN (slots i), data i) :: c.delivered

theorem CollOk.congr {slots : Nat → Word} {c c' : Cons V} {cx : Ctx} (h : CollOk slots c cx)
    (hl : c'.last = c.last) : CollOk slots c' cx := by
  unfold CollOk at *; rw [hl]; exact h

theorem CInv.live_slot {n : Nat} {slots : Nat → Word} {c : Cons V} (h : CInv n slots c) {pc : CPc}
    (hp : c.pc = pc) (hl : pc.live = true) (i : Nat) : SlotOk c i := h.slot (by rw [hp]; exact hl) i

/-- Move to another running program point without touching the log. -/
theorem CInv.move {n : Nat} {slots : Nat → Word} {c : Cons V} (h : CInv n slots c) {pc : CPc}
    (hl : c.pc.live = true) (hl' : pc.live = true) (hpend : pend pc = pend c.pc) (hmid : mid pc = mid c.pc)
    (hok : PcOk n slots { c with pc := pc }) : CInv n slots { c with pc := pc } := by
  refine ⟨h.bound, ?_, h.heldTs, hok, ?_, h.deliv, h.delivLe⟩
  · intro _ i
    have := h.slot hl i
    unfold SlotOk at *
    simp only [hpend, hmid]; exact this
  · intro hd; simp [hl'] at hd

theorem final_ok {slots : Nat → Word} {n : Nat} {c : Cons V} {cx : Ctx} (h : CollOk slots c cx)
    (hp : c.pc = collectEnd c.last cx) : PcOk n slots c := by
  unfold PcOk
  rw [hp]
  refine ⟨h.2.1, ?_, Nat.le_refl _, by simp⟩
  intro i hi
  exact ⟨(h.2.2 i hi).1, Or.inl (by simpa using hi)⟩

theorem next_ok {slots : Nat → Word} {n : Nat} {c : Cons V} {cx : Ctx} (h : CollOk slots c cx)
    (hp : c.pc = collectNext c.last cx) : PcOk n slots c := by
  unfold collectNext at hp
  split at hp
  · exact final_ok h hp
  · unfold PcOk; rw [hp]; exact ⟨h, by simp⟩

theorem getter_scan {n : Nat} {slots : Nat → Word} {data : Nat → V} {c : Cons V} {sp : Bool}
    (h : CInv n slots c) {cx : Ctx} {retry k : Nat} {cand : Option (Nat × Word)}
    (hpc : c.pc = .scan cx retry k cand) :
    CInv n (getterStep n slots data c sp).2 (getterStep n slots data c sp).1 ∧
    Effect n slots (getterStep n slots data c sp).2 c (getterStep n slots data c sp).1 ∧
    DEffect slots data c (getterStep n slots data c sp).1 := by
  have hpk := h.pcok
  unfold PcOk at hpk
  simp only [hpc] at hpk
  obtain ⟨hco, hcand⟩ := hpk
  have hl : c.pc.live = true := by rw [hpc]; rfl
  simp only [getterStep, hpc]
  split
  · rename_i hk
    split
    · rename_i hb
      rw [between_iff] at hb
      refine ⟨?_, Or.inl ⟨rfl, rfl⟩, Or.inl rfl⟩
      refine h.move hl rfl (by rw [hpc]; rfl) (by rw [hpc]; rfl) ?_
      refine ⟨hco.congr rfl, ?_⟩
      intro i w hiw
      simp only [Option.some.injEq, Prod.mk.injEq] at hiw
      obtain ⟨rfl, rfl⟩ := hiw
      have hlast : c.last ≤ candTs c.last cand := by
        cases hc : cand with
        | none => exact Nat.le_refl _
        | some p => have := (hcand p.1 p.2 hc).1.2.2.1; simp only [candTs]; omega
      refine ⟨⟨hk, hb.1, by show c.last < _; omega, hb.2.2⟩, ?_⟩
      show c.b k = false
      have hsl := h.slot hl k
      have hh := h.heldTs k
      rcases hsl with h | h | ⟨_, _, h⟩ | h | h | h
      · exact h.2.1
      · exact h.2.1
      · rw [hpc] at h; simp [mid] at h
      · exact h.2.2.1
      · have := hh h.2.2.2.2.2.1; omega
      · have := hco.2.2 k (by simpa [hpc, pend] using h.2.2.2.2.2.2); omega
    · refine ⟨?_, Or.inl ⟨rfl, rfl⟩, Or.inl rfl⟩
      refine h.move hl rfl (by rw [hpc]; rfl) (by rw [hpc]; rfl) ?_
      exact ⟨hco.congr rfl, hcand⟩
  · split
    · refine ⟨?_, Or.inl ⟨rfl, rfl⟩, Or.inl rfl⟩
      refine h.move hl rfl (by rw [hpc]; rfl) (by rw [hpc]; rfl) ?_
      exact final_ok (hco.congr rfl) rfl
    · rename_i i w
      have hi := hcand i w rfl
      split
      · rename_i hw
        have h1 := hi.1.2.2.2
        have h2 := hco.1
        have : tsN w = 2 ^ 32 - 1 := by rw [hw]; decide
        unfold tsMax at h2; omega
      · refine ⟨?_, Or.inl ⟨rfl, rfl⟩, Or.inl rfl⟩
        refine h.move hl rfl (by rw [hpc]; rfl) (by rw [hpc]; rfl) ?_
        exact ⟨hco.congr rfl, hi⟩

theorem getter_begin {n : Nat} {slots : Nat → Word} {data : Nat → V} {c : Cons V} {sp : Bool}
    (h : CInv n slots c) {cx : Ctx} {retry spin i : Nat} {w : Word}
    (hpc : c.pc = .begin cx retry spin i w) :
    CInv n (getterStep n slots data c sp).2 (getterStep n slots data c sp).1 ∧
    Effect n slots (getterStep n slots data c sp).2 c (getterStep n slots data c sp).1 ∧
    DEffect slots data c (getterStep n slots data c sp).1 := by
  have hpk := h.pcok
  unfold PcOk at hpk
  simp only [hpc] at hpk
  obtain ⟨hco, hwok, hb⟩ := hpk
  have hl : c.pc.live = true := by rw [hpc]; rfl
  simp only [getterStep, hpc, hb]
  split
  · rename_i hx; cases hx
  · split
    · split
      · refine ⟨?_, Or.inl ⟨rfl, rfl⟩, Or.inl rfl⟩
        refine h.move hl rfl (by rw [hpc]; rfl) (by rw [hpc]; rfl) ?_
        exact ⟨hco.congr rfl, hwok, hb⟩
      · exact ⟨h.die (by simp), Or.inl ⟨rfl, rfl⟩, Or.inl rfl⟩
    · rename_i he
      refine ⟨?_, Or.inl ⟨rfl, rfl⟩, Or.inl rfl⟩
      refine ⟨?_, ?_, h.heldTs, ⟨hco.congr rfl, hwok⟩, by simp [CPc.live], h.deliv, h.delivLe⟩
      · intro j hj
        have := hwok.1
        show upd c.b i true j = false ∧ _
        rw [upd_ne _ _ (by omega)]; exact h.bound j hj
      · intro _ j
        have hsl := h.slot hl j
        unfold SlotOk at *
        simp only [hpc, pend, mid] at *
        by_cases hji : j = i
        · subst hji; simp_all
        · have hij : ¬ i = j := fun e => hji e.symm
          simp only [upd_ne _ _ hji]
          rcases hsl with h | h | ⟨_, _, h⟩ | h | h | h <;> simp_all

theorem getter_cas {n : Nat} {slots : Nat → Word} {data : Nat → V} {c : Cons V} {sp : Bool}
    (h : CInv n slots c) {cx : Ctx} {retry i : Nat} {w : Word}
    (hrc : ∀ i, slots i ≠ inWriting → rcN (slots i) + 1 < 2 ^ 32)
    (hpc : c.pc = .cas cx retry i w) :
    CInv n (getterStep n slots data c sp).2 (getterStep n slots data c sp).1 ∧
    Effect n slots (getterStep n slots data c sp).2 c (getterStep n slots data c sp).1 ∧
    DEffect slots data c (getterStep n slots data c sp).1 := by
  have hpk := h.pcok
  unfold PcOk at hpk
  simp only [hpc] at hpk
  obtain ⟨hco, hwok⟩ := hpk
  have hl : c.pc.live = true := by rw [hpc]; rfl
  simp only [getterStep, hpc]
  split
  · rename_i hx
    obtain ⟨hx, -⟩ := hx
    have hcnt : c.cnt i = false := by
      rcases h.slot hl i with h | h | ⟨_, _, h⟩ | h | h | h <;> simp_all [mid]
    have hts := word_succ (hrc i (by rw [hx]; exact hwok.2.1.1))
    have htr : CInv n (upd slots i (w + 1#64)) c := by
      apply h.transport
      intro j hj
      have : j ≠ i := by intro e; subst e; simp_all
      rw [upd_ne _ _ this]
    refine ⟨?_, Or.inr (Or.inl ⟨i, hwok.1, ?_, ?_, ?_, hcnt, rfl⟩), Or.inl rfl⟩
    · have hpk := htr.pcok
      unfold PcOk at hpk
      simp only [hpc] at hpk
      refine ⟨?_, ?_, htr.heldTs, ?_, by simp [CPc.live], h.deliv, h.delivLe⟩
      · intro j hj
        have := hwok.1
        have hb := h.bound j hj
        show _ ∧ _ ∧ upd c.cnt i true j = false
        rw [upd_ne _ _ (by omega)]; exact hb
      · intro _ j
        have hsl := h.slot hl j
        unfold SlotOk at *
        simp only [hpc, pend, mid] at *
        by_cases hji : j = i
        · subst hji; simp_all
        · have hij : ¬ i = j := fun e => hji e.symm
          simp only [upd_ne _ _ hji]
          rcases hsl with h | h | ⟨_, _, h⟩ | h | h | h <;> simp_all
      · refine ⟨hpk.1.congr rfl, hwok.1, ?_⟩
        show c.last < tsN (upd slots i (w + 1#64) i) ∧ tsN (upd slots i (w + 1#64) i) < _
        rw [upd_self, ← hx, hts.1, hx]; exact hwok.2.2
    · rw [hx]; exact hwok.2.1.1
    · rw [hx]; exact hwok.2.1.2
    · rw [hx]
  · refine ⟨?_, Or.inl ⟨rfl, rfl⟩, Or.inl rfl⟩
    refine h.move hl rfl (by rw [hpc]; rfl) (by rw [hpc]; rfl) ?_
    exact ⟨hco.congr rfl, hwok.1⟩

theorem getter_commit {n : Nat} {slots : Nat → Word} {data : Nat → V} {c : Cons V} {sp : Bool}
    (h : CInv n slots c) {cx : Ctx} {i : Nat} (hpc : c.pc = .commit cx i) :
    CInv n (getterStep n slots data c sp).2 (getterStep n slots data c sp).1 ∧
    Effect n slots (getterStep n slots data c sp).2 c (getterStep n slots data c sp).1 ∧
    DEffect slots data c (getterStep n slots data c sp).1 := by
  have hpk := h.pcok
  unfold PcOk at hpk
  simp only [hpc] at hpk
  have hl : c.pc.live = true := by rw [hpc]; rfl
  have hsi := h.slot hl i
  have hbe : c.b i = true ∧ c.e i = false := by
    rcases hsi with h | h | ⟨_, _, h⟩ | h | h | h <;> simp_all [mid]
  simp only [getterStep, hpc, hbe, and_self, if_true]
  refine ⟨?_, Or.inl ⟨rfl, rfl⟩, Or.inl rfl⟩
  refine ⟨?_, ?_, h.heldTs, ⟨hpk.1.congr rfl, hpk.2⟩, by simp [CPc.live], h.deliv, h.delivLe⟩
  · intro j hj
    have := hpk.2.1
    have hb := h.bound j hj
    show _ ∧ upd c.e i true j = false ∧ _
    rw [upd_ne _ _ (by omega)]; exact hb
  · intro _ j
    have hsl := h.slot hl j
    unfold SlotOk at *
    simp only [hpc, pend, mid] at *
    by_cases hji : j = i
    · subst hji
      rcases hsl with h | h | ⟨_, _, h⟩ | h | h | h <;> simp_all
    · have hij : ¬ i = j := fun e => hji e.symm
      simp only [upd_ne _ _ hji]
      rcases hsl with h | h | ⟨_, _, h⟩ | h | h | h <;> simp_all

theorem getter_abort {n : Nat} {slots : Nat → Word} {data : Nat → V} {c : Cons V} {sp : Bool}
    (h : CInv n slots c) {cx : Ctx} {retry i : Nat} (hpc : c.pc = .abort cx retry i) :
    CInv n (getterStep n slots data c sp).2 (getterStep n slots data c sp).1 ∧
    Effect n slots (getterStep n slots data c sp).2 c (getterStep n slots data c sp).1 ∧
    DEffect slots data c (getterStep n slots data c sp).1 := by
  have hpk := h.pcok
  unfold PcOk at hpk
  simp only [hpc] at hpk
  have hl : c.pc.live = true := by rw [hpc]; rfl
  have hsi := h.slot hl i
  have hbe : c.b i = true ∧ c.e i = false := by
    rcases hsi with h | h | ⟨_, _, h⟩ | h | h | h <;> simp_all [mid]
  have hbound : ∀ j, n ≤ j → upd c.b i false j = false ∧ c.e j = false ∧ c.cnt j = false := by
    intro j hj
    have := hpk.2
    have hb := h.bound j hj
    rw [upd_ne _ _ (by omega)]; exact hb
  have hslot : ∀ pc, pend pc = cx.coll → mid pc = none → ∀ j, SlotOk { c with b := upd c.b i false, pc := pc } j := by
    intro pc hp1 hp2 j
    have hsl := h.slot hl j
    unfold SlotOk at *
    simp only [hpc, pend, mid] at *
    by_cases hji : j = i
    · subst hji
      rcases hsl with h | h | ⟨_, _, h⟩ | h | h | h <;> simp_all
    · have hij : ¬ i = j := fun e => hji e.symm
      simp only [upd_ne _ _ hji]
      rcases hsl with h | h | ⟨_, _, h⟩ | h | h | h <;> simp_all
  simp only [getterStep, hpc, hbe, and_self, if_true]
  split
  · refine ⟨?_, Or.inl ⟨rfl, rfl⟩, Or.inl rfl⟩
    exact ⟨hbound, fun _ => hslot _ rfl rfl, h.heldTs, ⟨hpk.1.congr rfl, by simp⟩, by simp [CPc.live], h.deliv,
      h.delivLe⟩
  · refine ⟨?_, Or.inl ⟨rfl, rfl⟩, Or.inl rfl⟩
    exact ⟨hbound, fun _ => hslot _ rfl rfl, h.heldTs, final_ok (hpk.1.congr rfl) rfl, by simp [CPc.live, collectEnd],
      h.deliv, h.delivLe⟩

theorem pend_next (l : Nat) (cx : Ctx) : pend (collectNext l cx) = cx.coll := by
  unfold collectNext; split <;> rfl
theorem mid_next (l : Nat) (cx : Ctx) : mid (collectNext l cx) = none := by
  unfold collectNext; split <;> rfl
theorem live_next (l : Nat) (cx : Ctx) : (collectNext l cx).live = true := by
  unfold collectNext; split <;> rfl

theorem getter_load {n : Nat} {slots : Nat → Word} {data : Nat → V} {c : Cons V} {sp : Bool}
    (h : CInv n slots c) {cx : Ctx} {i : Nat} (hpc : c.pc = .loadTs cx i) :
    CInv n (getterStep n slots data c sp).2 (getterStep n slots data c sp).1 ∧
    Effect n slots (getterStep n slots data c sp).2 c (getterStep n slots data c sp).1 ∧
    DEffect slots data c (getterStep n slots data c sp).1 := by
  have hpk := h.pcok
  unfold PcOk at hpk
  simp only [hpc] at hpk
  have hl : c.pc.live = true := by rw [hpc]; rfl
  simp only [getterStep, hpc]
  refine ⟨?_, Or.inl ⟨rfl, rfl⟩, Or.inl rfl⟩
  refine h.move hl (live_next _ _) (by rw [pend_next, hpc]; rfl) (by rw [mid_next, hpc]; rfl) ?_
  refine next_ok ?_ rfl
  obtain ⟨hco, hi, h1, h2⟩ := hpk
  refine ⟨Nat.le_trans (Nat.le_of_lt h2) hco.1, ?_, ?_⟩
  · rw [List.pairwise_append]
    refine ⟨hco.2.1, by simp, ?_⟩
    intro a ha b hb
    simp only [List.mem_singleton] at hb
    subst hb
    have := (hco.2.2 a ha).2.2
    omega
  · intro j hj
    simp only [List.mem_append, List.mem_singleton] at hj
    have := hco.1
    rcases hj with hj | hj
    · have := hco.2.2 j hj
      exact ⟨this.1, this.2.1, by show tsN (slots i) ≤ _; omega⟩
    · subst hj
      exact ⟨h1, by omega, Nat.le_refl _⟩

theorem getter_final {n : Nat} {slots : Nat → Word} {data : Nat → V} {c : Cons V} {sp : Bool}
    (h : CInv n slots c) {coll todo : List Nat} {newest : Nat} (hpc : c.pc = .final coll todo newest) :
    CInv n (getterStep n slots data c sp).2 (getterStep n slots data c sp).1 ∧
    Effect n slots (getterStep n slots data c sp).2 c (getterStep n slots data c sp).1 ∧
    DEffect slots data c (getterStep n slots data c sp).1 := by
  have hpk := h.pcok
  unfold PcOk at hpk
  simp only [hpc] at hpk
  have hl : c.pc.live = true := by rw [hpc]; rfl
  obtain ⟨hpw, hcoll, hnew, htodo⟩ := hpk
  cases htd : todo with
  | nil =>
    simp only [getterStep, hpc, htd]
    refine ⟨?_, Or.inl ⟨rfl, rfl⟩, Or.inl rfl⟩
    refine ⟨h.bound, ?_, ?_, ?_, by simp [CPc.live], h.deliv, ?_⟩
    · intro _ j
      have hsl := h.slot hl j
      unfold SlotOk at *
      simpa only [hpc, pend, mid, List.mem_reverse] using hsl
    · intro j hj
      have := h.heldTs j hj
      show _ ≤ newest; omega
    · refine ⟨?_, ?_⟩
      · rw [List.pairwise_reverse]; exact hpw
      · intro j hj
        have hj := hcoll j (by simpa using hj)
        rw [htd] at hj
        simp only [List.not_mem_nil, false_or] at hj
        refine ⟨hj.2, ?_⟩
        intro d hd
        have := h.delivLe d hd
        omega
    · intro d hd
      have := h.delivLe d hd
      show _ ≤ newest; omega
  | cons i rest =>
    simp only [getterStep, hpc, htd]
    refine ⟨?_, Or.inl ⟨rfl, rfl⟩, Or.inl rfl⟩
    refine h.move hl rfl (by rw [hpc]; rfl) (by rw [hpc]; rfl) ?_
    refine ⟨hpw, ?_, by show c.last ≤ _; omega, ?_⟩
    · intro j hj
      have hj' := hcoll j hj
      refine ⟨hj'.1, ?_⟩
      rw [htd, List.mem_cons] at hj'
      rcases hj'.2 with (h1 | h1) | h1
      · subst h1; right; omega
      · left; exact h1
      · right; omega
    · intro j hj
      exact htodo j (by rw [htd]; exact List.mem_cons_of_mem _ hj)

theorem getter_deliver {n : Nat} {slots : Nat → Word} {data : Nat → V} {c : Cons V} {sp : Bool}
    (h : CInv n slots c) {todo : List Nat} (hpc : c.pc = .deliver todo) :
    CInv n (getterStep n slots data c sp).2 (getterStep n slots data c sp).1 ∧
    Effect n slots (getterStep n slots data c sp).2 c (getterStep n slots data c sp).1 ∧
    DEffect slots data c (getterStep n slots data c sp).1 := by
  have hpk := h.pcok
  unfold PcOk at hpk
  simp only [hpc] at hpk
  have hl : c.pc.live = true := by rw [hpc]; rfl
  cases htd : todo with
  | nil =>
    simp only [getterStep, hpc, htd]
    refine ⟨?_, Or.inl ⟨rfl, rfl⟩, Or.inl rfl⟩
    exact h.move hl rfl (by rw [hpc, htd]; rfl) (by rw [hpc]; rfl) trivial
  | cons i rest =>
    simp only [getterStep, hpc, htd]
    have hsi := h.slot hl i
    have hmem : i ∈ pend c.pc := by rw [hpc, htd]; simp [pend]
    have hcnt : c.cnt i = true := by
      rcases hsi with h | h | ⟨_, _, h⟩ | h | h | h <;> simp_all
    rw [htd] at hpk
    obtain ⟨hpw, hts⟩ := hpk
    rw [List.pairwise_cons] at hpw
    have hi := hts i (by simp)
    have hnot : i ∉ rest := by
      intro hm; have := hpw.1 i hm; omega
    refine ⟨?_, Or.inl ⟨rfl, rfl⟩, Or.inr (Or.inr ⟨i, hcnt, rfl⟩)⟩
    refine ⟨h.bound, ?_, ?_, ?_, by simp [CPc.live], ?_, ?_⟩
    · intro _ j
      have hsl := h.slot hl j
      unfold SlotOk at *
      simp only [hpc, htd, pend, mid, List.mem_cons] at *
      by_cases hji : j = i
      · subst hji
        rcases hsl with h | h | ⟨_, _, h⟩ | h | h | h <;> simp_all
      · simp only [upd_ne _ _ hji]
        rcases hsl with h | h | ⟨_, _, h⟩ | h | h | h <;> simp_all
    · intro j hj
      by_cases hji : j = i
      · subst hji; exact hi.1
      · simp only [upd_ne _ _ hji] at hj; exact h.heldTs j hj
    · refine ⟨hpw.2, ?_⟩
      intro j hj
      have h1 := hts j (List.mem_cons_of_mem _ hj)
      refine ⟨h1.1, ?_⟩
      intro d hd
      simp only [List.mem_cons] at hd
      rcases hd with hd | hd
      · subst hd; exact hpw.1 j hj
      · exact h1.2 d hd
    · show List.Pairwise _ (_ :: _)
      rw [List.pairwise_cons]
      exact ⟨hi.2, h.deliv⟩
    · intro d hd
      simp only [List.mem_cons] at hd
      rcases hd with hd | hd
      · subst hd; exact hi.1
      · exact h.delivLe d hd

theorem getter_rb {n : Nat} {slots : Nat → Word} {data : Nat → V} {c : Cons V} {sp : Bool}
    (h : CInv n slots c) (hrc : ∀ i, c.cnt i = true → 0 < rcN (slots i))
    (hpc : (∃ k, c.pc = .rbAt k) ∨ (∃ k, c.pc = .rbBegun k) ∨ ∃ k, c.pc = .rbSubbed k) :
    CInv n (getterStep n slots data c sp).2 (getterStep n slots data c sp).1 ∧
    Effect n slots (getterStep n slots data c sp).2 c (getterStep n slots data c sp).1 ∧
    DEffect slots data c (getterStep n slots data c sp).1 := by
  have hpk := h.pcok
  unfold PcOk at hpk
  rcases hpc with ⟨k, hpc⟩ | ⟨k, hpc⟩ | ⟨k, hpc⟩
  · have hd := h.dead (by rw [hpc]; rfl)
    simp only [hpc] at hpk
    simp only [getterStep, hpc]
    split
    · rename_i hk
      split
      · rename_i hbe
        refine ⟨?_, Or.inl ⟨rfl, rfl⟩, Or.inl rfl⟩
        have hcnt : c.cnt k = true := by rw [hd.2 k (by rw [hbe.1, hbe.2])]; exact hbe.1
        refine ⟨?_, by simp [CPc.live], h.heldTs, ?_, ?_, h.deliv, h.delivLe⟩
        · intro j hj
          show upd c.b k false j = false ∧ _
          rw [upd_ne _ _ (by omega)]; exact h.bound j hj
        · refine ⟨hk, upd_self _ _ _, hbe.2, hcnt, ?_⟩
          intro j hj
          show upd c.b k false j = false ∧ _
          rw [upd_ne _ _ (by omega)]; exact hpk j hj
        · intro _
          refine ⟨hd.1, ?_⟩
          intro j
          show upd c.b k false j = c.e j → c.cnt j = upd c.b k false j
          by_cases hjk : j = k
          · subst hjk; simp [hbe.2]
          · rw [upd_ne _ _ hjk]; exact hd.2 j
      · split
        · refine ⟨?_, Or.inl ⟨rfl, rfl⟩, Or.inl rfl⟩
          exact ⟨h.bound, by simp [CPc.live], h.heldTs, trivial, fun _ => hd, h.deliv, h.delivLe⟩
        · rename_i h1 h2
          refine ⟨?_, Or.inl ⟨rfl, rfl⟩, Or.inl rfl⟩
          refine ⟨h.bound, by simp [CPc.live], h.heldTs, ?_, fun _ => hd, h.deliv, h.delivLe⟩
          intro j hj
          by_cases hjk : j = k
          · subst hjk; simpa using h2
          · exact hpk j (by omega)
    · rename_i hk
      refine ⟨?_, Or.inl ⟨rfl, rfl⟩, Or.inr (Or.inl rfl)⟩
      have hz : ∀ j, c.b j = false ∧ c.e j = false ∧ c.cnt j = false := by
        intro j
        by_cases hj : n ≤ j
        · exact h.bound j hj
        · have := hpk j (by omega)
          refine ⟨this.1, this.2, ?_⟩
          rw [hd.2 j (by rw [this.1, this.2])]; exact this.1
      refine ⟨h.bound, ?_, ?_, trivial, by simp [CPc.live], by simp, by simp⟩
      · intro _ j
        have := hz j
        have := hd.1 j
        simp [SlotOk, pend, mid, *]
      · intro j hj; have := (hd.1 j).2; simp_all
  · have hd := h.dead (by rw [hpc]; rfl)
    simp only [hpc] at hpk
    simp only [getterStep, hpc]
    obtain ⟨hk, hb, he, hc, hj⟩ := hpk
    have htr : CInv n (upd slots k (slots k - 1#64)) c := by
      apply h.transport
      intro j hcj
      by_cases hjk : j = k
      · subst hjk; rw [upd_self]; exact (word_pred (hrc j hc)).1
      · rw [upd_ne _ _ hjk]
    refine ⟨?_, Or.inr (Or.inr ⟨k, hk, rfl, hc, rfl⟩), Or.inl rfl⟩
    refine ⟨?_, by simp [CPc.live], ?_, ⟨hk, hb, he, upd_self _ _ _, hj⟩, ?_, h.deliv, h.delivLe⟩
    · intro j hj
      show _ ∧ _ ∧ upd c.cnt k false j = false
      rw [upd_ne _ _ (by omega)]; exact h.bound j hj
    · exact htr.heldTs
    · intro _
      refine ⟨hd.1, ?_⟩
      intro j
      show c.b j = c.e j → upd c.cnt k false j = c.b j
      by_cases hjk : j = k
      · subst hjk; simp [hb, he]
      · rw [upd_ne _ _ hjk]; exact hd.2 j
  · have hd := h.dead (by rw [hpc]; rfl)
    simp only [hpc] at hpk
    simp only [getterStep, hpc]
    obtain ⟨hk, hb, he, hc, hj⟩ := hpk
    refine ⟨?_, Or.inl ⟨rfl, rfl⟩, Or.inl rfl⟩
    refine ⟨?_, by simp [CPc.live], h.heldTs, ?_, ?_, h.deliv, h.delivLe⟩
    · intro j hj
      show _ ∧ upd c.e k false j = false ∧ _
      rw [upd_ne _ _ (by omega)]; exact h.bound j hj
    · intro j hjk
      show c.b j = false ∧ upd c.e k false j = false
      by_cases hjk : j = k
      · subst hjk; simp [hb]
      · rw [upd_ne _ _ hjk]; exact hj j (by omega)
    · intro _
      refine ⟨hd.1, ?_⟩
      intro j
      show c.b j = upd c.e k false j → c.cnt j = c.b j
      by_cases hjk : j = k
      · subst hjk; simp [hb, hc]
      · rw [upd_ne _ _ hjk]; exact hd.2 j

theorem getter_inv {n : Nat} {slots : Nat → Word} {data : Nat → V} {c : Cons V} {sp : Bool}
    (h : CInv n slots c)
    (hrc : ∀ i, slots i ≠ inWriting → rcN (slots i) + 1 < 2 ^ 32)
    (hrc0 : ∀ i, c.cnt i = true → 0 < rcN (slots i)) :
    CInv n (getterStep n slots data c sp).2 (getterStep n slots data c sp).1 ∧
    Effect n slots (getterStep n slots data c sp).2 c (getterStep n slots data c sp).1 ∧
    DEffect slots data c (getterStep n slots data c sp).1 := by
  cases hpc : c.pc with
  | scan => exact getter_scan h hpc
  | begin => exact getter_begin h hpc
  | cas => exact getter_cas h hrc hpc
  | commit => exact getter_commit h hpc
  | abort => exact getter_abort h hpc
  | loadTs => exact getter_load h hpc
  | final => exact getter_final h hpc
  | deliver => exact getter_deliver h hpc
  | rbAt => exact getter_rb h hrc0 (by simp [hpc])
  | rbBegun => exact getter_rb h hrc0 (by simp [hpc])
  | rbSubbed => exact getter_rb h hrc0 (by simp [hpc])
  | _ =>
    simp only [getterStep, hpc]
    exact ⟨h, Or.inl ⟨rfl, rfl⟩, Or.inl rfl⟩

end Verif.Ctrl
