import Verif.Spec.Registry
import Verif.Proofs.RegionTable
/-! Lemmas on the registry. -/
namespace Verif.Registry
open Verif.RegionTable

structure Inv (s : St) : Prop where
  wf : Wf s.tab
  proper : ∀ r ∈ s.tab, r.1 < r.2
  alive : s.dead = false
  ids : s.reg.Pairwise (fun a b => a.id ≠ b.id)
  tab : ∀ r, r ∈ s.tab ↔ ∃ e ∈ s.reg, e.bypass = false ∧ r = (e.base, e.endp)
  starts : ∀ a ∈ s.reg, ∀ b ∈ s.reg, a.bypass = false → b.bypass = false → a.base = b.base → a = b

theorem init_inv : Inv init := by
  refine ⟨wf_nil, by simp [init], rfl, List.Pairwise.nil, by simp [init], by simp [init]⟩

theorem found_some {s : St} {id : Nat} {e : Entry} (h : found s id = some e) : e ∈ s.reg ∧ e.id = id := by
  unfold found at h
  exact ⟨List.mem_of_find?_eq_some h, by simpa using List.find?_some h⟩

theorem found_none {s : St} {id : Nat} (h : found s id = none) : ∀ e ∈ s.reg, e.id ≠ id := by
  unfold found at h
  rw [List.find?_eq_none] at h
  intro e he
  simpa using h e he

/-- A separate region is accepted. -/
theorem apply_add {s : St} (h : Inv s) {e : Entry} (hs : Separate s e) :
    apply s.tab (.add e.base e.endp) = .ok (insert e.base e.endp s.tab) ∧ hasKey s.tab e.base = false ∧
    overlaps e.base e.endp s.tab = false := by
  obtain ⟨h0, h1, h2⟩ := hs
  have hk : hasKey s.tab e.base = false := by
    rw [Bool.eq_false_iff]
    intro hk
    obtain ⟨r, hr, hre⟩ := hasKey_iff.mp hk
    have := h2 r hr
    have := h.proper r hr
    omega
  have ho : overlaps e.base e.endp s.tab = false := by
    rw [Bool.eq_false_iff]
    intro ho
    obtain ⟨r, hr, a, b⟩ := (overlaps_iff h.wf h1 hk h.proper).mp ho
    have := h2 r hr
    omega
  exact ⟨by simp [apply, hk, ho], hk, ho⟩

theorem mem_other {s : St} (h : Inv s) {e : Entry} (he : e ∈ s.reg) (x : Entry) :
    x ∈ s.reg.filter (fun y => y.id ≠ e.id) ↔ x ∈ s.reg ∧ x ≠ e := by
  rw [List.mem_filter]
  constructor
  · rintro ⟨h1, h2⟩
    refine ⟨h1, ?_⟩
    rintro rfl
    simp at h2
  · rintro ⟨h1, h2⟩
    refine ⟨h1, ?_⟩
    simp only [ne_eq, decide_not, Bool.not_eq_eq_eq_not, Bool.not_true, decide_eq_false_iff_not]
    intro hid
    have hp := h.ids
    obtain ⟨l1, l2, hl⟩ := List.append_of_mem he
    rw [hl] at hp h1
    rw [List.pairwise_append] at hp
    simp only [List.mem_append, List.mem_cons] at h1
    rcases h1 with h1 | h1 | h1
    · exact hp.2.2 x h1 e (by simp) hid
    · exact h2 h1
    · exact (List.pairwise_cons.mp hp.2.1).1 x h1 hid.symm

theorem insert_inv {s : St} (h : Inv s) (e : Entry) (hc : found s e.id = none → e.bypass = false → Separate s e) :
    Inv (insertRes s e).1 ∧ (found s e.id = none → (insertRes s e).2 = true) := by
  unfold insertRes
  split
  · rename_i x hx
    refine ⟨h, ?_⟩
    intro hn; rw [hn] at hx; simp at hx
  · rename_i hn
    have hfresh := found_none hn
    dsimp only
    split
    · rename_i hb
      refine ⟨⟨h.wf, h.proper, h.alive, ?_, ?_, ?_⟩, fun _ => rfl⟩
      · exact List.pairwise_cons.mpr ⟨fun b hb' => Ne.symm (hfresh b hb'), h.ids⟩
      · intro r
        rw [h.tab r]
        constructor
        · rintro ⟨x, hx, h1, h2⟩
          exact ⟨x, List.mem_cons_of_mem _ hx, h1, h2⟩
        · rintro ⟨x, hx, h1, h2⟩
          rcases List.mem_cons.mp hx with rfl | hx
          · rw [hb] at h1; simp at h1
          · exact ⟨x, hx, h1, h2⟩
      · intro a ha b hb' h1 h2 h3
        rcases List.mem_cons.mp ha with rfl | ha
        · rw [hb] at h1; simp at h1
        · rcases List.mem_cons.mp hb' with rfl | hb'
          · rw [hb] at h2; simp at h2
          · exact h.starts a ha b hb' h1 h2 h3
    · rename_i hb
      have hsep := hc hn (by simpa using hb)
      obtain ⟨g1, g2, g3⟩ := apply_add h hsep
      rw [if_neg (by have := hsep.1; have := hsep.2.1; omega), g1]
      dsimp only
      obtain ⟨w1, w2⟩ := insert_wf h.wf (Nat.le_of_lt hsep.2.1) g2 g3
      refine ⟨⟨w1, ?_, h.alive, ?_, ?_, ?_⟩, fun _ => rfl⟩
      · intro r hr
        rcases (w2 r).mp hr with rfl | hr
        · exact hsep.2.1
        · exact h.proper r hr
      · exact List.pairwise_cons.mpr ⟨fun b hb' => Ne.symm (hfresh b hb'), h.ids⟩
      · intro r
        rw [w2 r, h.tab r]
        constructor
        · rintro (rfl | ⟨x, hx, h1, h2⟩)
          · exact ⟨e, by simp, by simpa using hb, rfl⟩
          · exact ⟨x, List.mem_cons_of_mem _ hx, h1, h2⟩
        · rintro ⟨x, hx, h1, h2⟩
          rcases List.mem_cons.mp hx with rfl | hx
          · exact Or.inl h2
          · exact Or.inr ⟨x, hx, h1, h2⟩
      · have hno : ∀ b ∈ s.reg, b.bypass = false → b.base ≠ e.base := by
          intro b hb' h1 h2
          have : (b.base, b.endp) ∈ s.tab := (h.tab _).mpr ⟨b, hb', h1, rfl⟩
          have := hasKey_iff.mpr ⟨_, this, h2⟩
          rw [g2] at this; simp at this
        intro a ha b hb' h1 h2 h3
        rcases List.mem_cons.mp ha with rfl | ha
        · rcases List.mem_cons.mp hb' with rfl | hb'
          · rfl
          · exact absurd h3.symm (hno b hb' h2)
        · rcases List.mem_cons.mp hb' with hbe | hb'
          · rw [hbe] at h3; exact absurd h3 (hno a ha h1)
          · exact h.starts a ha b hb' h1 h2 h3

theorem remove_inv {s : St} (h : Inv s) (id : Nat) : Inv (removeRes s id) ∧ found (removeRes s id) id = none := by
  unfold removeRes
  split
  · rename_i hn
    exact ⟨h, hn⟩
  · rename_i e hn
    obtain ⟨he, hid⟩ := found_some hn
    subst hid
    have hm := mem_other h he
    have hnone : s.reg.find? (fun x => x.id == e.id) = some e := hn
    have hf : (s.reg.filter (fun x => x.id ≠ e.id)).find? (fun x => x.id == e.id) = none := by
      rw [List.find?_eq_none]
      intro x hx
      simpa using (List.mem_filter.mp hx).2
    dsimp only
    split
    · rename_i hb
      refine ⟨⟨h.wf, h.proper, h.alive, h.ids.filter _, ?_, ?_⟩, hf⟩
      · intro r
        rw [h.tab r]
        constructor
        · rintro ⟨x, hx, h1, h2⟩
          refine ⟨x, (hm x).mpr ⟨hx, ?_⟩, h1, h2⟩
          rintro rfl; rw [hb] at h1; simp at h1
        · rintro ⟨x, hx, h1, h2⟩
          exact ⟨x, ((hm x).mp hx).1, h1, h2⟩
      · intro a ha b hb' 
        exact h.starts a ((hm a).mp ha).1 b ((hm b).mp hb').1
    · rename_i hb
      have hb : e.bypass = false := by simpa using hb
      have hk : hasKey s.tab e.base = true := hasKey_iff.mpr ⟨(e.base, e.endp), (h.tab _).mpr ⟨e, he, hb, rfl⟩, rfl⟩
      have ha : apply s.tab (.remove e.base) = .ok (s.tab.filter (fun r => r.1 ≠ e.base)) := by
        simp only [apply, hk, if_true]
      rw [ha]
      dsimp only
      obtain ⟨w1, w2⟩ := remove_wf h.wf e.base
      refine ⟨⟨w1, ?_, h.alive, h.ids.filter _, ?_, ?_⟩, hf⟩
      · intro r hr
        exact h.proper r ((w2 r).mp hr).2
      · intro r
        rw [w2 r, h.tab r]
        constructor
        · rintro ⟨h0, x, hx, h1, rfl⟩
          refine ⟨x, (hm x).mpr ⟨hx, ?_⟩, h1, rfl⟩
          rintro rfl; exact h0 rfl
        · rintro ⟨x, hx, h1, rfl⟩
          obtain ⟨hx1, hx2⟩ := (hm x).mp hx
          exact ⟨fun hh => hx2 (h.starts x hx1 e he h1 hb hh), x, hx1, h1, rfl⟩
      · intro a ha b hb' 
        exact h.starts a ((hm a).mp ha).1 b ((hm b).mp hb').1

theorem step_inv {s : St} (h : Inv s) (o : Op)
    (hc : ∀ e, o = .insert e → found s e.id = none → e.bypass = false → Separate s e) : Inv (step s o).1 := by
  unfold step
  rw [if_neg (by simp [h.alive])]
  cases o with
  | insert e => exact (insert_inv h e (hc e rfl)).1
  | remove id => exact (remove_inv h id).1
  | clear => exact ⟨wf_nil, by simp, h.alive, List.Pairwise.nil, by simp, by simp⟩

theorem run_inv {s : St} (ops : List Op) (h : Inv s) (hc : NoConflict s ops) : Inv (run s ops) := by
  induction ops generalizing s with
  | nil => exact h
  | cons o ops ih =>
    have hstep : Inv (step s o).1 ∧ NoConflict (step s o).1 ops := by
      cases o with
      | insert e =>
        refine ⟨step_inv h _ ?_, hc.2⟩
        intro e' he; cases he; exact hc.1
      | remove id => exact ⟨step_inv h _ (by simp), hc⟩
      | clear => exact ⟨step_inv h _ (by simp), hc⟩
    exact ih hstep.1 hstep.2

end Verif.Registry
