import Verif.Proofs.SamplePtr

/-!
# C107: a consumer's pointer keeps its sample and gives it back once

`run (init n max v) l` is what there is after the program `l`, with `n` slots and `max c` samples allowed for subscription `c`.
`spent … l i` says that the program must not read variable `i`: it was the source of a move assignment or is being destroyed.
-/
namespace Verif.Demo.C107
open Verif.SamplePtr Verif.Spec.SamplePtr

/-- Two samples, obtained in one call; one is moved to a new variable, which swaps with the other. -/
def prog : List (Step Nat) :=
  [.publish 0 10, .publish 1 20, .getNew 0 2 [0, 1], .move 0, .swap 1 2]

def world : World Nat := run (init 3 (fun _ => 2) 0) prog

end Verif.Demo.C107

namespace Verif.Props.C107
open Verif.SamplePtr Verif.Spec.SamplePtr

section
variable {V : Type}

/-- As long as a variable is not changed and leads to a sample, the sample stays as it is, whatever the other variables, other
threads and the provider do.  Partial because of `spent`, see `assigned_from_fails`. -/
theorem kept_partial {n : Nat} {max : Nat → Nat} {v : V} {l l' : List (Step V)} {i s : Nat}
    (hs : spent (init n max v) l i = false) (hh : Holds (run (init n max v) l) i s) (hl : ∀ st ∈ l', ¬ touches st i) :
    Holds (run (init n max v) (l ++ l')) i s ∧ (run (init n max v) (l ++ l')).data s = (run (init n max v) l).data s := by
  have h := run_inv n max v l
  have hr := run_inv_from h l'
  have k := kept_from l' (run (init n max v) l, spent (init n max v) l) h hs hh hl
  rw [run_append, ← hr.2]
  refine ⟨?_, k.2.1⟩
  unfold Holds
  rw [k.1]; exact hh

example : Holds (run (init 3 (fun _ => 2) 0) (Demo.C107.prog ++ [.drop 2, .publish 0 30, .publish 1 40])) 1 0 ∧
    (run (init 3 (fun _ => 2) 0) (Demo.C107.prog ++ [.drop 2, .publish 0 30, .publish 1 40])).data 0 = 10 := by
  have := kept_partial (n := 3) (max := fun _ => 2) (v := 0) (l := Demo.C107.prog) (l' := [.drop 2, .publish 0 30, .publish 1 40]) (i := 1) (s := 0)
    (by decide +kernel) ⟨by decide +kernel, by decide +kernel⟩
    (by intro st hst; simp only [List.mem_cons, List.not_mem_nil, or_false] at hst; rcases hst with rfl | rfl | rfl <;> simp [touches])
  exact ⟨this.1, this.2.trans (by decide +kernel)⟩

/-- No program makes the process end or gives a reference back that was not taken. -/
theorem no_fault (n : Nat) (max : Nat → Nat) (v : V) (l : List (Step V)) : (run (init n max v) l).fault = none :=
  (run_inv n max v l).cnt.fault

example : (Demo.C107.world).fault = none := no_fault _ _ _ _

/-- Nothing is lost: when all variables have ended there is no reference to any slot, and every subscription has its full
number of samples again. -/
theorem nothing_lost (n : Nat) (max : Nat → Nat) (v : V) (l : List (Step V)) :
    (∀ s, (dropAll (run (init n max v) l)).refs s = 0) ∧ ∀ c, (dropAll (run (init n max v) l)).avail c = max c := by
  let w := run (init n max v) l
  have hg := dropAll_get w w.ptrs.length (Nat.le_refl _)
  have h := run_inv_from (run_inv n max v l) ((List.range w.ptrs.length).map .drop)
  have hc : Cnt (dropAll w) [] := by
    have := h.1.cnt
    rw [h.2] at this
    exact this
  have hz : ∀ f : Ptr → Bool, f {} = false → ((dropAll w).ptrs ++ []).countP f = 0 := by
    intro f hf
    rw [List.append_nil, List.countP_eq_zero]
    intro p hp
    obtain ⟨i, hi, e⟩ := mem_get hp
    have hi : i < w.ptrs.length := Nat.lt_of_lt_of_eq hi hg.1
    have e2 : (dropAll w).get i = {} := (hg.2 i).trans (if_pos hi)
    rw [← e, e2, hf]; simp
  have hm : (dropAll w).max = max := by
    have : ∀ (l : List (Step V)) (w : World V), (run w l).max = w.max := by
      intro l
      induction l with
      | nil => intro w; rfl
      | cons st l ih =>
        intro w
        refine (ih (step w st)).trans ?_
        cases st with
        | publish => unfold step publish; dsimp only; split <;> rfl
        | getNew => unfold step getNew; dsimp only; split <;> rfl
        | move => unfold step; dsimp only; split <;> rfl
        | assign i j =>
          unfold step; dsimp only
          split
          · unfold assign; split
            · rfl
            · dsimp only
              exact (dropGuard_frame _ _).2.2.2.2.2.1.trans (dropSlot_frame _ _).2.2.2.2.2.1
          · rfl
        | swap => unfold step; dsimp only; split <;> rfl
        | drop =>
          unfold step; dsimp only
          split
          · exact (destroy_frame _ _).2.2.2.2.2
          · rfl
        | resetTo =>
          unfold step; dsimp only
          split
          · exact (destroy_frame _ _).2.2.2.2.2
          · rfl
        | endBegin =>
          unfold step; dsimp only
          split
          · exact (dropGuard_frame _ _).2.2.2.2.2.1
          · rfl
        | endFinish =>
          unfold step endFinish; dsimp only
          split
          · split
            · exact (dropSlot_frame _ _).2.2.2.2.2.1
            · rfl
          · rfl
    exact (this _ w).trans (this l (init n max v))
  refine ⟨fun s => ?_, fun c => ?_⟩
  · have := hc.refs s
    rw [hz _ (by simp [slotIs])] at this
    exact this
  · have := hc.avail c
    rw [hz _ (by simp [guardIs]), hm] at this
    exact this

example : (dropAll Demo.C107.world).refs 0 = 0 ∧ (dropAll Demo.C107.world).avail 0 = 2 ∧ (Demo.C107.world).avail 0 = 0 :=
  ⟨(nothing_lost _ _ _ _).1 0, (nothing_lost _ _ _ _).2 0, by decide +kernel⟩

/-- GetNewSamples with free samples: the receiver gets at most `k` and at most as many samples as are free, each one published,
and no two variables share a reference; with none free nothing happens. -/
theorem get_new {n : Nat} {max : Nat → Nat} {v : V} {l : List (Step V)} (c k : Nat) (slots : List Nat) :
    let w := run (init n max v) l
    ((getNew w c k slots).2 = .maxReached ↔ min k (w.avail c) = 0) ∧
    ((getNew w c k slots).2 = .maxReached → (getNew w c k slots).1 = w) ∧
    ((getNew w c k slots).2 = .ok → ∃ got : List Nat, got = (slots.filter fun s => decide (s < n ∧ 0 < w.stamp s)).take (min k (w.avail c)) ∧
      (getNew w c k slots).1.ptrs.length = w.ptrs.length + got.length ∧
      (∀ x, x < w.ptrs.length → (getNew w c k slots).1.get x = w.get x) ∧
      (∀ x s, got[x]? = some s → Holds (getNew w c k slots).1 (w.ptrs.length + x) s) ∧
      (getNew w c k slots).1.avail c + got.length = w.avail c ∧
      (∀ d, d ≠ c → (getNew w c k slots).1.avail d = w.avail d) ∧
      ∀ s, (getNew w c k slots).1.refs s = w.refs s + got.count s) := by
  intro w
  have hn : ∀ (l : List (Step V)) (w : World V), (run w l).n = w.n := by
    intro l
    induction l with
    | nil => intro w; rfl
    | cons st l ih =>
      intro w
      refine (ih (step w st)).trans ?_
      cases st with
      | publish => unfold step publish; dsimp only; split <;> rfl
      | getNew => exact (getNew_frame _ _ _ _).2.2.1
      | move => unfold step; dsimp only; split <;> rfl
      | assign i j => unfold step; dsimp only; split; exact assign_frame.2.2.1; rfl
      | swap => unfold step; dsimp only; split <;> rfl
      | drop => unfold step; dsimp only; split; exact (destroy_frame _ _).2.2.2.1; rfl
      | resetTo => unfold step; dsimp only; split; exact (destroy_frame _ _).2.2.2.1; rfl
      | endBegin => unfold step; dsimp only; split; exact (dropGuard_frame _ _).2.2.2.1; rfl
      | endFinish => unfold step; dsimp only; split; exact endFinish_frame.2.2.1; rfl
  have hwn : w.n = n := hn l _
  by_cases h0 : min k (w.avail c) = 0
  · have e : getNew w c k slots = (w, .maxReached) := by unfold getNew; dsimp only; rw [if_pos h0]
    rw [e]
    exact ⟨⟨fun _ => h0, fun _ => rfl⟩, fun _ => rfl, fun h => by cases h⟩
  · have e2 : (getNew w c k slots).2 = .ok := by unfold getNew; dsimp only; rw [if_neg h0]
    refine ⟨⟨fun h => (by rw [e2] at h; cases h), fun h => absurd h h0⟩, fun h => (by rw [e2] at h; cases h), fun _ => ?_⟩
    have er : ready w (min k (w.avail c)) slots = (slots.filter fun s => decide (s < n ∧ 0 < w.stamp s)).take (min k (w.avail c)) := by
      unfold ready
      congr 1
      apply List.filter_congr
      intro s _
      rw [hwn]
      by_cases a : s < n <;> by_cases b : 0 < w.stamp s <;> simp [a, b]
    have hlen := (ready_spec w (min k (w.avail c)) slots).1
    rw [← er]
    generalize hr : ready w (min k (w.avail c)) slots = got at hlen
    have eg : (getNew w c k slots).1 = { refer w got with
        avail := fun x => if x = c then w.avail x - min k (w.avail c) + (min k (w.avail c) - got.length) else w.avail x,
        ptrs := w.ptrs ++ got.map (fresh w c) } := by
      unfold getNew; dsimp only; rw [if_neg h0, hr]; rfl
    rw [eg]
    refine ⟨got, rfl, by simp, fun x hx => ?_, fun x s hx => ?_, ?_, fun d hd => by simp [hd], fun s => rfl⟩
    · unfold World.get
      dsimp only
      rw [List.getD_eq_getElem?_getD, List.getD_eq_getElem?_getD, List.getElem?_append_left hx]
    · have : World.get { refer w got with
          avail := fun x => if x = c then w.avail x - min k (w.avail c) + (min k (w.avail c) - got.length) else w.avail x,
          ptrs := w.ptrs ++ got.map (fresh w c) } (w.ptrs.length + x) = fresh w c s := by
        unfold World.get
        dsimp only
        rw [List.getD_eq_getElem?_getD, List.getElem?_append_right (by omega), Nat.add_sub_cancel_left, List.getElem?_map, hx]
        rfl
      unfold Holds
      rw [this]
      exact ⟨rfl, rfl⟩
    · simp; omega

example : (getNew Demo.C107.world 1 5 [0, 1, 2]).2 = .ok ∧ Holds (getNew Demo.C107.world 1 5 [0, 1, 2]).1 4 1 ∧
    (getNew Demo.C107.world 0 5 [0]).2 = .maxReached := by
  refine ⟨by decide +kernel, ?_, by decide +kernel⟩
  obtain ⟨got, h1, _, _, h4, _⟩ := (get_new (n := 3) (max := fun _ => 2) (v := 0) (l := Demo.C107.prog) 1 5 [0, 1, 2]).2.2 (by decide +kernel)
  have : got = [0, 1] := by rw [h1]; decide +kernel
  exact h4 1 1 (by rw [this]; rfl)

/-- A new variable that is constructed from another leads to its sample, the other one is null, and no reference is taken or
given back. -/
theorem move_moves {n : Nat} {max : Nat → Nat} {v : V} {l : List (Step V)} {i : Nat}
    (hi : i < (run (init n max v) l).ptrs.length) :
    let w := run (init n max v) l
    let w' := step w (.move i)
    (w'.get w.ptrs.length = w.get i) ∧ Null w' i ∧ (∀ x, x ≠ i → x < w.ptrs.length → w'.get x = w.get x) ∧ KeepsAll w w' := by
  intro w w'
  have e : w' = move w i := by show step w (.move i) = _; unfold step; dsimp only; rw [if_pos hi]
  rw [e]
  refine ⟨by rw [move_get hi, if_pos rfl], ?_, fun x hx hl => by rw [move_get hi, if_neg (Nat.ne_of_lt hl), if_neg hx], rfl, rfl⟩
  unfold Null
  rw [move_get hi, if_neg (Nat.ne_of_lt hi), if_pos rfl]
  exact ⟨rfl, rfl⟩

example : Null (step Demo.C107.world (.move 1)) 1 := (move_moves (n := 3) (max := fun _ => 2) (v := 0) (l := Demo.C107.prog) (by decide +kernel)).2.1

/-- Swapping exchanges two variables and nothing else. -/
theorem swap_swaps {n : Nat} {max : Nat → Nat} {v : V} {l : List (Step V)} {i j : Nat}
    (hi : i < (run (init n max v) l).ptrs.length) (hj : j < (run (init n max v) l).ptrs.length) :
    let w := run (init n max v) l
    let w' := step w (.swap i j)
    w'.get i = w.get j ∧ w'.get j = w.get i ∧ (∀ x, x ≠ i → x ≠ j → w'.get x = w.get x) ∧ KeepsAll w w' := by
  intro w w'
  have e : w' = swap w i j := by show step w (.swap i j) = _; unfold step; dsimp only; rw [if_pos ⟨hi, hj⟩]
  rw [e]
  refine ⟨by rw [swap_get hi hj, if_pos rfl], ?_, fun x hx hl => by rw [swap_get hi hj, if_neg hx, if_neg hl], rfl, rfl⟩
  rw [swap_get hi hj]
  by_cases h : j = i
  · rw [if_pos h, h]
  · rw [if_neg h, if_pos rfl]

example : (step Demo.C107.world (.swap 1 0)).get 0 = (Demo.C107.world).get 1 :=
  (swap_swaps (n := 3) (max := fun _ => 2) (v := 0) (l := Demo.C107.prog) (i := 1) (j := 0) (by decide +kernel) (by decide +kernel)).2.1

/-- The end of a variable, Reset and assignment of nullptr give back the sample that the variable leads to, once; the
variable is null; the others are as before.  A null variable gives nothing back. -/
theorem drop_gives_back {n : Nat} {max : Nat → Nat} {v : V} {l : List (Step V)} {i : Nat}
    (hi : i < (run (init n max v) l).ptrs.length) (hs : spent (init n max v) l i = false) :
    let w := run (init n max v) l
    let w' := step w (.drop i)
    Null w' i ∧ (∀ x, x ≠ i → w'.get x = w.get x) ∧ (∀ s, Holds w i s → GivesBack w w' s) ∧ (Null w i → KeepsAll w w') := by
  intro w w'
  have h := run_inv n max v l
  have e : w' = drop w i := by show step w (.drop i) = _; unfold step; dsimp only; rw [if_pos hi]
  rw [e]
  refine ⟨?_, fun x hx => by rw [drop_get hi, if_neg hx], fun s hh => ?_, fun hn => ?_⟩
  · unfold Null; rw [drop_get hi, if_pos rfl]; exact ⟨rfl, rfl⟩
  · obtain ⟨c, hd, hg⟩ := holds_dec h hs hh
    exact destroy_gives (w := w) (w1 := w.put i {}) rfl rfl hd hg (refs_pos h.cnt hd)
  · have := null_eq h hn
    unfold drop
    rw [destroy_none (by rw [this]) (by rw [this])]
    exact ⟨rfl, rfl⟩

example : GivesBack Demo.C107.world (step Demo.C107.world (.drop 2)) 1 :=
  (drop_gives_back (n := 3) (max := fun _ => 2) (v := 0) (l := Demo.C107.prog) (i := 2) (by decide +kernel) (by decide +kernel)).2.2.1 1
    ⟨by decide +kernel, by decide +kernel⟩

/-- A move assignment gives back what the target led to, once, and the target leads to the sample of the source; the other
variables are as before, and the end of the source gives nothing back.  (What else the source does is another matter, see
`assigned_from_fails`.)  Self assignment changes nothing. -/
theorem assign_replaces {n : Nat} {max : Nat → Nat} {v : V} {l : List (Step V)} {i j : Nat}
    (hi : i < (run (init n max v) l).ptrs.length) (hj : j < (run (init n max v) l).ptrs.length)
    (hs : spent (init n max v) l i = false) :
    let w := run (init n max v) l
    let w' := step w (.assign i j)
    (i = j → w' = w) ∧ w'.get i = w.get j ∧ (∀ x, x ≠ i → x ≠ j → w'.get x = w.get x) ∧
      (i ≠ j → ∀ s, Holds w i s → GivesBack w w' s) ∧ (i ≠ j → Null w i → KeepsAll w w') ∧
      (i ≠ j → KeepsAll w' (step w' (.drop j))) := by
  intro w w'
  have h := run_inv n max v l
  have e : w' = assign w i j := by show step w (.assign i j) = _; unfold step; dsimp only; rw [if_pos ⟨hi, hj⟩]
  rw [e]
  by_cases hne : i = j
  · have e2 : assign w i j = w := by unfold assign; rw [if_pos hne]
    rw [e2, hne]
    exact ⟨fun _ => rfl, rfl, fun _ _ _ => rfl, fun h => absurd rfl h, fun h => absurd rfl h, fun h => absurd rfl h⟩
  · refine ⟨fun h => absurd h hne, by rw [assign_get hi hj hne, if_pos rfl],
      fun x h1 h2 => by rw [assign_get hi hj hne, if_neg h1, if_neg h2], fun _ s hh => ?_, fun _ hn => ?_, fun _ => ?_⟩
    · obtain ⟨c, hd, hg⟩ := holds_dec h hs hh
      have hp := refs_pos h.cnt hd
      unfold assign
      rw [if_neg hne]
      dsimp only
      have a := dropSlot_refs (w := (w.put i {}).put j (left (w.get j))) (p := w.get i) hd hp
      have f := dropSlot_frame ((w.put i {}).put j (left (w.get j))) (w.get i)
      have b := dropGuard_avail (w := dropSlot ((w.put i {}).put j (left (w.get j))) (w.get i)) hg
      have f2 := dropGuard_frame (dropSlot ((w.put i {}).put j (left (w.get j))) (w.get i)) (w.get i)
      rw [f.2.2.2.2.2.2] at b
      rw [← f2.2.2.2.2.2.2] at a
      exact ⟨a.1, a.2, c, b.1, b.2⟩
    · have hz := null_eq h hn
      unfold assign
      rw [if_neg hne]
      dsimp only
      rw [dropSlot_none (by rw [hz]), dropGuard_none (by rw [hz])]
      exact ⟨rfl, rfl⟩
    · have eg : (assign w i j).get j = left (w.get j) := by rw [assign_get hi hj hne, if_neg (Ne.symm hne), if_pos rfl]
      unfold step
      dsimp only
      rw [if_pos (by rw [assign_frame.2.2.2.2]; exact hj)]
      unfold drop
      rw [eg, destroy_none rfl rfl]
      exact ⟨rfl, rfl⟩

example : GivesBack Demo.C107.world (step Demo.C107.world (.assign 1 2)) 0 :=
  (assign_replaces (n := 3) (max := fun _ => 2) (v := 0) (l := Demo.C107.prog) (i := 1) (j := 2) (by decide +kernel) (by decide +kernel)
    (by decide +kernel)).2.2.2.1 (by decide) 0 ⟨by decide +kernel, by decide +kernel⟩

/-- Reset with another variable gives back what the target led to, once; the target leads to the sample of the other one, which is
null. -/
theorem reset_replaces {n : Nat} {max : Nat → Nat} {v : V} {l : List (Step V)} {i j : Nat}
    (hi : i < (run (init n max v) l).ptrs.length) (hj : j < (run (init n max v) l).ptrs.length) (hne : i ≠ j)
    (hs : spent (init n max v) l i = false) :
    let w := run (init n max v) l
    let w' := step w (.resetTo i j)
    w'.get i = w.get j ∧ Null w' j ∧ (∀ x, x ≠ i → x ≠ j → w'.get x = w.get x) ∧
      (∀ s, Holds w i s → GivesBack w w' s) ∧ (Null w i → KeepsAll w w') := by
  intro w w'
  have h := run_inv n max v l
  have e : w' = resetTo w i j := by show step w (.resetTo i j) = _; unfold step; dsimp only; rw [if_pos ⟨hi, hj⟩]
  rw [e]
  have eg : (w.put j {}).get i = w.get i := by rw [get_put _ _ _ _ hj, if_neg hne]
  refine ⟨by rw [resetTo_get hi hj, if_pos rfl], ?_, fun x h1 h2 => by rw [resetTo_get hi hj, if_neg h1, if_neg h2],
    fun s hh => ?_, fun hn => ?_⟩
  · unfold Null; rw [resetTo_get hi hj, if_neg (Ne.symm hne), if_pos rfl]; exact ⟨rfl, rfl⟩
  · obtain ⟨c, hd, hg⟩ := holds_dec h hs hh
    unfold resetTo
    dsimp only
    rw [eg]
    exact destroy_gives (w := w) (w1 := (w.put j {}).put i (w.get j)) rfl rfl hd hg (refs_pos h.cnt hd)
  · have := null_eq h hn
    unfold resetTo
    dsimp only
    rw [eg, destroy_none (by rw [this]) (by rw [this])]
    exact ⟨rfl, rfl⟩

example : Null (step Demo.C107.world (.resetTo 1 2)) 2 :=
  (reset_replaces (n := 3) (max := fun _ => 2) (v := 0) (l := Demo.C107.prog) (i := 1) (j := 2) (by decide +kernel) (by decide +kernel)
    (by decide) (by decide +kernel)).2.1

/-- When no variable leads to a slot, the provider can use it again: its next sample there is the newest one. -/
theorem reusable {n : Nat} {max : Nat → Nat} {v : V} {l : List (Step V)} {s : Nat} (x : V) (hsn : s < (run (init n max v) l).n)
    (hsp : ∀ i, spent (init n max v) l i = false) (hno : ∀ i, ¬ Holds (run (init n max v) l) i s) :
    let w := run (init n max v) l
    let w' := step w (.publish s x)
    w'.data s = x ∧ (∀ t, t ≠ s → w'.data t = w.data t ∧ w'.stamp t = w.stamp t ∧ w'.stamp t < w'.stamp s) := by
  intro w w'
  have h := run_inv n max v l
  have hz : w.refs s = 0 := by
    rw [h.cnt.refs s, List.append_nil, List.countP_eq_zero]
    intro p hp hf
    obtain ⟨i, hi, e⟩ := mem_get hp
    have hf : p.dec.map (·.2) = some s := by simpa [slotIs] using hf
    cases hd : p.dec with
    | none => rw [hd] at hf; cases hf
    | some cs =>
      obtain ⟨c, t⟩ := cs
      rw [hd] at hf
      have ht : t = s := by simpa using hf
      subst ht
      have hd' : (w.get i).dec = some (c, t) := by rw [e]; exact hd
      have ho := ((h.ok i).dec c t hd').1
      have hl : (w.get i).lola = true := by
        cases hb : (w.get i).lola with
        | true => rfl
        | false =>
          have : w.get i = {} := (h.ok i).blank hb
          rw [this] at hd'; cases hd'
      exact hno i ⟨hl, by unfold Ptr.target; rw [if_pos hl]; exact ho⟩
  have e : w' = publish w s x := rfl
  rw [e]
  unfold publish
  rw [if_pos ⟨hsn, hz⟩]
  refine ⟨by simp, fun t ht => ?_⟩
  have := h.stamps t
  have : w.stamp t ≤ w.clock := this
  simp only [ht, if_false, if_true]
  exact ⟨trivial, trivial, by omega⟩

example : (step Demo.C107.world (.publish 2 99)).data 2 = 99 := by decide +kernel

/-- A subscription never has more samples out than its maximum, as long as no thread is in the middle of the destructor of a
pointer.  Partial for that reason, see `limit_fails`. -/
theorem limit_partial {n : Nat} {max : Nat → Nat} {v : V} {l : List (Step V)} (hl : ∀ st ∈ l, ∀ i, st ≠ .endBegin i) (c : Nat) :
    referred (run (init n max v) l) c ≤ (run (init n max v) l).max c := by
  have h := run_inv n max v l
  have hw : Whole (run (init n max v) l) :=
    run_whole (w := init n max v) (fun i c s hd => by rw [get_ge (by simp [init])] at hd; cases hd) hl
  have ha := h.cnt.avail c
  rw [List.append_nil] at ha
  refine Nat.le_trans ?_ (Nat.le.intro ((Nat.add_comm _ _).trans ha))
  unfold referred
  apply List.countP_mono_left
  intro p hp hf
  obtain ⟨i, hi, e⟩ := mem_get hp
  have hf : p.dec.map (·.1) = some c := by simpa using hf
  cases hd : p.dec with
  | none => rw [hd] at hf; cases hf
  | some cs =>
    obtain ⟨c', t⟩ := cs
    rw [hd] at hf
    have hc : c' = c := by simpa using hf
    subst hc
    have := hw i c' t (by rw [e]; exact hd)
    rw [e] at this
    simp [guardIs, this]

example : referred Demo.C107.world 0 ≤ 2 :=
  limit_partial (n := 3) (max := fun _ => 2) (v := 0) (l := Demo.C107.prog) (by
    intro st hst i
    simp only [Demo.C107.prog, List.mem_cons, List.not_mem_nil, or_false] at hst
    rcases hst with rfl | rfl | rfl | rfl | rfl <;> simp) 0

/-- Pointers compare by the time at which their samples were published; two pointers are neither older nor newer than each other
exactly if they lead to the same sample.  Nothing is older or newer than a null pointer. -/
theorem compare_by_time {n : Nat} {max : Nat → Nat} {v : V} {l : List (Step V)} {i j s t : Nat}
    (hi : spent (init n max v) l i = false) (hj : spent (init n max v) l j = false)
    (h1 : Holds (run (init n max v) l) i s) (h2 : Holds (run (init n max v) l) j t) :
    let w := run (init n max v) l
    ((w.get i).lt (w.get j) = true ↔ w.stamp s < w.stamp t) ∧ ((w.get i).gt (w.get j) = true ↔ w.stamp t < w.stamp s) ∧
      (((w.get i).lt (w.get j) = false ∧ (w.get i).gt (w.get j) = false) ↔ s = t) := by
  intro w
  have h := run_inv n max v l
  obtain ⟨c, d1, _⟩ := holds_dec h hi h1
  obtain ⟨d, d2, _⟩ := holds_dec h hj h2
  have o1 := (h.ok i).dec c s d1
  have o2 := (h.ok j).dec d t d2
  have b1 : (w.get i).lola = true := h1.1
  have b2 : (w.get j).lola = true := h2.1
  have e1 : (w.get i).obj = some s := o1.1
  have e2 : (w.get j).obj = some t := o2.1
  have t1 : (w.get i).stamp = w.stamp s := o1.2.2.1
  have t2 : (w.get j).stamp = w.stamp t := o2.2.2.1
  have p1 : 0 < w.stamp s := o1.2.2.2.1
  unfold Ptr.lt Ptr.gt
  rw [b1, b2, e1, e2, t1, t2]
  simp only [Option.isSome_some, Bool.and_self, Bool.true_and, decide_eq_true_eq, decide_eq_false_iff_not, gt_iff_lt]
  refine ⟨trivial, trivial, fun ⟨a, b⟩ => h.diff s t (by show w.stamp s = w.stamp t; omega) p1, fun e => by subst e; simp⟩

example : ((Demo.C107.world).get 1).lt ((Demo.C107.world).get 2) = true :=
  ((compare_by_time (n := 3) (max := fun _ => 2) (v := 0) (l := Demo.C107.prog) (i := 1) (j := 2) (s := 0) (t := 1) (by decide +kernel) (by decide +kernel)
    ⟨by decide +kernel, by decide +kernel⟩ ⟨by decide +kernel, by decide +kernel⟩).1).mpr (by decide +kernel)

theorem null_compares {n : Nat} {max : Nat → Nat} {v : V} {l : List (Step V)} {i j : Nat}
    (h : Null (run (init n max v) l) i ∨ Null (run (init n max v) l) j) :
    ((run (init n max v) l).get i).lt ((run (init n max v) l).get j) = false ∧
      ((run (init n max v) l).get i).gt ((run (init n max v) l).get j) = false := by
  unfold Ptr.lt Ptr.gt
  rcases h with h | h
  · have : ((run (init n max v) l).get i).lola = false := h.1
    rw [this]; simp
  · have : ((run (init n max v) l).get j).lola = false := h.1
    rw [this]; simp

example : ((Demo.C107.world).get 0).lt ((Demo.C107.world).get 1) = false :=
  (null_compares (n := 3) (max := fun _ => 2) (v := 0) (l := Demo.C107.prog) (.inl ⟨by decide +kernel, by decide +kernel⟩)).1

end

/-- **Violated.** The source of a move assignment is not null: it goes on leading to the sample, and when the target ends the
provider overwrites the sample that the source leads to. -/
theorem assigned_from_fails : ∃ (l l' : List (Step Nat)) (i s : Nat), Holds (run (init 3 (fun _ => 2) 0) l) i s ∧
    (∃ j, j ≠ i ∧ l = [.publish 0 10, .publish 1 20, .getNew 0 2 [0, 1]] ++ [.assign j i]) ∧ (∀ st ∈ l', ¬ touches st i) ∧
    Holds (run (init 3 (fun _ => 2) 0) (l ++ l')) i s ∧
    (run (init 3 (fun _ => 2) 0) (l ++ l')).data s ≠ (run (init 3 (fun _ => 2) 0) l).data s := by
  refine ⟨[.publish 0 10, .publish 1 20, .getNew 0 2 [0, 1], .assign 0 1], [.drop 0, .publish 1 30], 1, 1,
    ⟨by decide +kernel, by decide +kernel⟩, ⟨0, by decide, rfl⟩, ?_, ⟨by decide +kernel, by decide +kernel⟩, by decide +kernel⟩
  intro st hst
  simp only [List.mem_cons, List.not_mem_nil, or_false] at hst
  rcases hst with rfl | rfl <;> simp [touches]

/-- **Violated.** The destructor of a pointer first returns the sample to the subscription and then releases the slot: another
thread that calls GetNewSamples in between makes the subscription refer to more slots than its maximum. -/
theorem limit_fails : ∃ l : List (Step Nat), referred (run (init 3 (fun _ => 1) 0) l) 0 = 2 ∧ (run (init 3 (fun _ => 1) 0) l).max 0 = 1 :=
  ⟨[.publish 0 10, .publish 1 20, .getNew 0 1 [0], .endBegin 0, .getNew 0 1 [1]], by decide +kernel, by decide +kernel⟩

end Verif.Props.C107
