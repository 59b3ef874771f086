import Verif.Proofs.RegionVersions
import Verif.Proofs.Registry
/-! C51 to C53: the table of memory regions and the registry of memory resources. -/

namespace Verif.Demo.C51
open Verif Verif.RegionTable

/-- A history of successful changes and the regions it leaves. -/
def history : List Upd := [.add 1000 2000, .add 5000 6000, .add 2000 3000, .remove 5000, .add 4000 4500]
def table : Table := [(1000, 2000), (2000, 3000), (4000, 4500)]
theorem history_builds : build [] history = some table := by decide +kernel
theorem history_forward : Forward history := by
  intro s e h; simp [history] at h; omega

end Verif.Demo.C51

namespace Verif.Props.C51
open Verif Verif.RegionTable Verif.Demo.C51

/-- An address inside a registered region is found to be in this region. -/
theorem inside_is_found {us : List Upd} {t : Table} (hf : Forward us) (hb : build [] us = some t) {r : Nat × Nat} {p : Nat}
    (hr : Live us.reverse r) (h1 : r.1 ≤ p) (h2 : p < r.2) : lookup t p = some r := by
  obtain ⟨w, hl⟩ := build_live wf_nil hf (h := []) (by simp [Live]) hb
  simp only [List.append_nil] at hl
  exact lookup_inside w ((hl r).mpr hr) h1 h2

example : lookup table 2000 = some (2000, 3000) :=
  inside_is_found history_forward history_builds (by simp [history, Live]) (by decide) (by decide)

/-- Only a registered region is found, and the address is not before its start or behind its end. -/
theorem found_is_registered {us : List Upd} {t : Table} (hf : Forward us) (hb : build [] us = some t) {r : Nat × Nat} {p : Nat}
    (h : lookup t p = some r) : Live us.reverse r ∧ r.1 ≤ p ∧ p ≤ r.2 := by
  obtain ⟨_, hl⟩ := build_live wf_nil hf (h := []) (by simp [Live]) hb
  simp only [List.append_nil] at hl
  obtain ⟨h1, h2⟩ := lookup_some h
  exact ⟨(hl r).mp h1, h2⟩

example : Live history.reverse (4000, 4500) ∧ 4000 ≤ 4321 ∧ 4321 ≤ 4500 :=
  found_is_registered (r := (4000, 4500)) history_forward history_builds (by decide +kernel)

/-- Nothing is found exactly if the address is outside of all regions and is not the end of one. Full property: nothing is found
if the address is in no region; what is missing is the address one past the last byte of a region (`end_is_found`). -/
theorem nothing_otherwise_partial {us : List Upd} {t : Table} (hf : Forward us) (hb : build [] us = some t) (p : Nat) :
    lookup t p = none ↔ ∀ r, Live us.reverse r → p < r.1 ∨ r.2 < p := by
  obtain ⟨w, hl⟩ := build_live wf_nil hf (h := []) (by simp [Live]) hb
  simp only [List.append_nil] at hl
  rw [lookup_none w]
  constructor
  · intro h r hr
    have := h r ((hl r).mpr hr)
    omega
  · intro h r hr
    have := h r ((hl r).mp hr)
    omega

example : lookup table 3500 = none :=
  (nothing_otherwise_partial history_forward history_builds 3500).mpr (by
    intro r hr; simp [history, Live] at hr; rcases hr with rfl | ⟨_, rfl | rfl | rfl⟩ <;> simp_all)

/-- Registered regions do not overlap, so at most one region contains an address. -/
theorem regions_are_disjoint {us : List Upd} {t : Table} (hf : Forward us) (hb : build [] us = some t) {r r' : Nat × Nat}
    (hr : Live us.reverse r) (hr' : Live us.reverse r') (hne : r ≠ r') : r.2 ≤ r'.1 ∨ r'.2 ≤ r.1 := by
  obtain ⟨w, hl⟩ := build_live wf_nil hf (h := []) (by simp [Live]) hb
  simp only [List.append_nil] at hl
  exact (disjoint_of_wf w ((hl r).mpr hr) ((hl r').mpr hr') hne).2

example : (2000 : Nat) ≤ 2000 ∨ (3000 : Nat) ≤ 1000 :=
  regions_are_disjoint (r := (1000, 2000)) (r' := (2000, 3000)) history_forward history_builds
    (by simp [history, Live]) (by simp [history, Live]) (by decide)

/-- The registration of a region is refused (or aborts) exactly if the region overlaps with a registered one. -/
theorem refused_iff_overlapping {us : List Upd} {t : Table} (hf : ∀ s e, .add s e ∈ us → s < e) (hb : build [] us = some t)
    {s e : Nat} (hse : s < e) :
    (∀ t', apply t (.add s e) ≠ .ok t') ↔ ∃ r, Live us.reverse r ∧ s < r.2 ∧ r.1 < e := by
  have hf' : Forward us := fun s e h => Nat.le_of_lt (hf s e h)
  obtain ⟨w, hl⟩ := build_live wf_nil hf' (h := []) (by simp [Live]) hb
  simp only [List.append_nil] at hl
  have hproper : ∀ r ∈ t, r.1 < r.2 := by
    intro r hr
    have hL := (hl r).mp hr
    have : ∀ (h : List Upd), (∀ s e, Upd.add s e ∈ h → s < e) → Live h r → r.1 < r.2 := by
      intro h
      induction h with
      | nil => intro _ h; exact absurd h (by simp [Live])
      | cons u h ih =>
        intro hm hL
        have hm' : ∀ s e, Upd.add s e ∈ h → s < e := fun s e hh => hm s e (List.mem_cons_of_mem _ hh)
        cases u with
        | add a b =>
          rcases hL with rfl | hL
          · exact hm a b (by simp)
          · exact ih hm' hL
        | remove a => exact ih hm' hL.2
        | clear => exact absurd hL (by simp [Live])
    exact this us.reverse (fun s e h => hf s e (by simpa using h)) hL
  constructor
  · intro h
    by_cases hk : hasKey t s = true
    · obtain ⟨r, hr, hrs⟩ := hasKey_iff.mp hk
      have := hproper r hr
      exact ⟨r, (hl r).mp hr, by omega, by omega⟩
    · have hk : hasKey t s = false := by simpa using hk
      have ho : overlaps s e t = true := by
        cases ho : overlaps s e t with
        | true => rfl
        | false => exact absurd (by simp [apply, hk, ho]) (h (insert s e t))
      obtain ⟨r, hr, h1, h2⟩ := (overlaps_iff w hse hk hproper).mp ho
      exact ⟨r, (hl r).mp hr, h1, h2⟩
  · rintro ⟨r, hr, h1, h2⟩ t' ha
    simp only [apply] at ha
    split at ha
    · simp at ha
    · rename_i hk
      split at ha
      · simp at ha
      · rename_i ho
        exact ho ((overlaps_iff w hse (by simpa using hk) hproper).mpr ⟨r, (hl r).mpr hr, h1, h2⟩)

example : ∀ t', apply table (.add 1500 1600) ≠ .ok t' :=
  (refused_iff_overlapping (us := history) (by intro s e h; simp [history] at h; omega) history_builds (by decide)).mpr
    ⟨(1000, 2000), by simp [history, Live], by decide, by decide⟩
example : ∃ t', apply table (.add 3000 4000) = .ok t' := ⟨_, rfl⟩

/-- Finding: the address one past the last byte of a region is attributed to the region, unless another region starts there; an
object of another kind that happens to be mapped there is taken to be in shared memory. -/
theorem end_is_found {us : List Upd} {t : Table} (hf : Forward us) (hb : build [] us = some t) {r : Nat × Nat}
    (hr : Live us.reverse r) (hlt : r.1 < r.2) (hno : ∀ r', Live us.reverse r' → r' ≠ r → r'.1 ≠ r.2) : lookup t r.2 = some r := by
  obtain ⟨w, hl⟩ := build_live wf_nil hf (h := []) (by simp [Live]) hb
  simp only [List.append_nil] at hl
  have hin : r ∈ t := (hl r).mpr hr
  cases hlk : lookup t r.2 with
  | none => exact absurd ⟨w.forward r hin, Nat.le_refl _⟩ ((lookup_none w).mp hlk r hin)
  | some x =>
    obtain ⟨h1, h2, h3⟩ := lookup_some hlk
    by_cases hx : x = r
    · rw [hx]
    · have hn := hno x ((hl x).mp h1) hx
      have := disjoint_of_wf w h1 hin hx
      have hrr := w.forward r hin
      omega

example : lookup table 4500 = some (4000, 4500) :=
  end_is_found history_forward history_builds (r := (4000, 4500)) (by simp [history, Live]) (by decide) (by
    intro r hr; simp [history, Live] at hr; rcases hr with rfl | ⟨_, rfl | rfl | rfl⟩ <;> simp_all)

end Verif.Props.C51

namespace Verif.Props.C52
open Verif Verif.RegionTable Verif.RegionVersions

/-- Two readers and a writer: a registration, a lookup that overlaps with a second registration, and its search. -/
def demo : List Op :=
  [.wStart (.add 1000 2000), .wStep, .wStep, .wStep, .wStep,
   .rStart 0, .rStep 0, .rStep 0, .rStart 1, .rStep 1,
   .wStart (.add 5000 6000), .wStep, .scribble [(7, 8)], .rRead 0 1500, .rStep 1]

/-- No version is overwritten while a reader may search it. -/
theorem never_overwritten_while_read (n : Nat) (ops : List Op) {i v : Nat} (hd : (run n init ops).dead = false)
    (hr : Reading (run n init ops) i v) : ¬ Overwriting (run n init ops) v := by
  have h := reach_core (n := n) ops hd
  obtain ⟨st, hr⟩ := hr
  rintro ⟨u, hw⟩
  have hi : i < n := by
    rcases Nat.lt_or_ge i n with hi | hi
    · exact hi
    · have := h.out i hi; rw [hr] at this; simp at this
  have hpos : 0 < holders n (run n init ops) v :=
    count_pos (p := fun j => holds v ((run n init ops).r j)) hi (by simp [hr, holds])
  have hwok := h.wok
  simp only [WOk, hw] at hwok
  rcases h.cnt v with hc | hc <;> omega

/-- A version does not change while a reader may search it. -/
theorem unchanged_while_read (n : Nat) (ops : List Op) (o : Op) {i v : Nat} (hr : Reading (run n init ops) i v) :
    (step n (run n init ops) o).tab v = (run n init ops).tab v := by
  cases hd : (run n init ops).dead with
  | true => simp [step, hd]
  | false =>
    have hno := never_overwritten_while_read n ops hd hr
    generalize run n init ops = s at *
    have hne : ∀ u v', s.w = .copy u v' → v ≠ v' := fun u v' hw hh => hno ⟨u, by rw [hh]; exact hw⟩
    unfold step
    rw [if_neg (by simp [hd])]
    cases o with
    | wStart u => dsimp only; split <;> rfl
    | wStep =>
      dsimp only
      unfold wStep
      cases hw : s.w with
      | idle => rfl
      | look u a b =>
        dsimp only
        split
        · rfl
        · split
          · rfl
          · rw [(next_frame s u a b).2.2.1]
      | cas u a b c =>
        dsimp only
        split
        · rfl
        · rw [(next_frame s u a b).2.2.1]
      | copy u v' =>
        dsimp only
        split
        · rfl
        · dsimp only; rw [upd_ne _ _ (hne u v' hw)]
        · dsimp only; rw [upd_ne _ _ (hne u v' hw)]
      | publish u v' => rfl
      | setLatest u v' => rfl
    | wSpurious =>
      dsimp only
      split
      · rename_i u a b c hw
        rw [(next_frame s u a b).2.2.1]
      · rfl
    | scribble t =>
      dsimp only
      split
      · rename_i u v' hw
        dsimp only; rw [upd_ne _ _ (hne u v' hw)]
      · rfl
    | rStart j => dsimp only; repeat' split
                  all_goals rfl
    | rStep j =>
      dsimp only
      split
      · unfold rStep
        split
        · rfl
        · dsimp only; repeat' split
          all_goals rfl
        · rfl
      · rfl
    | rRead j p => dsimp only; repeat' split
                   all_goals rfl
    | rRelease j => dsimp only; repeat' split
                    all_goals rfl

example : (run 2 init demo).dead = false ∧ Reading (run 2 init demo) 0 1 ∧ Overwriting (run 2 init demo) 2 :=
  ⟨by decide +kernel, ⟨[.add 1000 2000], by decide +kernel⟩, ⟨.add 5000 6000, by decide +kernel⟩⟩

/-- Every search, at any moment of any interleaving, has the result it has in the table made by some sequence `h` of complete
changes. This sequence contains everything that was complete when the lookup began, and nothing but the complete changes and at
most the one that is about to be published. -/
theorem sees_a_complete_version (n : Nat) (ops : List Op) :
    ∀ e ∈ (run n init ops).log, ∃ h t, Builds h t ∧ e.res = lookup t e.addr ∧ e.start <:+ h ∧ h <:+ pend (run n init ops) :=
  reach_log ops

/-- So an address in a region that is registered in this version is found, and what is found is a region of it. -/
theorem result_is_right (n : Nat) (ops : List Op) (hf : ∀ a b, .wStart (.add a b) ∈ ops → a ≤ b) :
    ∀ e ∈ (run n init ops).log, ∃ h, e.start <:+ h ∧ h <:+ pend (run n init ops) ∧
      (∀ r, e.res = some r → Live h r ∧ r.1 ≤ e.addr ∧ e.addr ≤ r.2) ∧
      (∀ r, Live h r → r.1 ≤ e.addr → e.addr < r.2 → e.res = some r) := by
  intro e he
  obtain ⟨h, t, h1, h2, h3, h4⟩ := reach_log ops e he
  have hall : Forward (pend (run n init ops)) := pend_forward n ops hf
  have hfor : Forward h.reverse := by
    intro a b hm
    exact hall a b (h4.subset (by simpa using hm))
  obtain ⟨w, hl⟩ := build_live wf_nil hfor (h := []) (by simp [Live]) h1
  simp only [List.append_nil, List.reverse_reverse] at hl
  refine ⟨h, h3, h4, ?_, ?_⟩
  · intro r hr
    rw [h2] at hr
    obtain ⟨g1, g2⟩ := lookup_some hr
    exact ⟨(hl r).mp g1, g2⟩
  · intro r hr g1 g2
    rw [h2]
    exact lookup_inside w ((hl r).mpr hr) g1 g2

example : (⟨1500, some (1000, 2000), [.add 1000 2000]⟩ : Read) ∈ (run 2 init demo).log := by decide +kernel

/-- An attempt to acquire the version that was the latest one at the load fails only if another version has become the latest
one since. -/
theorem attempt_fails_only_after_a_change (n : Nat) (ops : List Op) {i v k k' : Nat} {st st' : List Upd} (hi : i < n)
    (hd : (run n init ops).dead = false) (hr : (run n init ops).r i = .add st k v)
    (hr' : (step n (run n init ops) (.rStep i)).r i = .load st' k') : (run n init ops).latest ≠ v := by
  have h := reach_core (n := n) ops hd
  generalize run n init ops = s at *
  rintro rfl
  have hl := h.lat
  unfold step at hr'
  rw [if_neg (by simp [hd])] at hr'
  simp only [hi, if_true, rStep, hr] at hr'
  split at hr'
  · simp only at hr'; rw [hr] at hr'; simp at hr'
  · split at hr'
    · simp at hr'
    · rename_i h1 h2
      have : s.refc s.latest ≠ inv - 1 := fun hh => h1 (Or.inl hh)
      simp only [inv] at *
      omega

/-- The writer goes through all versions while reader 0 sleeps between its load and its increment. -/
def again (u : Upd) : List Op := [.wStart u, .wStep, .wStep, .wStep, .wStep, .wStep]
def overtaken : List Op :=
  [.rStart 0, .rStep 0] ++ (List.range 9).flatMap (fun k => again (.add (1000 * k + 1000) (1000 * k + 1500))) ++
  [.wStart (.add 77000 78000), .wStep, .wStep]
example : (run 1 init overtaken).r 0 = .add [] 0 0 ∧ (run 1 init overtaken).dead = false ∧
    (step 1 (run 1 init overtaken) (.rStep 0)).r 0 = .load [] 1 := by decide +kernel

/-- Finding: successive lookups of one thread can go back. The reader has acquired a version that is not yet the latest one and
finds the new region; its next lookup does not find it, although no region was ever removed. -/
theorem lookups_go_back : ∃ ops, (run 1 init ops).dead = false ∧ (∀ o ∈ ops, ∀ a, o ≠ .wStart (.remove a) ∧ o ≠ .wStart .clear) ∧
    ((run 1 init ops).log.map (fun e => (e.addr, e.res))) = [(77500, none), (77500, some (77000, 78000))] := by
  refine ⟨overtaken ++ [.wStep, .wStep, .rStep 0, .rRead 0 77500, .rRelease 0, .rStart 0, .rStep 0, .rStep 0, .rRead 0 77500], ?_,
    ?_, ?_⟩
  · decide +kernel
  · have : ∀ o ∈ overtaken ++ [.wStep, .wStep, .rStep 0, .rRead 0 77500, .rRelease 0, .rStart 0, .rStep 0, .rStep 0, .rRead 0 77500],
        (match o with | .wStart (.remove _) => false | .wStart .clear => false | _ => true) = true := by decide +kernel
    intro o ho a
    have := this o ho
    constructor <;> rintro rfl <;> simp at this
  · decide +kernel

/-- Finding: a version whose overwriting ended with a refused registration, and whose counter a late reader has incremented
meanwhile, is never used again, whatever happens afterwards. Ten versions are all there are. -/
theorem lost_version_stays_lost (n : Nat) (before : List Op) (v : Nat) (h : Unusable (run n init before) v) (ops : List Op) :
    Unusable (run n init (before ++ ops)) v := by
  have hl : Lost n (run n init before) v := ⟨h.1, h.2.1, h.2.2, reach_core before, reach_log before⟩
  have := lost_run ops hl
  rw [run, List.foldl_append]
  exact ⟨this.notLatest, this.counter, this.notOwned⟩

def losing : List Op := overtaken.dropLast.dropLast.dropLast ++
  [.wStart (.add 1200 1300), .wStep, .wStep, .rStep 0, .wStep, .rStep 0, .rStep 0, .rRelease 0]
example : (run 1 init losing).dead = false ∧ (run 1 init losing).w = .idle ∧ (run 1 init losing).r 0 = .idle ∧
    (run 1 init losing).refc 0 = inv + 1 := by decide +kernel

/-- Such a version exists in a reachable state in which nobody is doing anything. -/
theorem version_lost : ∃ ops, (run 1 init ops).dead = false ∧ (run 1 init ops).w = .idle ∧ (run 1 init ops).r 0 = .idle ∧
    Unusable (run 1 init ops) 0 := by
  refine ⟨losing, by decide +kernel, by decide +kernel, by decide +kernel, ?_⟩
  have hw : (run 1 init losing).w = .idle := by decide +kernel
  have hl : (run 1 init losing).latest = 9 := by decide +kernel
  have hr : (run 1 init losing).refc 0 = inv + 1 := by decide +kernel
  refine ⟨by rw [hl]; decide, by rw [hr]; decide, ?_⟩
  rw [hw]
  simp [owner]

end Verif.Props.C52

namespace Verif.Demo.C53
open Verif Verif.RegionTable Verif.Registry

def demo : List Op :=
  [.insert ⟨1, 1000, 2000, false⟩, .insert ⟨2, 1500, 1800, true⟩, .insert ⟨3, 5000, 6000, false⟩, .insert ⟨1, 9, 9, false⟩,
   .remove 1, .remove 7, .insert ⟨4, 1000, 1400, false⟩]

theorem demo_noConflict : NoConflict init demo := by decide +kernel

end Verif.Demo.C53

namespace Verif.Props.C53
open Verif Verif.RegionTable Verif.Registry Verif.Demo.C53

/-- As long as no registration is refused, no call aborts; the regions in use for bounds checking are exactly those of the
registered resources. Full property: the same with refused registrations, which is false (`removal_aborts`). -/
theorem never_aborts_partial (ops : List Op) (h : NoConflict init ops) :
    (run init ops).dead = false ∧
    ∀ r, r ∈ (run init ops).tab ↔ ∃ e ∈ (run init ops).reg, e.bypass = false ∧ r = (e.base, e.endp) :=
  ⟨(run_inv ops init_inv h).alive, (run_inv ops init_inv h).tab⟩

/-- A removed resource can be inserted again. -/
theorem reinserted_partial (ops : List Op) (h : NoConflict init ops) (e : Entry)
    (hs : e.bypass = false → Separate (removeRes (run init ops) e.id) e) :
    (insertRes (removeRes (run init ops) e.id) e).2 = true ∧
    found (insertRes (removeRes (run init ops) e.id) e).1 e.id = some e := by
  have hi := run_inv ops init_inv h
  obtain ⟨h1, h2⟩ := remove_inv hi e.id
  have := (insert_inv h1 e (fun _ hb => hs hb)).2 h2
  refine ⟨this, ?_⟩
  unfold insertRes at *
  rw [h2] at this ⊢
  dsimp only at this ⊢
  repeat' split
  all_goals simp_all [found]

example : (run init demo).dead = false := (never_aborts_partial demo demo_noConflict).1
example : (run init demo).tab = [(1000, 1400), (5000, 6000)] := by decide +kernel

/-- Finding: a resource whose registration was refused stays in the registry. Its removal, which its destructor does, aborts. -/
theorem removal_aborts : ∃ ops e, (step (run init ops) (.insert e)).2 = false ∧ (step (run init ops) (.insert e)).1.dead = false ∧
    (run init (ops ++ [.insert e, .remove e.id])).dead = true :=
  ⟨[.insert ⟨1, 1000, 2000, false⟩], ⟨2, 1500, 2500, false⟩, by decide +kernel, by decide +kernel, by decide +kernel⟩

/-- Finding: inserting it again, after the obstacle is gone, reports failure and does not register the region. -/
theorem reinsertion_is_ineffective : ∃ ops e, (step (run init ops) (.insert e)).2 = false ∧ (run init ops).tab = [] ∧
    lookup (step (run init ops) (.insert e)).1.tab e.base = none ∧ (run init ops).dead = false :=
  ⟨[.insert ⟨1, 1000, 2000, false⟩, .insert ⟨2, 1500, 2500, false⟩, .remove 1], ⟨2, 1500, 2500, false⟩,
    by decide +kernel, by decide +kernel, by decide +kernel, by decide +kernel⟩

/-- Finding: removing it can withdraw the region of another resource, whose objects then are no longer checked. -/
theorem removal_of_another : ∃ ops, (run init ops).dead = false ∧ ∃ e ∈ (run init ops).reg, e.bypass = false ∧
    lookup (run init ops).tab e.base = none ∧ (run init ops).reg = [e] :=
  ⟨[.insert ⟨1, 1000, 2000, false⟩, .insert ⟨2, 1500, 2500, false⟩, .remove 1, .insert ⟨3, 1500, 1700, false⟩, .remove 2],
    by decide +kernel, ⟨3, 1500, 1700, false⟩, by decide +kernel, rfl, by decide +kernel, by decide +kernel⟩

end Verif.Props.C53
