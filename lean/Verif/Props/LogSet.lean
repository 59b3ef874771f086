import Mathlib.Data.List.Perm.Subperm
import Mathlib.Data.List.Nodup
import Verif.Proofs.LogSetProps
/-!
C18: registration of transaction logs.

The theorems range over every schedule of registrations, uses, unregistrations, process deaths and recoveries
of any number of actors on a log set of any size.
-/
namespace Verif.Props.LogSetSpec
open Verif Verif.LogSet

end Verif.Props.LogSetSpec

namespace Verif.Props.C18
open Verif Verif.LogSet Verif.Props.LogSetSpec

variable {n : Nat} {s : St}

/-- Two different live registrations never share a log. -/
theorem exclusive (hr : Reachable n s) {a b i : Nat} (ha : Holds s a i) (hb : Holds s b i) : a = b :=
  hr.inv.1.excl a b i ((holds_iff ..).mp ha) ((holds_iff ..).mp hb)

/-- The number of actors holding a log never exceeds the configured number of logs. -/
theorem at_most_n (hr : Reachable n s) (l : List Nat) (hl : l.Nodup) (hh : ∀ a ∈ l, ∃ i, Holds s a i) :
    l.length ≤ n := by
  have hsome : ∀ a ∈ l, ((s.act a).owns).isSome := by
    intro a ha; obtain ⟨i, hi⟩ := hh a ha; rw [(holds_iff ..).mp hi]; rfl
  let f : Nat → Nat := fun a => ((s.act a).owns).getD 0
  have hf : ∀ a ∈ l, (s.act a).owns = some (f a) := by
    intro a ha
    obtain ⟨i, hi⟩ := hh a ha
    simp only [f, (holds_iff ..).mp hi, Option.getD_some]
  have hnd : (l.map f).Nodup := by
    rw [List.nodup_map_iff_inj_on hl]
    intro a ha b hb e
    exact hr.inv.1.excl a b (f a) (hf a ha) (by rw [e]; exact hf b hb)
  have := nodup_le_length (l.map f) n hnd (by
    intro x hx
    obtain ⟨a, ha, rfl⟩ := List.mem_map.mp hx
    have := (hr.inv.1.own a (f a) (hf a ha)).2
    rw [hr.inv.2] at this; exact this)
  simpa using this

/-- A registration call that is not disturbed takes the first free log, and changes nothing else; its
`needs rollback` mark is cleared and its content is empty. -/
theorem registers_first_free (hr : Reachable n s) {a id j : Nat} (ha : s.act a = .idle ∨ s.act a = .full)
    (hid : id ≠ 0) (hj : j < n) (hfree : s.ids j = 0) (hbusy : ∀ i, i < j → s.ids i ≠ 0) :
    Registers s a id { s with ids := upd s.ids j id, rb := upd s.rb j false, act := upd s.act a (.registered j) } ∧
      s.dirty j = false := by
  obtain ⟨hi, hn⟩ := hr.inv
  have hd := hi.clean j hfree
  refine ⟨⟨j + 2, fun N hN => ?_⟩, hd⟩
  have e : step s (.register a id) = { s with act := upd s.act a (.acquire 0 0 id) } := by
    simp only [step]; rw [if_pos ⟨ha, hid⟩]
  rw [e]
  have := scan_run (s := { s with act := upd s.act a (.acquire 0 0 id) }) (a := a) (id := id) (r := 0) (j := j)
    (show 0 < s.n by omega) (show j < s.n by omega) hfree hbusy hd 0 (Nat.zero_le _) (by simp only [upd_self]) N
    (by omega)
  simp only [upd_upd] at this
  exact this

/-- An undisturbed registration call fails exactly when every log is held; then nothing changes. -/
theorem fails_when_full (hr : Reachable n s) {a id : Nat} (ha : s.act a = .idle ∨ s.act a = .full) (hid : id ≠ 0)
    (hbusy : ∀ i, i < n → s.ids i ≠ 0) : Registers s a id { s with act := upd s.act a .full } := by
  obtain ⟨hi, hn⟩ := hr.inv
  have e : step s (.register a id) = { s with act := upd s.act a (.acquire 0 0 id) } := by
    simp only [step]; rw [if_pos ⟨ha, hid⟩]
  unfold Registers
  rw [e]
  have := full_run (s := { s with act := upd s.act a (.acquire 0 0 id) }) (a := a) (id := id)
    (fun i hi' => hbusy i (by simp only at hi'; omega)) 0 0 (Nat.zero_le _) (Nat.zero_le _) (by simp only [upd_self])
  simp only [upd_upd] at this
  exact this

/-- A log is free exactly if nobody holds it, as long as no application uses the invalid id: every node whose id is
set has a holder. -/
theorem free_iff_unheld (hr : Reachable n s) {i : Nat} : s.ids i = 0 ↔ ∀ a, ¬ Holds s a i := by
  constructor
  · intro h a ha; exact (hr.inv.1.own a i ((holds_iff ..).mp ha)).1 h
  · intro h
    obtain ⟨ops, rfl⟩ := hr
    have := run_held (init_held n) ops i
    by_cases h0 : (run (init n) ops).ids i = 0
    · exact h0
    · obtain ⟨a, ha⟩ := this h0
      exact absurd ((holds_iff ..).mpr ha) (h a)

/-- Unregistering an emptied log gives it back: after its two steps the log is free for the next registration. -/
theorem unregister_frees (hr : Reachable n s) {a i : Nat} (ha : s.act a = .registered i) (hd : s.dirty i = false) :
    (run s [.unregister a, .go a]).ids i = 0 ∧ (run s [.unregister a, .go a]).act a = .idle ∧
      (∀ j, j ≠ i → (run s [.unregister a, .go a]).ids j = s.ids j) ∧
      ∀ b, b ≠ a → (run s [.unregister a, .go a]).act b = s.act b := by
  have e1 : step s (.unregister a) = { s with rb := upd s.rb i false, act := upd s.act a (.release i) } := by
    simp only [step, ha, startReset, hd, Bool.false_eq_true, if_false]
  have e2 : run s [.unregister a, .go a] =
      { s with rb := upd s.rb i false, ids := upd s.ids i 0, act := upd s.act a .idle } := by
    simp only [run, List.foldl_cons, List.foldl_nil, e1]
    simp only [step, go, upd_self, upd_upd]
  rw [e2]
  refine ⟨upd_self .., upd_self .., fun j hj => upd_ne _ _ hj, fun b hb => upd_ne _ _ hb⟩

/-- The check that a newly taken log is empty never fails, in any schedule, also after crashes. -/
theorem reused_log_is_empty (hr : Reachable n s) (a i : Nat) :
    s.act a ≠ .abortReuse i ∧ (s.act a = .mark i → s.dirty i = false) :=
  ⟨hr.inv.1.noReuse a i, hr.inv.1.fresh a i⟩

/-- Two actors race for the same log; one dies with transactions in its log and is recovered later. -/
def demo : List Op :=
  [.register 0 7, .register 1 8, .go 0, .go 1, .go 0, .use 0 true, .go 1, .go 1, .use 1 true, .crash 0]

example : Holds (run (init 2) demo) 0 0 ∧ Holds (run (init 2) demo) 1 1 ∧
    (run (init 2) (demo ++ [.register 2 9, .recover 0, .go 0] ++ List.replicate 4 (.go 2))).act 2 = .registered 0 := by
  unfold Holds; decide +kernel

example : Reachable 2 (run (init 2) demo) ∧ (∀ i, i < 2 → (run (init 2) demo).ids i ≠ 0) ∧
    (run (init 2) demo).act 2 = .idle ∧ (run (init 2) demo).act 1 = .registered 1 :=
  ⟨⟨_, rfl⟩, by decide +kernel, by decide +kernel, by decide +kernel⟩

end Verif.Props.C18
