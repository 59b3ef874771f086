import Verif.Proofs.NotifyNodes
import Mathlib.Data.List.Perm.Subperm
/-! C56: every interested node is notified exactly once per update. -/
namespace Verif.Demo.C56
open Verif.NotifyNodes

/-- A concrete set of 45 nodes: two full buffers and a part. -/
def nodes : List Int := (List.range 45).map (fun (i : Nat) => (3 * (i : Int) + 7))

/-- 5101 nodes. -/
def manyNodes : List Int := (List.range 5101).map (fun (i : Nat) => (i : Int))

theorem manyNodes_sorted : manyNodes.Pairwise (· < ·) := by
  unfold manyNodes
  rw [List.pairwise_map]
  exact List.pairwise_lt_range.imp (fun h => by omega)

end Verif.Demo.C56

namespace Verif.Props.C56
open Verif.NotifyNodes

/-- Whatever happens to the set of interested nodes while the notifications are sent, no node gets two of them, and only nodes
that were interested at some time get one. -/
theorem at_most_once (sets : Nat → List Int) (hsets : ∀ i, (sets i).Pairwise (· < ·)) :
    (notifyRemote sets).Nodup ∧ ∀ x ∈ notifyRemote sets, ∃ i, x ∈ sets i := by
  obtain ⟨h1, h2⟩ := loop_sorted hsets maxLoops 0 0
  refine ⟨h1.imp (fun h => by omega), fun x hx => ?_⟩
  obtain ⟨_, j, _, _, hj⟩ := h2 x hx
  exact ⟨j, hj⟩

example : ∃ sets : Nat → List Int, (∀ i, (sets i).Pairwise (· < ·)) ∧ 23 ∈ notifyRemote sets ∧ sets 0 ≠ sets 1 := by
  refine ⟨fun i => if i = 0 then (List.range 22).map (fun (i : Nat) => (i : Int)) else [23], ?_, ?_, ?_⟩
  · intro i
    dsimp only
    split
    · rw [List.pairwise_map]
      exact List.pairwise_lt_range.imp (fun h => by omega)
    · simp
  · decide +kernel
  · decide +kernel

/-- PARTIAL (at most 5100 nodes): if the set does not change meanwhile, exactly the interested nodes are notified, once each and in
ascending order. -/
theorem exactly_once_partial (set : List Int) (hset : set.Pairwise (· < ·)) (hpid : ∀ x ∈ set, 0 ≤ x ∧ x ≤ maxPid)
    (hmany : set.length ≤ 5100) : notifyRemote (fun _ => set) = set := by
  have h := loop_const hset (fun x hx => (hpid x hx).2) maxLoops 0 0
  have h0 : lowerBound set 0 = set := by
    cases set with
    | nil => rfl
    | cons a l =>
      unfold lowerBound
      rw [List.dropWhile_cons_of_neg]
      have := (hpid a (by simp)).1
      simp; omega
  rw [h0, List.take_of_length_le (by simpa [bufSize, maxLoops] using hmany)] at h
  exact h

/-- PARTIAL (at most 5100 nodes): a node that is interested all the time while the notifications are sent is notified exactly
once, whatever other nodes come and go, provided at most 5100 different nodes are interested meanwhile. -/
theorem interested_throughout_partial (sets : Nat → List Int) (hsets : ∀ i, (sets i).Pairwise (· < ·)) (x : Int)
    (hx : ∀ i, x ∈ sets i) (h0 : 0 ≤ x) (hmax : x ≤ maxPid)
    (hmany : ∃ all : List Int, all.length ≤ 5100 ∧ ∀ i, ∀ y ∈ sets i, y ∈ all) :
    (notifyRemote sets).count x = 1 := by
  obtain ⟨h1, h2⟩ := at_most_once sets hsets
  have hmem : x ∈ notifyRemote sets := by
    rcases loop_complete hsets x hx hmax maxLoops 0 0 h0 with h | ⟨h, h'⟩
    · exact h
    · exfalso
      obtain ⟨all, hlen, hall⟩ := hmany
      have hnot : x ∉ notifyRemote sets := fun hc => Int.lt_irrefl _ (h' x hc)
      have hnd : (x :: notifyRemote sets).Nodup := List.nodup_cons.mpr ⟨hnot, h1⟩
      have hsub : (x :: notifyRemote sets) ⊆ all := by
        intro y hy
        rcases List.mem_cons.mp hy with rfl | hy
        · exact hall 0 _ (hx 0)
        · obtain ⟨i, hi⟩ := h2 y hy
          exact hall i y hi
      have hle := (List.subperm_of_subset hnd hsub).length_le
      have hl : bufSize * maxLoops ≤ (notifyRemote sets).length := h
      have hc : bufSize * maxLoops = 5100 := by decide
      rw [List.length_cons] at hle
      omega
  rw [h1.count, if_pos hmem]

example : (∀ x ∈ Demo.C56.nodes, 0 ≤ x ∧ x ≤ maxPid) ∧ Demo.C56.nodes.length = 45 ∧
    notifyRemote (fun _ => Demo.C56.nodes) = Demo.C56.nodes := by decide +kernel

/-- Which nodes are notified in general: the 5100 smallest identifiers that are not negative. The loop counter is an 8-bit number. -/
theorem who_is_notified (set : List Int) (hset : set.Pairwise (· < ·)) (hpid : ∀ x ∈ set, x ≤ maxPid) :
    notifyRemote (fun _ => set) = (set.dropWhile (· < 0)).take 5100 :=
  loop_const hset hpid maxLoops 0 0

/-- The property does not hold in general: of 5101 interested nodes one is never notified. -/
theorem too_many_nodes : ∃ (set : List Int) (x : Int), set.Pairwise (· < ·) ∧ (∀ y ∈ set, 0 ≤ y ∧ y ≤ maxPid) ∧ x ∈ set ∧
    x ∉ notifyRemote (fun _ => set) := by
  have hr : ∀ y ∈ Demo.C56.manyNodes, 0 ≤ y ∧ y < 5101 := by
    intro y hy
    unfold Demo.C56.manyNodes at hy
    rw [List.mem_map] at hy
    obtain ⟨i, hi, rfl⟩ := hy
    rw [List.mem_range] at hi
    omega
  have hM : maxPid = 2147483647 := by decide
  refine ⟨Demo.C56.manyNodes, 5100, Demo.C56.manyNodes_sorted, fun y hy => ?_, ?_, ?_⟩
  · have := hr y hy; omega
  · unfold Demo.C56.manyNodes
    exact List.mem_map.mpr ⟨5100, List.mem_range.mpr (by omega), rfl⟩
  · rw [who_is_notified _ Demo.C56.manyNodes_sorted (fun y hy => by have := hr y hy; omega)]
    intro hc
    have h0 : Demo.C56.manyNodes.dropWhile (· < 0) = Demo.C56.manyNodes := by
      unfold Demo.C56.manyNodes
      rw [show (5101 : Nat) = 5100 + 1 from rfl, List.range_succ_eq_map]
      rw [List.map_cons, List.dropWhile_cons_of_neg (by decide)]
    rw [h0] at hc
    unfold Demo.C56.manyNodes at hc
    rw [← List.map_take, List.take_range] at hc
    rw [List.mem_map] at hc
    obtain ⟨i, hi, hi'⟩ := hc
    rw [List.mem_range] at hi
    omega

end Verif.Props.C56
