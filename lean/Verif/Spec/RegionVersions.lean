import Verif.Model.RegionVersions
/-! Vocabulary for C52. -/
namespace Verif.RegionVersions
open Verif.RegionTable

/-- A table is what a history of changes (newest first) makes. -/
def Builds (h : List Upd) (t : Table) : Prop := build [] h.reverse = some t

/-- The completed changes and the one that is being published. -/
def pend (s : St) : List Upd :=
  match s.w with
  | .publish u _ => u :: s.done
  | .setLatest u _ => u :: s.done
  | _ => s.done

/-- The writer is overwriting version `v`. -/
def Overwriting (s : St) (v : Nat) : Prop := ∃ u, s.w = .copy u v

/-- Reader `i` may search version `v`. -/
def Reading (s : St) (i v : Nat) : Prop := ∃ st, s.r i = .hold st v

/-- The version the writer owns or is about to make the latest one. -/
def owner : W → Option Nat
  | .copy _ v => some v
  | .publish _ v => some v
  | .setLatest _ v => some v
  | _ => none

/-- Version `v` is neither the latest one nor the writer's, and its counter is above the initial value of the invalid interval:
neither readers nor the writer take it. -/
def Unusable (s : St) (v : Nat) : Prop := s.latest ≠ v ∧ inv < s.refc v ∧ owner s.w ≠ some v

end Verif.RegionVersions
