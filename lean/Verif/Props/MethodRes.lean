import Verif.Proofs.MethodRes
/-! C66: the table of the method memory regions. -/

namespace Verif.Demo.C66
open Verif.MethodRes

/-- Application 7 runs as process 100 with two proxies, crashes, and comes back as process 200; application 8 is undisturbed. -/
def ops : List Op :=
  [.subscribe 7 0 100 (some 1), .subscribe 7 1 100 (some 2), .subscribe 8 0 300 (some 3), .subscribe 7 0 100 (some 4),
   .subscribe 7 1 200 (some 5), .subscribe 7 2 200 none, .unsubscribe 8 4]

end Verif.Demo.C66

namespace Verif.Props.C66
open Verif.MethodRes

/-- After every history of subscriptions, unsubscriptions and stops, the table holds exactly the regions that were inserted and
not taken out since by an unsubscription, a stop, or a subscription of another process of the same application. The process does
not terminate, and a look-up finds the held region. -/
theorem holds_exactly (ops : List Op) :
    ∃ m, run empty ops = some m ∧ (∀ e, m.Has e ↔ Held ops.reverse e) ∧
      (∀ app ctr pid, contains m app ctr pid = true ↔ ∃ r, Held ops.reverse ⟨app, ctr, pid, r⟩) ∧
      (∀ app ctr r, m.at app ctr = some r ↔ ∃ pid, Held ops.reverse ⟨app, ctr, pid, r⟩) := by
  obtain ⟨m, h1, h2, h3⟩ := run_spec ops wf_empty [] empty_spec
  rw [List.append_nil] at h3
  refine ⟨m, h1, h3, fun app ctr pid => ?_, fun app ctr r => ?_⟩
  · rw [contains_iff]; exact exists_congr (fun r => h3 _)
  · rw [at_iff h2]; exact exists_congr (fun r => h3 _)

/-- It never holds regions of two processes of the same application, nor two regions of one proxy. -/
theorem one_incarnation (ops : List Op) (e e' : Entry) (h : Held ops.reverse e) (h' : Held ops.reverse e') (ha : e.app = e'.app) :
    e.pid = e'.pid ∧ (e.ctr = e'.ctr → e.region = e'.region) := by
  obtain ⟨m, h1, h2, h3⟩ := run_spec ops wf_empty [] empty_spec
  rw [List.append_nil] at h3
  obtain ⟨p, g1, g2, g3⟩ := (h3 e).mpr h
  obtain ⟨p', g1', g2', g3'⟩ := (h3 e').mpr h'
  rw [← ha, g1] at g1'
  cases g1'
  refine ⟨by rw [← g2, g2'], fun hc => ?_⟩
  rw [← hc] at g3'
  exact h2.unique _ _ g1 _ _ _ g3 g3'

/-- An application whose last region is taken out leaves no entry behind. -/
theorem no_empty_entries (ops : List Op) (m : Map) (h : run empty ops = some m) (app : Nat) :
    (m app).isSome ↔ ∃ ctr pid r, Held ops.reverse ⟨app, ctr, pid, r⟩ := by
  obtain ⟨m', h1, h2, h3⟩ := run_spec ops wf_empty [] empty_spec
  rw [List.append_nil] at h3
  rw [h] at h1
  cases h1
  constructor
  · intro hs
    obtain ⟨p, hp⟩ := Option.isSome_iff_exists.mp hs
    obtain ⟨⟨c, r⟩, hm⟩ := List.exists_mem_of_ne_nil _ (h2.nonempty app p hp)
    exact ⟨c, p.pid, r, (h3 _).mp ⟨p, hp, rfl, hm⟩⟩
  · rintro ⟨c, pid, r, hh⟩
    obtain ⟨p, hp, _⟩ := (h3 _).mpr hh
    dsimp only at hp
    rw [hp]; rfl

/-- In the example, only the region of the new process and the one of the other application are left. -/
example : (run empty Demo.C66.ops).map (fun m => (m 7, m 8, contains m 7 1 200, contains m 7 0 100)) =
    some (some ⟨200, [(1, 5)]⟩, some ⟨300, [(0, 3)]⟩, true, false) := by decide +kernel

example : Held Demo.C66.ops.reverse ⟨7, 1, 200, 5⟩ ∧ Held Demo.C66.ops.reverse ⟨8, 0, 300, 3⟩ := by
  obtain ⟨m, h1, h2, h3⟩ := run_spec Demo.C66.ops wf_empty [] empty_spec
  rw [List.append_nil] at h3
  have e : (run empty Demo.C66.ops).map (fun m => (m 7, m 8)) = some (some ⟨200, [(1, 5)]⟩, some ⟨300, [(0, 3)]⟩) := by
    decide +kernel
  rw [h1] at e
  simp only [Option.map_some, Option.some.injEq, Prod.mk.injEq] at e
  exact ⟨(h3 _).mp ⟨_, e.1, rfl, by decide⟩, (h3 _).mp ⟨_, e.2, rfl, by decide⟩⟩

/-- The insertion alone does not separate incarnations: without the clean-up that precedes it in the program, the old region would
be attributed to the new process. -/
theorem insert_needs_clean_up :
    (insert (insert empty 7 0 100 1) 7 1 200 2).Has ⟨7, 0, 200, 1⟩ :=
  ⟨⟨200, [(1, 2), (0, 1)]⟩, by decide +kernel, rfl, by decide⟩

end Verif.Props.C66
