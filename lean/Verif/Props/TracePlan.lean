import Verif.Proofs.TracePlan

/-! C89: the tracing slots suffice for all elements that are configured to be traced. -/
namespace Verif.Props.C89
open Verif.TracePlan Verif.TracePlanSpec Verif.TraceSlots Verif.TraceSlotsSpec

/-- A trace point is enabled exactly if the files ask for it. -/
theorem enabled_iff_asked (c : Config) (file : List FileEntry) (events fields : List Entry) (maps : Maps c file events fields)
    (e : Elem) (p : Point) (i : Nat) :
    enabled (if e.field then fields else events) e p i = true ↔ Asked c file e p i := by
  have h := read_maps maps
  cases hf : e.field with
  | false => simp only [Bool.false_eq_true, if_false]; rw [enabled_in h.goodE, h.inE, hf]; simp
  | true => simp only [if_true]; rw [enabled_in h.goodF, h.inF, hf]; simp

/-- The process has exactly as many slots as the traced elements of all instances together;
the order of the maps does not matter.  If these are more than 65535, it is ended at the start. -/
theorem slots_exact (c : Config) (file : List FileEntry) (events fields : List Entry) (maps : Maps c file events fields)
    (all : List (Elem × Nat)) (once : all.Nodup) (traced : ∀ e i, (e, i) ∈ all ↔ SendsTraced c file e i) :
    number c events fields = if needed c all > 65535 then none else some (needed c all) := by
  obtain ⟨h1, h2⟩ := counted_spec (read_maps maps)
  have hp : (counted c events fields).Perm all :=
    (List.perm_ext_iff_of_nodup h1 once).2 fun p => (h2 p.1 p.2).trans (traced p.1 p.2).symm
  have : needed c (counted c events fields) = needed c all := by
    unfold needed; exact (hp.map _).sum_nat
  rw [number_counted, this]

/-- An element that is created asks for exactly the slots that are configured for it if its samples are traced when they
are sent, and for none otherwise. -/
theorem element_asks (c : Config) (file : List FileEntry) (events fields : List Entry) (maps : Maps c file events fields)
    (e : Elem) (i : Nat) : (SendsTraced c file e i → create c events fields e i = some (.register (c.slots e i))) ∧
      (¬ SendsTraced c file e i → create c events fields e i = none) := by
  have h1 := enabled_iff_asked c file events fields maps e .send i
  have h2 := enabled_iff_asked c file events fields maps e .sendAllocated i
  unfold create
  constructor
  · intro h
    apply if_pos
    rcases h with h | h
    · rw [h1.2 h]; rfl
    · rw [h2.2 h]; simp
  · intro h
    apply if_neg
    intro hn
    rcases Bool.or_eq_true_iff.1 hn with r | r
    · exact h (Or.inl (h1.1 r))
    · exact h (Or.inr (h2.1 r))

/-- If no element is created twice and the calls for one element do not overlap, no assertion of the
tracing code ends the process, whichever elements are created, in any order and at any time. -/
theorem created_once_lives_partial (c : Config) (file : List FileEntry) (events fields : List Entry)
    (maps : Maps c file events fields) (n : Nat) (size : number c events fields = some n) (created : List (Elem × Nat))
    (once : created.Nodup) (ops : List Op) (creates : asked ops = asked (creations c events fields created))
    (alone : Alone (start n) ops) : (run (start n) ops).dead = false := by
  have h := read_maps maps
  obtain ⟨h1, h2⟩ := counted_spec h
  obtain ⟨l, k1, k2, k3⟩ := asked_creations h created
  have hle : needed c l ≤ needed c (counted c events fields) :=
    needed_le c l _ (List.Nodup.sublist k1 once) (fun p hp => (h2 p.1 p.2).2 (k2 p hp))
  have hn : needed c (counted c events fields) = n := by
    rw [number_counted] at size
    split at size
    · cases size
    · exact Option.some.inj size
  refine alive_run ops (single_start n) rfl alone ?_ ?_
  · rw [creates, k3]
    intro k hk
    obtain ⟨p, hp, rfl⟩ := List.mem_map.1 hk
    rcases k2 p hp with r | r <;> exact r.2.2
  · rw [creates, k3]
    show 0 + (l.map fun p => c.slots p.1 p.2).sum ≤ n
    unfold needed at hle hn
    omega

/-- Slots are not given back: an element that is created again after its skeleton was destroyed
asks for its slots again, and the process is ended. -/
theorem created_again_ends_process : ∃ (c : Config) (file : List FileEntry) (events fields : List Entry) (n : Nat)
    (p : Elem × Nat), Maps c file events fields ∧ number c events fields = some n ∧
      (run (start n) (creations c events fields [p])).dead = false ∧
      (run (start n) (creations c events fields [p, p])).dead = true := by
  refine ⟨⟨fun _ => [0], fun _ _ => 1⟩, [⟨⟨0, 0, false⟩, [.send]⟩], [⟨⟨0, 0, false⟩, .send, [0]⟩], [], 1, (⟨0, 0, false⟩, 0),
    ⟨?_, ?_⟩, by decide, by decide, by decide⟩
  · exact List.Perm.of_eq (by decide)
  · exact List.Perm.of_eq (by decide)

/-! ## The hypotheses are met -/

/-- Two instances, an event traced in both ways for both of them, a field for one of them. -/
def demoConfig : Config := ⟨fun s => if s = 0 then [0, 1] else [], fun e i => if e.field then i else i + 1⟩
def demoFile : List FileEntry := [⟨⟨0, 5, false⟩, [.sendAllocated, .send]⟩, ⟨⟨0, 5, true⟩, [.other 3, .sendAllocated, .send]⟩]

example : number demoConfig (parse demoConfig demoFile false) (parse demoConfig demoFile true) = some 4 := by decide
example : Maps demoConfig demoFile (parse demoConfig demoFile false) (parse demoConfig demoFile true) := ⟨.refl _, .refl _⟩
/-- Another order of the map. -/
example : Maps demoConfig demoFile (parse demoConfig demoFile false).reverse (parse demoConfig demoFile true) :=
  ⟨List.reverse_perm _, .refl _⟩
example : creations demoConfig (parse demoConfig demoFile false) (parse demoConfig demoFile true)
    [(⟨0, 5, false⟩, 1), (⟨0, 5, true⟩, 0), (⟨0, 5, true⟩, 1)] = [.register 2, .register 1] := by decide
example : Alone (start 4) [.register 2, .register 1] := ⟨trivial, trivial, trivial⟩
example : ∀ e i, (e, i) ∈ [((⟨0, 5, false⟩ : Elem), 0), (⟨0, 5, false⟩, 1), (⟨0, 5, true⟩, 1)] ↔
    SendsTraced demoConfig demoFile e i := by
  intro e i
  obtain ⟨s, n, f⟩ := e
  simp [SendsTraced, Asked, demoConfig, demoFile]
  grind

end Verif.Props.C89
