import Verif.Proofs.CallQueue
/-! C65: the storage of the method call slots. -/

namespace Verif.Demo.C65
open Verif.CallQueue

/-- A region of 4096 bytes, 64 of them for the control block. -/
def mem : ShmAlloc.Cfg := ⟨4096, 64, fun _ => 65536⟩

theorem mem_ok : mem.Ok := ⟨by decide, fun _ => by show 0 < 65536 ∧ 65536 + 4096 < 2 ^ 64; decide⟩

/-- Three slots, arguments of 12 bytes aligned to 4, return values of 16 bytes aligned to 8. -/
def info : Info := ⟨some ⟨12, 4⟩, some ⟨16, 8⟩, 3⟩

def queue : Queue := ⟨info, ⟨65636, 36⟩, ⟨65672, 48⟩⟩

theorem info_ok : info.Ok := by
  refine ⟨fun t h => ?_, fun t h => ?_, by decide⟩ <;> cases h
  · exact ⟨by decide, ⟨3, by decide⟩, 2, by decide, by decide⟩
  · exact ⟨by decide, ⟨2, by decide⟩, 3, by decide, by decide⟩

theorem info_fits : info.Fits := by
  refine ⟨fun t h => ?_, fun t h => ?_⟩ <;> cases h <;> decide

theorem built : Built mem 0 98 queue 184 := ⟨mem_ok, by decide, info_ok, by decide +kernel⟩

/-- An argument size and a queue size whose product is 2^64 + 64. -/
def wrap : Info := ⟨some ⟨64, 64⟩, none, 288230376151711745⟩

theorem wrap_ok : wrap.Ok := by
  refine ⟨fun t h => ?_, fun t h => ?_, by decide⟩ <;> cases h
  exact ⟨by decide, ⟨1, by decide⟩, 6, by decide, by decide⟩

end Verif.Demo.C65

namespace Verif.Props.C65
open Verif.CallQueue

/-- A position outside of the queue is rejected, whatever the sizes are. -/
theorem position_outside_rejected (q : Queue) (pos : Nat) (h : q.info.queueSize ≤ pos) :
    q.inArgAt pos = none ∧ q.returnAt pos = none := by
  rw [inArgAt_eq, returnAt_eq]
  constructor <;> split <;> first | rfl | exact getElement_big h

example : Demo.C65.queue.info.queueSize ≤ 3 := by decide

/-- A position inside of the queue is accepted (for sizes whose product is representable). -/
theorem position_inside_accepted_partial (c : ShmAlloc.Cfg) (i cur cur' : Nat) (q : Queue) (hb : Built c i cur q cur')
    (hf : q.info.Fits) (pos : Nat) (h : pos < q.info.queueSize) :
    ((q.inArgAt pos).isSome ↔ q.info.inArg.isSome) ∧ ((q.returnAt pos).isSome ↔ q.info.ret.isSome) := by
  obtain ⟨mid, h1, h2, h3, ha, hr⟩ := construct_some hb
  have hm := (hb.1.mapped i).2
  rw [inArgAt_eq, returnAt_eq]
  constructor
  · cases ht : q.info.inArg with
    | none => simp
    | some t =>
      have hfit := hf.1 t ht
      obtain ⟨g1, g2, g3, g4⟩ := ha t ht
      obtain ⟨e, he⟩ := getElement_of_lt (s := q.inArgs) hfit (by omega) (by rw [g1, mul_of_lt hfit]) h
      simp [he]
  · cases ht : q.info.ret with
    | none => simp
    | some t =>
      have hfit := hf.2 t ht
      obtain ⟨g1, g2, g3, g4⟩ := hr t ht
      obtain ⟨e, he⟩ := getElement_of_lt (s := q.returns) hfit (by omega) (by rw [g1, mul_of_lt hfit]) h
      simp [he]

/-- The storage of a slot has the size and the alignment of its type and lies inside of its queue's storage. -/
theorem slot_inside_partial (c : ShmAlloc.Cfg) (i cur cur' : Nat) (q : Queue) (hb : Built c i cur q cur')
    (hf : q.info.Fits) (pos : Nat) (e : Span) :
    (∀ t, q.info.inArg = some t → q.inArgAt pos = some e → e.size = t.size ∧ t.align ∣ e.data ∧ e.Inside q.inArgs) ∧
    (∀ t, q.info.ret = some t → q.returnAt pos = some e → e.size = t.size ∧ t.align ∣ e.data ∧ e.Inside q.returns) := by
  obtain ⟨mid, h1, h2, h3, ha, hr⟩ := construct_some hb
  have hm := (hb.1.mapped i).2
  rw [inArgAt_eq, returnAt_eq]
  constructor <;> intro t ht he <;> rw [ht] at he
  · obtain ⟨g1, g2, g3, g4⟩ := ha t ht
    obtain ⟨k1, k2, k3, k4⟩ := getElement_some (hf.1 t ht) (by omega) he
    refine ⟨k4, ?_, ?_⟩
    · rw [k3]; exact Nat.dvd_add g2 (Nat.dvd_trans (hb.2.2.1.1 t ht).2.1 (Nat.dvd_mul_right _ _))
    · have : t.size * (pos + 1) ≤ t.size * q.info.queueSize := Nat.mul_le_mul_left _ k1
      rw [Nat.mul_succ] at this
      exact ⟨by omega, by omega⟩
  · obtain ⟨g1, g2, g3, g4⟩ := hr t ht
    obtain ⟨k1, k2, k3, k4⟩ := getElement_some (hf.2 t ht) (by omega) he
    refine ⟨k4, ?_, ?_⟩
    · rw [k3]; exact Nat.dvd_add g2 (Nat.dvd_trans (hb.2.2.1.2.1 t ht).2.1 (Nat.dvd_mul_right _ _))
    · have : t.size * (pos + 1) ≤ t.size * q.info.queueSize := Nat.mul_le_mul_left _ k1
      rw [Nat.mul_succ] at this
      exact ⟨by omega, by omega⟩

/-- The storages of different slots do not overlap, and neither do arguments and return values. -/
theorem slots_apart_partial (c : ShmAlloc.Cfg) (i cur cur' : Nat) (q : Queue) (hb : Built c i cur q cur')
    (hf : q.info.Fits) (pos pos' : Nat) (e e' : Span) :
    (pos ≠ pos' → q.inArgAt pos = some e → q.inArgAt pos' = some e' → e.Apart e') ∧
    (pos ≠ pos' → q.returnAt pos = some e → q.returnAt pos' = some e' → e.Apart e') ∧
    (q.inArgAt pos = some e → q.returnAt pos' = some e' → e.Apart e') := by
  obtain ⟨mid, h1, h2, h3, ha, hr⟩ := construct_some hb
  have hm := (hb.1.mapped i).2
  rw [inArgAt_eq, inArgAt_eq, returnAt_eq, returnAt_eq]
  refine ⟨fun hne he he' => ?_, fun hne he he' => ?_, fun he he' => ?_⟩
  · cases ht : q.info.inArg with
    | none => rw [ht] at he; cases he
    | some t =>
      rw [ht] at he he'
      obtain ⟨g1, g2, g3, g4⟩ := ha t ht
      obtain ⟨_, _, k3, k4⟩ := getElement_some (hf.1 t ht) (by omega) he
      obtain ⟨_, _, l3, l4⟩ := getElement_some (hf.1 t ht) (by omega) he'
      have := apart_of_ne (s := t.size) q.inArgs.data hne
      rw [← k3, ← l3] at this
      obtain ⟨d, z⟩ := e; obtain ⟨d', z'⟩ := e'
      dsimp only at k4 l4 this
      rw [k4, l4]; exact this
  · cases ht : q.info.ret with
    | none => rw [ht] at he; cases he
    | some t =>
      rw [ht] at he he'
      obtain ⟨g1, g2, g3, g4⟩ := hr t ht
      obtain ⟨_, _, k3, k4⟩ := getElement_some (hf.2 t ht) (by omega) he
      obtain ⟨_, _, l3, l4⟩ := getElement_some (hf.2 t ht) (by omega) he'
      have := apart_of_ne (s := t.size) q.returns.data hne
      rw [← k3, ← l3] at this
      obtain ⟨d, z⟩ := e; obtain ⟨d', z'⟩ := e'
      dsimp only at k4 l4 this
      rw [k4, l4]; exact this
  · cases ht : q.info.inArg with
    | none => rw [ht] at he; cases he
    | some t =>
      cases hu : q.info.ret with
      | none => rw [hu] at he'; cases he'
      | some u =>
        rw [ht] at he; rw [hu] at he'
        obtain ⟨g1, g2, g3, g4⟩ := ha t ht
        obtain ⟨f1, f2, f3, f4⟩ := hr u hu
        obtain ⟨k1, k2, k3, k4⟩ := getElement_some (hf.1 t ht) (by omega) he
        obtain ⟨l1, l2, l3, l4⟩ := getElement_some (hf.2 u hu) (by omega) he'
        have : t.size * (pos + 1) ≤ t.size * q.info.queueSize := Nat.mul_le_mul_left _ k1
        rw [Nat.mul_succ] at this
        intro x
        rintro ⟨⟨_, h5⟩, h6, _⟩
        omega

/-- The storages of the queue lie in the part of the region that was free before, and are counted as used afterwards. -/
theorem queue_inside_region (c : ShmAlloc.Cfg) (i cur cur' : Nat) (q : Queue) (hb : Built c i cur q cur') :
    (q.info.inArg.isSome → q.inArgs.Inside ⟨c.base i + cur, cur' - cur⟩) ∧
    (q.info.ret.isSome → q.returns.Inside ⟨c.base i + cur, cur' - cur⟩) ∧ cur' ≤ c.size := by
  obtain ⟨mid, h1, h2, h3, ha, hr⟩ := construct_some hb
  refine ⟨fun h => ?_, fun h => ?_, h3⟩
  · obtain ⟨t, ht⟩ := Option.isSome_iff_exists.mp h
    obtain ⟨g1, g2, g3, g4⟩ := ha t ht
    exact ⟨g3, by dsimp only; omega⟩
  · obtain ⟨t, ht⟩ := Option.isSome_iff_exists.mp h
    obtain ⟨g1, g2, g3, g4⟩ := hr t ht
    exact ⟨by dsimp only; omega, by dsimp only; omega⟩

/-- The hypotheses are met by a queue of three slots. -/
example : Built Demo.C65.mem 0 98 Demo.C65.queue 184 ∧ Demo.C65.queue.info.Fits ∧
    Demo.C65.queue.inArgAt 1 = some ⟨65648, 12⟩ ∧ Demo.C65.queue.returnAt 2 = some ⟨65704, 16⟩ ∧
    Demo.C65.queue.inArgAt 3 = none :=
  ⟨Demo.C65.built, Demo.C65.info_fits, by decide +kernel, by decide +kernel, by decide +kernel⟩

/-- Finding: the products are not checked for overflow. With 64-byte arguments and 2^58 + 1 slots a storage of 64 bytes is
allocated, every position is accepted, and position 1 is behind the storage, position 2^58 is the same slot as position 0. -/
theorem overflow_escapes :
    ∃ q cur', Built Demo.C65.mem 0 64 q cur' ∧ q.info = Demo.C65.wrap ∧ q.inArgs.size = 64 ∧
      q.inArgAt 1 = some ⟨q.inArgs.data + 64, 64⟩ ∧ q.inArgAt (2 ^ 58) = q.inArgAt 0 ∧ (q.inArgAt 0).isSome := by
  refine ⟨⟨Demo.C65.wrap, ⟨65600, 64⟩, ⟨0, 0⟩⟩, 128, ⟨Demo.C65.mem_ok, by decide, Demo.C65.wrap_ok, by decide +kernel⟩, rfl, rfl,
    by decide +kernel, by decide +kernel, by decide +kernel⟩

end Verif.Props.C65
