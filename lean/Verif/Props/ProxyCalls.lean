import Verif.Proofs.ProxyCalls
/-! C74: arguments and results of method calls are not touched while the application holds pointers to them. -/

namespace Verif.Demo.C74
open Verif.ProxyCalls

/-- Two positions, two arguments and a result. -/
def cfg : Cfg := ⟨2, 2, true⟩
def good (v : Nat) : Bind := ⟨true, true, some v⟩

/-- The application allocates the arguments (pointers 0 and 1), writes them, moves one (pointer 2) and calls (result: pointer 3).
It keeps the result, allocates again (pointers 4 and 5) and drops one of these. -/
def ops : List Op := [.allocate true, .write 0 10, .write 1 20, .move 1, .call [0, 2] (good 30), .allocate true, .drop 4]

theorem proper : ProperRun cfg init ops := by
  refine ⟨by show 0 < cfg.k; decide, trivial, trivial, trivial, ⟨by decide, rfl, ?_⟩, by show 0 < cfg.k; decide, trivial, trivial⟩
  intro i id h
  rcases i with _ | _ | i
  · simp at h; subst h
    exact ⟨⟨.arg 0, 0, true, 10⟩, ⟨by decide +kernel, rfl⟩, rfl⟩
  · simp at h; subst h
    exact ⟨⟨.arg 1, 0, true, 20⟩, ⟨by decide +kernel, rfl⟩, rfl⟩
  · simp at h

end Verif.Demo.C74

namespace Verif.Props.C74
open Verif.ProxyCalls

/-- Storage for arguments is handed out only at a position at which the application holds no pointer to an argument or a result. -/
theorem allocated_position_unused (c : Cfg) (s : St) (h : Reach c s) (buf : Bool) (pos : Nat)
    (he : (step c s (.allocate buf)).log = .allocated pos :: s.log) :
    pos < c.n ∧ ∀ id p, s.Holds id p → p.pos ≠ pos := by
  obtain ⟨hi, hx⟩ := h.inv
  revert he
  unfold step
  split
  · intro he; exact absurd he (by simp)
  · show (allocate c s buf).log = _ → _
    unfold allocate
    split
    · intro he; simp at he
    · rename_i q hq
      obtain ⟨h1, h2⟩ := findSlot_some hq
      split
      · intro he
        have hi' : Inv c { s with log := .allocated q :: s.log } :=
          hi.change (fun _ _ => by cases ‹Cell› <;> rfl) rfl rfl (fun cell _ _ => by cases cell <;> rfl)
        obtain ⟨_, _, _, hl⟩ := inv_createArgs h1 (List.range c.k) hi' List.nodup_range (fun i hi => List.mem_range.mp hi)
          (fun i _ => free_flags hi h2 (.arg i)) (free_flags hi h2 .ret) hx
        rw [hl] at he
        simp only [List.cons.injEq, Ev.allocated.injEq, and_true] at he
        subst he
        exact ⟨h1, (free_iff_not_held hi q).mp h2⟩
      · intro he; exact absurd he (by simp)

/-- The queue is reported as full only if the application holds a pointer at every position, and then always. So a position is
available again as soon as all pointers to it have ended, whether the calls succeeded or not. -/
theorem full_iff (c : Cfg) (s : St) (h : Reach c s) (hd : s.dead = false) (buf : Bool) :
    (step c s (.allocate buf)).log = .full :: s.log ↔ ∀ pos < c.n, ∃ id p, s.Holds id p ∧ p.pos = pos := by
  obtain ⟨hi, hx⟩ := h.inv
  have key : findSlot c s = none ↔ ∀ pos < c.n, ∃ id p, s.Holds id p ∧ p.pos = pos := by
    rw [findSlot_none]
    constructor
    · intro h pos hp
      have := h pos hp
      apply Classical.byContradiction
      intro hn
      have : free c s pos = true := (free_iff_not_held hi pos).mpr (fun id p hh he => hn ⟨id, p, hh, he⟩)
      rw [h pos hp] at this; cases this
    · intro h pos hp
      cases hf : free c s pos with
      | false => rfl
      | true =>
        obtain ⟨id, p, h1, h2⟩ := h pos hp
        exact absurd h2 ((free_iff_not_held hi pos).mp hf id p h1)
  rw [← key]
  unfold step
  rw [hd]
  show (allocate c s buf).log = _ ↔ _
  unfold allocate
  split
  · rename_i hf; simp [hf]
  · rename_i q hq
    obtain ⟨h1, h2⟩ := findSlot_some hq
    rw [hq]
    constructor
    · split
      · intro he
        have hi' : Inv c { s with log := .allocated q :: s.log } :=
          hi.change (fun _ _ => by cases ‹Cell› <;> rfl) rfl rfl (fun cell _ _ => by cases cell <;> rfl)
        obtain ⟨_, _, _, hl⟩ := inv_createArgs h1 (List.range c.k) hi' List.nodup_range (fun i hi => List.mem_range.mp hi)
          (fun i _ => free_flags hi h2 (.arg i)) (free_flags hi h2 .ret) hx
        rw [hl] at he
        simp at he
      · intro he; exact absurd he (by simp)
    · intro h; cases h

/-- Whatever happens to the method, other than a write through the pointer itself, a pointer that the application goes on holding
points to the same place, where the value is unchanged. -/
theorem held_value_stays (c : Cfg) (s : St) (h : Reach c s) (o : Op) (ho : Proper c s o) (id : Nat) (p p' : Ptr)
    (hp : s.Holds id p) (hp' : (step c s o).Holds id p') (hw : ∀ v, o ≠ .write id v) :
    p' = p ∧ (step c s o).val p.cell p.pos = s.val p.cell p.pos := by
  obtain ⟨hi, hx⟩ := h.inv
  obtain ⟨hi', _⟩ := inv_step hi hx o ho
  have := held_same hi o hp hw hp'
  subst this
  exact ⟨rfl, by rw [(hi'.held id p' hp').2.2.1, (hi.held id p' hp).2.2.1]⟩

/-- Two pointers that the application holds never point to the same place. -/
theorem held_distinct (c : Cfg) (s : St) (h : Reach c s) (id id' : Nat) (p p' : Ptr) (hp : s.Holds id p) (hp' : s.Holds id' p')
    (h1 : p.cell = p'.cell) (h2 : p.pos = p'.pos) : id = id' := h.inv.1.once id p id' p' hp hp' h1 h2

/-- A call hands over the values to which the application's pointers point; the assertion fails exactly if these are not of the same
position. Afterwards the application holds none of these pointers. -/
theorem call_passes_arguments (c : Cfg) (s : St) (h : Reach c s) (hd : s.dead = false) (ids : List Nat) (b : Bind)
    (ho : Proper c s (.call ids b)) (hb : b.buf = true) :
    ((step c s (.call ids b)).dead = true ∧ ∃ id ∈ ids, ∃ id' ∈ ids, ∃ p p', s.Holds id p ∧ s.Holds id' p' ∧ p.pos ≠ p'.pos) ∨
    ((step c s (.call ids b)).dead = false ∧ ∃ pos args, (step c s (.call ids b)).log = .called pos args :: s.log ∧
      args.length = c.k ∧ (∀ i id : Nat, ids[i]? = some id → ∃ p, s.Holds id p ∧ p.pos = pos ∧ args[i]? = some (s.val p.cell p.pos)) ∧
      ∀ id ∈ ids, ∀ p, ¬ (step c s (.call ids b)).Holds id p) := by
  obtain ⟨hi, hx⟩ := h.inv
  obtain ⟨ps, hps, hl, hpp⟩ := proper_ptrs ho
  have e : step c s (.call ids b) = call c s ids b := by unfold step; rw [hd]; rfl
  rw [e, call_eq b hps]
  cases hc : commonPos ps with
  | none =>
    left
    refine ⟨rfl, ?_⟩
    rcases commonPos_none hc with hn | ⟨p, hp, q, hq, hne⟩
    · rw [hn] at hl; simp at hl; have := ho.1; omega
    · obtain ⟨i, hip⟩ := List.mem_iff_getElem?.mp hp
      obtain ⟨j, hjq⟩ := List.mem_iff_getElem?.mp hq
      obtain ⟨x, a1, a2, _⟩ := hpp i p hip
      obtain ⟨y, b1, b2, _⟩ := hpp j q hjq
      exact ⟨x, List.mem_of_getElem? a1, y, List.mem_of_getElem? b1, p, q, a2, b2, hne⟩
  | some pos =>
    right
    dsimp only
    obtain ⟨hne, hpos⟩ := commonPos_some hc
    refine ⟨by rw [dead_releaseAll, dead_callAt]; exact hd, pos, (List.range c.k).map (s.argVal pos), ?_, by simp, ?_, ?_⟩
    · rw [log_releaseAll, log_callAt, hb]; simp
    · intro i id hid
      have hlt : i < ids.length := (List.getElem?_eq_some_iff.mp hid).1
      have hil : i < ps.length := by rw [hl, ← ho.2.1]; exact hlt
      obtain ⟨x, k1, k2, k3⟩ := hpp i ps[i] (by rw [List.getElem?_eq_getElem hil])
      rw [hid] at k1; cases k1
      have hq := hpos _ (List.getElem_mem hil)
      refine ⟨ps[i], k2, hq, ?_⟩
      rw [k3, hq, List.getElem?_map, List.getElem?_range (by rw [← hl]; exact hil)]
      rfl
    · intro id hid p hh
      exact ((holds_releaseAll ids _ id p).mp hh).1 hid

/-- The copying call operator hands over the given values, at a position at which the application holds no pointer. -/
theorem copying_call_passes_arguments (c : Cfg) (s : St) (h : Reach c s) (vals : List Nat) (inBuf : Bool) (b : Bind)
    (ho : Proper c s (.callCopy vals inBuf b)) (pos : Nat) (args : List Nat)
    (he : (step c s (.callCopy vals inBuf b)).log = .called pos args :: s.log) :
    args = vals ∧ ∀ id p, s.Holds id p → p.pos ≠ pos := by
  obtain ⟨hi, hx⟩ := h.inv
  revert he
  unfold step
  split
  · intro he; exact absurd he (by simp)
  · show (callCopy c s vals inBuf b).log = _ → _
    unfold callCopy
    split
    · intro he; simp at he
    · rename_i q hq
      obtain ⟨h1, h2⟩ := findSlot_some hq
      split
      · intro he
        obtain ⟨_, _, _, w4, _, _, _, _, w9⟩ := writeArgs_other vals s q 0
        rw [log_callAt, w4] at he
        split at he
        · exact absurd he (by simp)
        · simp only [List.cons.injEq, Ev.called.injEq, and_true] at he
          obtain ⟨rfl, rfl⟩ := he
          refine ⟨?_, (free_iff_not_held hi q).mp h2⟩
          apply List.ext_getElem?
          intro i
          by_cases hlt : i < c.k
          · rw [List.getElem?_map, List.getElem?_range hlt]
            have hv : i < vals.length := by rw [ho.2]; exact hlt
            have := w9 i vals[i] (by rw [List.getElem?_eq_getElem hv])
            rw [Nat.zero_add] at this
            rw [List.getElem?_eq_getElem hv, Option.map_some, this]
          · rw [List.getElem?_eq_none (by simp; omega), List.getElem?_eq_none (by rw [ho.2]; omega)]
      · intro he; exact absurd he (by simp)

/-- A call without arguments is made at a position at which the application holds no pointer. -/
theorem plain_call_position_unused (c : Cfg) (s : St) (h : Reach c s) (b : Bind) (pos : Nat) (args : List Nat)
    (he : (step c s (.callNoArgs b)).log = .called pos args :: s.log) : ∀ id p, s.Holds id p → p.pos ≠ pos := by
  obtain ⟨hi, hx⟩ := h.inv
  revert he
  unfold step
  split
  · intro he; exact absurd he (by simp)
  · show (callNoArgs c s b).log = _ → _
    unfold callNoArgs
    split
    · intro he; simp at he
    · rename_i q hq
      obtain ⟨h1, h2⟩ := findSlot_some hq
      intro he
      rw [log_callAt] at he
      split at he
      · exact absurd he (by simp)
      · simp only [List.cons.injEq, Ev.called.injEq, and_true] at he
        obtain ⟨rfl, rfl⟩ := he
        exact (free_iff_not_held hi q).mp h2

/-- A successful call of a method with a result gives the application a pointer to what the provider has written; a failed one gives
it none and leaves the position free. -/
theorem call_result (c : Cfg) (s : St) (h : Reach c s) (hd : s.dead = false) (ids : List Nat) (b : Bind) (hret : c.hasRet = true)
    (ho : Proper c s (.call ids b)) (pos : Nat) (args : List Nat)
    (he : (step c s (.call ids b)).log = .called pos args :: s.log) :
    (b.ok = true → ∀ v, b.wrote = some v →
      ∃ id p, s.ptr id = none ∧ (step c s (.call ids b)).Holds id p ∧ p.cell = .ret ∧ p.pos = pos ∧
        (step c s (.call ids b)).val .ret pos = v) ∧
    (b.ok = false → ∀ id p, (step c s (.call ids b)).Holds id p → p.pos ≠ pos) := by
  obtain ⟨hi, hx⟩ := h.inv
  obtain ⟨ps, hps, hl, hpp⟩ := proper_ptrs ho
  obtain ⟨hi', _⟩ := inv_step hi hx _ ho
  have e : step c s (.call ids b) = call c s ids b := by unfold step; rw [hd]; rfl
  rw [e] at hi'
  rw [e, call_eq b hps] at he ⊢
  rw [call_eq b hps] at hi'
  cases hc : commonPos ps with
  | none => rw [hc] at he; exact absurd he (by simp)
  | some q =>
    rw [hc] at he hi'
    dsimp only at he hi' ⊢
    obtain ⟨g1, g2, g3⟩ := proper_flags hi hx ho hps hc
    have hb : ¬ (c.hasRet && !b.buf) = true := by
      intro hn
      rw [log_releaseAll, log_callAt, if_pos hn] at he
      exact absurd he (by simp)
    rw [log_releaseAll, log_callAt, if_neg hb] at he
    simp only [List.cons.injEq, Ev.called.injEq, and_true] at he
    obtain ⟨rfl, _⟩ := he
    have hfresh : s.ptr s.next = none := hi.fresh s.next (Nat.le_refl _)
    have hnid : s.next ∉ ids := by
      intro hm
      obtain ⟨i, hid⟩ := List.mem_iff_getElem?.mp hm
      obtain ⟨p, hp, _⟩ := ho.2.2 i _ hid
      rw [hp.1] at hfresh; cases hfresh
    constructor
    · intro hok v hv
      have ec : callAt c s q b = create (doCall c s q b) .ret q := by
        unfold callAt; rw [if_neg hb]; simp [hok, hret]
      have hval : (doCall c s q b).val .ret q = v := by
        show (match b.wrote with | some v => if c.hasRet then upd s.retVal q v else s.retVal | none => s.retVal) q = v
        rw [hv]; simp [hret, upd_self]
      have hh : (callAt c s q b).Holds s.next ⟨.ret, q, true, v⟩ := by
        refine ⟨?_, rfl⟩
        rw [ec, ptr_create, hval]
        exact upd_self _ _ _
      have hh' := (holds_releaseAll ids _ s.next _).mpr ⟨hnid, hh⟩
      exact ⟨s.next, _, hfresh, hh', rfl, rfl, (hi'.held _ _ hh').2.2.1⟩
    · intro hok id p hp hpos
      obtain ⟨hni, hp0⟩ := (holds_releaseAll ids _ id p).mp hp
      have hps : s.Holds id p := by
        have : (callAt c s q b).ptr = s.ptr := by
          unfold callAt; rw [if_neg hb]; simp [hok, doCall]
        unfold St.Holds at hp0 ⊢; rw [this] at hp0; exact hp0
      cases hcell : p.cell with
      | arg i => exact hni (g3 i id p hps hcell hpos)
      | ret =>
        have := (hi.held id p hps).1
        rw [hcell, hpos] at this
        replace this : s.retFlag q = true := this
        rw [g2] at this; cases this

/-- In the example the application holds a result and one argument of the next call; the values are the ones it wrote and got, the call
got its arguments, and the queue is full. -/
example : Reach Demo.C74.cfg (run Demo.C74.cfg init Demo.C74.ops) := ⟨_, Demo.C74.proper, rfl⟩
example : (run Demo.C74.cfg init Demo.C74.ops).ptr 3 = some ⟨.ret, 0, true, 30⟩ ∧
    (run Demo.C74.cfg init Demo.C74.ops).ptr 5 = some ⟨.arg 1, 1, true, 0⟩ ∧
    (run Demo.C74.cfg init (Demo.C74.ops ++ [.allocate true])).log =
      [.full, .allocated 1, .called 0 [10, 20], .allocated 0] := by decide +kernel

/-- Finding: nothing prevents an application from calling a method with pointers that it has moved out of by an earlier call. Then the
result that it still holds is overwritten, and when it drops the first result, the position of the second, which it still holds, is
handed out. -/
theorem moved_out_argument_breaks :
    let s := run ⟨1, 1, true⟩ init [.allocate true, .call [0] (Demo.C74.good 5), .call [0] (Demo.C74.good 6)]
    s.dead = false ∧ s.ptr 1 = some ⟨.ret, 0, true, 5⟩ ∧ s.ptr 2 = some ⟨.ret, 0, true, 6⟩ ∧ s.val .ret 0 = 6 ∧
    (run ⟨1, 1, true⟩ s [.drop 1, .allocate true]).log = .allocated 0 :: s.log := by decide +kernel

/-- Finding: a pointer to a result has the same type as a pointer to an argument, so it can be handed to a call by mistake. Then the
new result is not protected. -/
theorem result_as_argument_breaks :
    let s := run ⟨1, 1, true⟩ init [.allocate true, .call [0] (Demo.C74.good 5), .call [1] (Demo.C74.good 6)]
    s.dead = false ∧ s.ptr 2 = some ⟨.ret, 0, true, 6⟩ ∧
    (run ⟨1, 1, true⟩ s [.allocate true]).log = .allocated 0 :: s.log := by decide +kernel

end Verif.Props.C74
