import Verif.Proofs.AllocTracker

/-!
# C104: a provider fills a sample in place and publishes it

`AllTidy size l` says that the program `l` keeps to the rules which the documentation does not
spell out: no pointer is left when its event is withdrawn or ends, a sample is sent by the event
from which it is, and an empty pointer is neither sent nor written through.  The theorems with
the suffix `_fails` show what happens otherwise.
-/
namespace Verif.Demo.C104
open Verif.AllocPtr

/-- Two events of three slots each. -/
def size : Nat → Nat := fun _ => 3

/-- Two samples of event 0 and one of event 1 are filled, one is published, and one variable has
taken over from another. -/
def prog : List (Step Nat) :=
  [.offer 0 true, .offer 1 true, .allocate 0 (some 0), .allocate 0 (some 1), .allocate 1 (some 0), .write 0 7,
    .write 1 8, .send 0 0, .move 1]

theorem tidy : Verif.Spec.AllocPtr.AllTidy size prog := allTidyB_tidy (by decide +kernel)

end Verif.Demo.C104

namespace Verif.AllocPtr
open Verif.Spec.AllocPtr

theorem at_owned {V : Type} {w : World V} (h : Inv w) {p : Ptr} (hp : p ∈ w.ptrs) {e m s : Nat} (ha : At p e m s) :
    Owned w.events p e s ∧ m = (w.events e).memory := by
  obtain ⟨b, h1, h2⟩ := ha
  obtain ⟨s', ho⟩ := h.list.of_holds hp ⟨b, m, s, h1, h2⟩
  have h3 := ho.1
  rw [h3] at h1
  injection h1 with h1
  subst h1
  injection h2 with h2
  injection h2 with _ h2
  injection h2 with h2 h4
  subst h4
  exact ⟨ho, h2.symm⟩

theorem at_of_owned {V : Type} {ev : Nat → Event V} {p : Ptr} {e s : Nat} (h : Owned ev p e s) :
    At p e (ev e).memory s := by
  rw [h.1]; exact ⟨_, rfl, rfl⟩

theorem nodup_keys {L : List Ptr} {i j : Nat} {p q : Ptr} {k : Nat × Nat} (h : (L.filterMap key).Nodup)
    (hp : L[i]? = some p) (hq : L[j]? = some q) (hk : key p = some k) (hk2 : key q = some k) : i = j := by
  induction L generalizing i j with
  | nil => simp at hp
  | cons x L ih =>
    cases i with
    | zero =>
      cases j with
      | zero => rfl
      | succ j =>
        exfalso
        simp only [List.getElem?_cons_zero, Option.some.injEq] at hp
        subst hp
        rw [List.getElem?_cons_succ] at hq
        rw [List.filterMap_cons, hk, List.nodup_cons] at h
        exact h.1 (List.mem_filterMap.mpr ⟨q, List.mem_of_getElem? hq, hk2⟩)
    | succ i =>
      rw [List.getElem?_cons_succ] at hp
      cases j with
      | zero =>
        exfalso
        simp only [List.getElem?_cons_zero, Option.some.injEq] at hq
        subst hq
        rw [List.filterMap_cons, hk2, List.nodup_cons] at h
        exact h.1 (List.mem_filterMap.mpr ⟨p, List.mem_of_getElem? hp, hk⟩)
      | succ j =>
        rw [List.getElem?_cons_succ] at hq
        have hn : (L.filterMap key).Nodup := by
          rw [List.filterMap_cons] at h
          split at h
          · exact h
          · exact (List.nodup_cons.mp h).2
        rw [ih hn hp hq]

theorem run_append {V : Type} (size : Nat → Nat) (l : List (Step V)) (x : Step V) :
    run size (l ++ [x]) = step (run size l) x := by
  simp [run, List.foldl_append]

theorem step_call {V : Type} {w : World V} (hf : w.fault = none) {e i : Nat} (hl : (w.events e).live = true) {v : World V}
    {r : Ret} (h : send w e i = (v, r)) (hv : v.fault = none) : step w (.send e i) = v.ret r := by
  simp [step, hf, call, hl, h, finish, hv]

end Verif.AllocPtr

namespace Verif.Props.C104
open Verif.AllocPtr Verif.Spec.AllocPtr Verif.Demo.C104

variable {V : Type}

/-- A tidy program never fails an assertion and never touches what is no more. -/
theorem no_fault_partial (size : Nat → Nat) (l : List (Step V)) (h : AllTidy size l) : (run size l).fault = none :=
  (run_inv h).fault

/-- A pointer that is not empty has its place for itself: the event is offered, the memory is
the one that consumers see, the slot is reserved, and no other pointer points to it. -/
theorem own_place_partial (size : Nat → Nat) (l : List (Step V)) (h : AllTidy size l) (i : Nat) (p : Ptr)
    (e m s : Nat) (hp : (run size l).ptrs[i]? = some p) (ha : At p e m s) :
    ((run size l).events e).offered = true ∧ ((run size l).events e).memory = m ∧
      ((run size l).events e).slots[s]? = some Slot.writing ∧
      ∀ j q m', (run size l).ptrs[j]? = some q → At q e m' s → j = i := by
  have hi := run_inv h
  obtain ⟨ho, hm⟩ := at_owned hi (mem_of_get hp) ha
  refine ⟨ho.2.2.1, hm.symm, ho.2.2.2.2, fun j q m' hq hb => ?_⟩
  obtain ⟨ho', _⟩ := at_owned hi (mem_of_get hq) hb
  exact nodup_keys hi.list.uniq hq hp (key_of_owned ho') (key_of_owned ho)

/-- No slot is lost: one that is reserved belongs to a pointer. -/
theorem no_leak_partial (size : Nat → Nat) (l : List (Step V)) (h : AllTidy size l) (e s : Nat)
    (hs : ((run size l).events e).slots[s]? = some Slot.writing) :
    ∃ p ∈ (run size l).ptrs, At p e ((run size l).events e).memory s := by
  have hi := run_inv h
  obtain ⟨p, hp, hk⟩ := List.mem_filterMap.mp (hi.list.held e s hs)
  rcases hi.list.ok p hp with h1 | ⟨e', s', h1⟩
  · rw [key_null h1] at hk; cases hk
  · rw [key_of_owned h1] at hk
    injection hk with hk
    injection hk with hk hk'
    subst hk; subst hk'
    exact ⟨p, hp, at_of_owned h1⟩

/-- `Allocate` gives a pointer if the event is offered and a slot that is not reserved is found;
all other slots, all samples and all other pointers stay as they are. -/
theorem allocate_partial (size : Nat → Nat) (l : List (Step V)) (h : AllTidy size l) (e s : Nat) (y : Slot)
    (ho : ((run size l).events e).offered = true) (hs : ((run size l).events e).slots[s]? = some y)
    (hy : y ≠ Slot.writing) :
    let w := run size l
    let w' := run size (l ++ [.allocate e (some s)])
    w'.log = w.log ++ [Ret.ok] ∧ w'.fault = none ∧
      (∃ p, w'.ptrs = w.ptrs ++ [p] ∧ At p e (w.events e).memory s) ∧
      (w'.events e).slots[s]? = some Slot.writing ∧
      (∀ x n : Nat, (x, n) ≠ (e, s) → (w'.events x).slots[n]? = (w.events x).slots[n]?) ∧
      ∀ x n, (w'.events x).data n = (w.events x).data n := by
  have hi := run_inv h
  have hf := hi.fault
  have hlive := (hi.list.offered e ho).1
  have hcomp := (hi.list.offered e ho).2
  have hl : s < ((run size l).events e).slots.length := (List.getElem?_eq_some_iff.mp hs).1
  have ht : takes ((run size l).events e) (some s) = some s := by
    unfold takes
    cases y with
    | writing => exact absurd rfl hy
    | invalid => simp [hs]
    | ready t => simp [hs]
  dsimp only
  rw [run_append]
  generalize run size l = w at *
  have hst : step w (.allocate e (some s)) = World.ret { w.setEvent e { w.events e with
      slots := (w.events e).slots.set s .writing, count := (w.events e).count + 1 } with
      ptrs := w.ptrs ++ [newPtr e (w.events e).memory s] } .ok := by
    simp [step, hf, call, hlive, allocate, ho, hcomp, ht, finish, World.setEvent]
  rw [hst]
  refine ⟨rfl, hf, ⟨_, rfl, _, rfl, rfl⟩, ?_, fun x n hne => ?_, fun x n => ?_⟩
  · simp [World.ret, World.setEvent, hl]
  · simp only [World.ret, World.setEvent]
    split
    · rename_i hx
      subst hx
      have : s ≠ n := fun hn => hne (by rw [hn])
      exact List.getElem?_set_ne this
    · rfl
  · simp only [World.ret, World.setEvent]
    split
    · rename_i hx; subst hx; rfl
    · rfl

/-- `Allocate` of an event that is not offered, or that has no slot, says so and changes nothing. -/
theorem allocate_refused (size : Nat → Nat) (l : List (Step V)) (e : Nat) (pick : Option Nat)
    (hf : (run size l).fault = none) (hl : ((run size l).events e).live = true)
    (ho : ((run size l).events e).offered = false ∨ pick = none) :
    run size (l ++ [.allocate e pick]) = { run size l with
      log := (run size l).log ++
        [if ((run size l).events e).offered then Ret.bindingFailure else Ret.notOffered] } := by
  rw [run_append]
  generalize run size l = w at *
  rcases ho with ho | rfl
  · simp [step, hf, call, hl, allocate, ho, finish, World.ret]
  · by_cases ho : (w.events e).offered = true
    · by_cases hc : (w.events e).comp = true <;>
        simp [step, hf, call, hl, allocate, ho, hc, finish, World.ret, takes]
    · simp only [Bool.not_eq_true] at ho
      simp [step, hf, call, hl, allocate, ho, finish, World.ret]

/-- `Send` of a sample publishes it in place: it becomes the newest sample of its event and its
content is what has been written, the variable is empty, and nothing else changes. -/
theorem send_partial (size : Nat → Nat) (l : List (Step V)) (h : AllTidy size l) (i : Nat) (p : Ptr) (e m s : Nat)
    (hp : (run size l).ptrs[i]? = some p) (ha : At p e m s) :
    let w := run size l
    let w' := run size (l ++ [.send e i])
    w'.log = w.log ++ [Ret.ok] ∧ w'.fault = none ∧
      (∃ t, (w'.events e).slots[s]? = some (Slot.ready t) ∧ Newer (w.events e) t) ∧
      (∃ q, w'.ptrs = w.ptrs.set i q ∧ Empty q) ∧
      (∀ x n : Nat, (x, n) ≠ (e, s) → (w'.events x).slots[n]? = (w.events x).slots[n]?) ∧
      ∀ x n, (w'.events x).data n = (w.events x).data n := by
  have hi := run_inv h
  have hf := hi.fault
  obtain ⟨ho, _⟩ := at_owned hi (mem_of_get hp) ha
  have hl : s < ((run size l).events e).slots.length := (List.getElem?_eq_some_iff.mp ho.2.2.2.2).1
  dsimp only
  rw [run_append]
  generalize run size l = w at *
  rw [step_call hf ho.2.1 (send_eq hi hp ho) hf]
  refine ⟨rfl, hf, ⟨(w.events e).stamp + 1, ?_, fun n u hu => ?_⟩, ⟨_, rfl, empty_blank⟩, fun x n hne => ?_, fun x n => ?_⟩
  · simp [World.ret, World.setEvent, World.put, hl]
  · exact Nat.lt_succ_of_le (hi.list.stamp e n u hu)
  · simp only [World.ret, World.setEvent, World.put]
    split
    · rename_i hx
      subst hx
      have : s ≠ n := fun hn => hne (by rw [hn])
      exact List.getElem?_set_ne this
    · rfl
  · simp only [World.ret, World.setEvent, World.put]
    split
    · rename_i hx; subst hx; rfl
    · rfl

/-- `Send` to an event that is not offered is refused: nothing is published, whatever the variable
holds. The variable is empty afterwards and its slot, of another event, is given back. -/
theorem send_refused (size : Nat → Nat) (l : List (Step V)) (h : AllTidy size l) (i : Nat) (p : Ptr) (e : Nat)
    (hp : (run size l).ptrs[i]? = some p) (hl : ((run size l).events e).live = true)
    (ho : ((run size l).events e).offered = false) :
    let w := run size l
    let w' := run size (l ++ [.send e i])
    w'.log = w.log ++ [Ret.notOffered] ∧ w'.fault = none ∧ (∃ q, w'.ptrs = w.ptrs.set i q ∧ Empty q) ∧
      (∀ x n t : Nat, (w'.events x).slots[n]? = some (Slot.ready t) ↔ (w.events x).slots[n]? = some (Slot.ready t)) ∧
      (∀ x m n, At p x m n → (w'.events x).slots[n]? = some Slot.invalid) ∧
      ∀ x n, (w'.events x).data n = (w.events x).data n := by
  have hi := run_inv h
  have hf := hi.fault
  dsimp only
  rw [run_append]
  have hok := hi.list.ok p (mem_of_get hp)
  have hat : ∀ x m n, At p x m n → Owned (run size l).events p x n := fun x m n ha =>
    (at_owned hi (mem_of_get hp) ha).1
  generalize run size l = w at *
  have hse : send w e i = (destroyPtr (w.put i {}) p, .notOffered) := by
    simp [send, hp, World.put, ho]
  rcases hok with h0 | ⟨x, s, hx⟩
  · rw [destroy_null (w := w.put i {}) h0 hf] at hse
    rw [step_call hf hl hse hf]
    refine ⟨rfl, hf, ⟨_, rfl, empty_blank⟩, fun x n t => Iff.rfl, fun x m n ha => ?_, fun x n => rfl⟩
    have := hat x m n ha
    rw [this.1] at h0
    exact absurd h0.1 (by simp [newPtr])
  · have hc := hi.list.count_ne (mem_of_get hp) hx
    rw [destroy_owned (w := w.put i {}) hf hx hc] at hse
    rw [step_call hf hl hse hf]
    have hlen : s < (w.events x).slots.length := (List.getElem?_eq_some_iff.mp hx.2.2.2.2).1
    refine ⟨rfl, hf, ⟨_, rfl, empty_blank⟩, fun y n t => ?_, fun y m n ha => ?_, fun y n => ?_⟩
    · simp only [World.ret, World.setEvent, World.put]
      split
      · rename_i hy
        subst hy
        by_cases hn : s = n
        · subst hn
          rw [hx.2.2.2.2]
          simp [hlen]
        · rw [List.getElem?_set_ne hn]
      · exact Iff.rfl
    · have h2 := hat y m n ha
      have h3 := hx.1.symm.trans h2.1
      have hxy : x = y ∧ s = n := by
        simp only [newPtr, Ptr.mk.injEq] at h3
        simp at h3
        simp_all
      obtain ⟨rfl, rfl⟩ := hxy
      simp [World.ret, World.setEvent, World.put, hlen]
    · simp only [World.ret, World.setEvent, World.put]
      split
      · rename_i hy; subst hy; rfl
      · rfl

/-- `Send` of a value publishes the value as the newest sample, in a slot that no pointer has. -/
theorem send_copy_partial (size : Nat → Nat) (l : List (Step V)) (h : AllTidy size l) (e s : Nat) (v : V) (y : Slot)
    (ho : ((run size l).events e).offered = true) (hs : ((run size l).events e).slots[s]? = some y)
    (hy : y ≠ Slot.writing) :
    let w := run size l
    let w' := run size (l ++ [.sendCopy e v (some s)])
    w'.log = w.log ++ [Ret.ok] ∧ w'.fault = none ∧
      (∃ t, (w'.events e).slots[s]? = some (Slot.ready t) ∧ Newer (w.events e) t) ∧
      (w'.events e).data s = some v ∧
      (∃ q, w'.ptrs = w.ptrs ++ [q] ∧ Empty q) ∧
      ∀ x n : Nat, (x, n) ≠ (e, s) → (w'.events x).slots[n]? = (w.events x).slots[n]? ∧
        (w'.events x).data n = (w.events x).data n := by
  have hi := run_inv h
  have hf := hi.fault
  have hlive := (hi.list.offered e ho).1
  have hl : s < ((run size l).events e).slots.length := (List.getElem?_eq_some_iff.mp hs).1
  have ht : takes ((run size l).events e) (some s) = some s := by
    unfold takes
    cases y with
    | writing => exact absurd rfl hy
    | invalid => simp [hs]
    | ready t => simp [hs]
  dsimp only
  rw [run_append]
  generalize run size l = w at *
  obtain ⟨w', h1, h2, h3, h4, h5⟩ := sendCopy_eq hi v ht ho
  have hst : step w (.sendCopy e v (some s)) = w'.ret .ok := by
    simp [step, hf, call, hlive, h1, finish, h2.fault]
  rw [hst]
  refine ⟨by simp [World.ret, h4], h2.fault, ⟨(w.events e).stamp + 1, ?_, fun n u hu => ?_⟩, ?_, ⟨_, h3, empty_blank⟩,
    fun x n hne => ?_⟩
  · simp [World.ret, h5, upd, hl]
  · exact Nat.lt_succ_of_le (hi.list.stamp e n u hu)
  · simp [World.ret, h5, upd]
  · simp only [World.ret, h5, upd]
    split
    · rename_i hx
      subst hx
      have hn : s ≠ n := fun hn => hne (by rw [hn])
      have hn' : n ≠ s := fun h => hn h.symm
      exact ⟨List.getElem?_set_ne hn, by simp [hn']⟩
    · exact ⟨rfl, rfl⟩

/-- A pointer that ends, or is reset, gives its slot back, and nothing else changes. -/
theorem give_back_partial (size : Nat → Nat) (l : List (Step V)) (h : AllTidy size l) (i : Nat) (p : Ptr) (e m s : Nat)
    (hp : (run size l).ptrs[i]? = some p) (ha : At p e m s) (x : Step V) (hx : x = .drop i ∨ x = .reset i) :
    let w := run size l
    let w' := run size (l ++ [x])
    w'.log = w.log ∧ w'.fault = none ∧ (w'.events e).slots[s]? = some Slot.invalid ∧
      (∃ q, w'.ptrs = w.ptrs.set i q ∧ Empty q) ∧
      (∀ x n : Nat, (x, n) ≠ (e, s) → (w'.events x).slots[n]? = (w.events x).slots[n]?) ∧
      ∀ x n, (w'.events x).data n = (w.events x).data n := by
  have hi := run_inv h
  have hf := hi.fault
  obtain ⟨ho, _⟩ := at_owned hi (mem_of_get hp) ha
  have hl : s < ((run size l).events e).slots.length := (List.getElem?_eq_some_iff.mp ho.2.2.2.2).1
  dsimp only
  rw [run_append]
  generalize run size l = w at *
  have hc := hi.list.count_ne (mem_of_get hp) ho
  have hst : ∃ q, Empty q ∧ step w x = (w.put i q).setEvent e { w.events e with
      slots := (w.events e).slots.set s .invalid, count := (w.events e).count - 1 } := by
    rcases hx with rfl | rfl
    · refine ⟨{}, empty_blank, ?_⟩
      have : step w (.drop i) = destroyPtr (w.put i {}) p := by simp [step, hf, drop, hp]
      rw [this, destroy_owned (w := w.put i {}) hf ho hc]; rfl
    · refine ⟨p.cleared, empty_cleared p, ?_⟩
      have : step w (.reset i) = resetPtr (w.put i p.cleared) p := by simp [step, hf, reset, hp]
      rw [this, reset_owned (w := w.put i p.cleared) hf ho hc]; rfl
  obtain ⟨q, hq, hst⟩ := hst
  rw [hst]
  refine ⟨rfl, hf, ?_, ⟨q, rfl, hq⟩, fun x n hne => ?_, fun x n => ?_⟩
  · simp [World.setEvent, World.put, hl]
  · simp only [World.setEvent, World.put]
    split
    · rename_i hx
      subst hx
      have : s ≠ n := fun hn => hne (by rw [hn])
      exact List.getElem?_set_ne this
    · rfl
  · simp only [World.setEvent, World.put]
    split
    · rename_i hx; subst hx; rfl
    · rfl

/-- A write through a pointer changes the sample at its place and nothing else. -/
theorem write_partial (size : Nat → Nat) (l : List (Step V)) (h : AllTidy size l) (i : Nat) (p : Ptr) (e m s : Nat)
    (hp : (run size l).ptrs[i]? = some p) (ha : At p e m s) (v : V) :
    let w := run size l
    let w' := run size (l ++ [.write i v])
    w'.fault = none ∧ w'.ptrs = w.ptrs ∧ w'.log = w.log ∧ (w'.events e).data s = some v ∧
      (∀ x, (w'.events x).slots = (w.events x).slots) ∧
      ∀ x n, (x, n) ≠ (e, s) → (w'.events x).data n = (w.events x).data n := by
  have hi := run_inv h
  have hf := hi.fault
  obtain ⟨ho, _⟩ := at_owned hi (mem_of_get hp) ha
  dsimp only
  rw [run_append]
  generalize run size l = w at *
  have hst : step w (.write i v) = write w i v := by simp [step, hf]
  rw [hst, write_eq hp ho]
  refine ⟨hf, rfl, rfl, by simp [World.setEvent], fun x => ?_, fun x n hne => ?_⟩
  · simp only [World.setEvent]
    split
    · rename_i hx; subst hx; rfl
    · rfl
  · simp only [World.setEvent]
    split
    · rename_i hx
      subst hx
      have : n ≠ s := fun hn => hne (by rw [hn])
      simp [this]
    · rfl

/-- As long as the process goes on, and whatever the provider does: a pointer that is not empty
belongs to an event that exists, and an event that ends before its pointers ends the process. -/
theorem event_outlives (size : Nat → Nat) (l : List (Step V)) (hf : (run size l).fault = none) (p : Ptr)
    (hp : p ∈ (run size l).ptrs) (e : Nat) (hh : Holds p e) :
    ((run size l).events e).live = true ∧
      (run size (l ++ [.destroyEvent e])).fault = some Fault.assertion := by
  have ht := run_trk hf
  have hg := (ht.pair p hp e).mp hh
  have hl := ht.live p hp e hg
  refine ⟨hl, ?_⟩
  have hc : ((run size l).events e).count ≠ 0 := by
    have h1 := ht.count e
    rw [h1]
    have : 0 < (run size l).ptrs.countP (fun p => p.guard == some e) := List.countP_pos_iff.mpr ⟨p, hp, by simp [hg]⟩
    omega
  rw [run_append]
  generalize run size l = w at *
  have hl : (w.events e).live = true := hl
  simp [step, hf, destroyEvent, hl, hc, World.fail]

/-- An event without pointers ends, and the process goes on. -/
theorem event_ends (size : Nat → Nat) (l : List (Step V)) (hf : (run size l).fault = none) (e : Nat)
    (hn : ∀ p ∈ (run size l).ptrs, ¬ Holds p e) :
    (run size (l ++ [.destroyEvent e])).fault = none ∧
      ((run size (l ++ [.destroyEvent e])).events e).live = false := by
  have ht := run_trk hf
  have hc : ((run size l).events e).count = 0 := by
    have h1 := ht.count e
    rw [h1, List.countP_eq_zero]
    intro p hp hg
    exact hn p hp ((ht.pair p hp e).mpr (by simpa using hg))
  rw [run_append]
  generalize run size l = w at *
  by_cases hl : (w.events e).live = true
  · simp [step, hf, destroyEvent, hl, hc, World.setEvent]
  · simp only [Bool.not_eq_true] at hl
    simp [step, hf, destroyEvent, hl]

/-- The content of a sample stays until its own pointer writes it: no other step of a tidy
program, and no write through another pointer, changes it. -/
theorem content_partial (size : Nat → Nat) (l : List (Step V)) (x : Step V) (h : AllTidy size (l ++ [x])) (i : Nat)
    (p : Ptr) (e m s : Nat) (hp : (run size l).ptrs[i]? = some p) (ha : At p e m s) (hx : ∀ v, x ≠ .write i v) :
    ((run size (l ++ [x])).events e).data s = ((run size l).events e).data s := by
  have hl : AllTidy size l := fun a y b hab => h a y (b ++ [x]) (by rw [hab]; simp)
  have ht : Tidy (run size l) x := h l x [] rfl
  have hi := run_inv hl
  obtain ⟨ho, _⟩ := at_owned hi (mem_of_get hp) ha
  rw [run_append]
  refine step_data hi ho.2.2.2.2 ht fun j v hv q m' hq hb => ?_
  obtain ⟨ho', _⟩ := at_owned hi (mem_of_get hq) hb
  have := nodup_keys hi.list.uniq hq hp (key_of_owned ho') (key_of_owned ho)
  subst this
  exact hx v hv

/-- To withdraw an event or to offer it again on the memory that is still there takes nothing from
consumers: a published sample stays published, with its content. -/
theorem published_stays (size : Nat → Nat) (l : List (Step V)) (e : Nat) (x : Step V)
    (hx : x = .stopOffer e ∨ x = .offer e false) (e' s t : Nat)
    (hs : ((run size l).events e').slots[s]? = some (Slot.ready t)) :
    ((run size (l ++ [x])).events e').slots[s]? = some (Slot.ready t) ∧
      ((run size (l ++ [x])).events e').data s = ((run size l).events e').data s := by
  rw [run_append]
  generalize run size l = w at *
  by_cases hf : w.fault.isSome = true
  · rcases hx with rfl | rfl <;> simp [step, hf, hs]
  · simp only [Bool.not_eq_true] at hf
    rcases hx with rfl | rfl
    · by_cases ho : (w.events e).offered = true
      · by_cases he : e' = e
        · subst he; simp [step, hf, stopOffer, ho, World.setEvent, hs]
        · simp [step, hf, stopOffer, ho, World.setEvent, he, hs]
      · simp [step, hf, stopOffer, ho, hs]
    · by_cases ho : (!(w.events e).live || (w.events e).offered) = true
      · have : step w (.offer e false) = w := by simp only [step, hf, Bool.false_eq_true, if_false, offer, ho, if_true]
        rw [this]; exact ⟨hs, rfl⟩
      · have : step w (.offer e false) = w.setEvent e { w.events e with
            offered := true, comp := true, memory := (w.events e).memory + 1, slots := (w.events e).slots.map cleaned
            stamp := latest ((w.events e).slots.map cleaned) } := by
          simp only [step, hf, Bool.false_eq_true, if_false, offer, ho]
        rw [this]
        by_cases he : e' = e
        · subst he; simp [World.setEvent, List.getElem?_map, hs, cleaned]
        · simp [World.setEvent, he, hs]

/-- An event that is offered on new memory has no sample, and one that is offered again has no
reserved slot: what was not published before is not published now. -/
theorem offer_frees (size : Nat → Nat) (l : List (Step V)) (e : Nat) (fresh : Bool) (hf : (run size l).fault = none)
    (hl : ((run size l).events e).live = true) (ho : ((run size l).events e).offered = false) :
    let w := run size l
    let w' := run size (l ++ [.offer e fresh])
    w'.fault = none ∧ (w'.events e).offered = true ∧
      (fresh = true → ∀ s : Nat, s < (w.events e).size → (w'.events e).slots[s]? = some Slot.invalid ∧ (w'.events e).data s = none) ∧
      (fresh = false → ∀ s : Nat, (w.events e).slots[s]? = some Slot.writing → (w'.events e).slots[s]? = some Slot.invalid) := by
  dsimp only
  rw [run_append]
  generalize run size l = w at *
  have : step w (.offer e fresh) = offer w e fresh := by simp [step, hf]
  rw [this]
  refine ⟨by simp [offer, hl, ho, World.setEvent, hf], by simp [offer, hl, ho, World.setEvent], fun hx s hs => ?_, fun hx s hs => ?_⟩
  · subst hx
    simp [offer, hl, ho, World.setEvent, List.getElem?_replicate, hs]
  · subst hx
    simp [offer, hl, ho, World.setEvent, List.getElem?_map, hs, cleaned]

/-- **Violated.** A pointer that is left when the event is withdrawn reaches into an object that
is no more as soon as it ends. -/
theorem ends_after_stop_offer_fails :
    (run size [.offer 0 true, .allocate 0 (some 0), .stopOffer 0, .drop 0] : World Nat).fault = some Fault.undefined := by
  decide +kernel

/-- **Violated.** `Send` of a sample after the event has been withdrawn should return
`kNotOffered`; the end of its parameter reaches into an object that is no more. -/
theorem send_after_stop_offer_fails :
    (run size [.offer 0 true, .allocate 0 (some 0), .stopOffer 0, .send 0 0] : World Nat).fault =
      some Fault.undefined := by
  decide +kernel

/-- **Violated.** A pointer that is kept while the event is withdrawn and offered again gives
back the slot of another pointer; then two pointers are allocated the same slot. -/
theorem kept_pointer_fails :
    let w : World Nat := run size [.offer 0 true, .allocate 0 (some 0), .stopOffer 0, .offer 0 true,
      .allocate 0 (some 0), .drop 0, .allocate 0 (some 0)]
    w.fault = none ∧ w.log = [Ret.ok, Ret.ok, Ret.ok] ∧ ∃ p q, w.ptrs[1]? = some p ∧ w.ptrs[2]? = some q ∧
      At p 0 2 0 ∧ At q 0 2 0 :=
  ⟨by decide +kernel, by decide +kernel, _, _, rfl, rfl, ⟨_, rfl, rfl⟩, ⟨_, rfl, rfl⟩⟩

/-- **Violated.** `Send` with a sample of another event succeeds: a slot of the wrong event, into
which somebody else is writing, is published, and the sample that was sent is not. -/
theorem other_event_fails :
    let l : List (Step Nat) := [.offer 0 true, .offer 1 true, .allocate 0 (some 0), .allocate 1 (some 0), .write 0 7]
    let w := run size (l ++ [.send 1 0])
    w.fault = none ∧ w.log = [Ret.ok, Ret.ok, Ret.ok] ∧ (w.events 1).slots[0]? = some (Slot.ready 1) ∧
      (w.events 1).data 0 = none ∧ (w.events 0).slots[0]? = some Slot.invalid ∧
      ∃ p, w.ptrs[1]? = some p ∧ At p 1 1 0 :=
  ⟨by decide +kernel, by decide +kernel, by decide +kernel, by decide +kernel, by decide +kernel, _, rfl, _, rfl, rfl⟩

/-- **Violated.** `Send` with an empty pointer does not return an error: the process ends. -/
theorem empty_pointer_fails :
    (run size [.offer 0 true, .allocate 0 (some 0), .send 0 0, .send 0 0] : World Nat).fault = some Fault.assertion := by
  decide +kernel

/-- **Violated.** Unlike that of `std::unique_ptr`, the move assignment does not give up the old
sample: its slot stays reserved. -/
theorem assign_keeps_fails :
    let w : World Nat := run size [.offer 0 true, .allocate 0 (some 0), .allocate 0 (some 1), .assign 0 1]
    w.fault = none ∧ (w.events 0).slots[0]? = some Slot.writing ∧ ∃ q, w.ptrs[1]? = some q ∧ At q 0 1 0 :=
  ⟨by decide +kernel, by decide +kernel, _, rfl, _, rfl, rfl⟩

/-! ## Cases that meet the hypotheses -/

example : (run size prog).fault = none := no_fault_partial _ _ tidy

/-- The variable 3 has taken over the second sample of event 0. -/
example : ∃ p, (run size prog).ptrs[3]? = some p ∧ At p 0 1 1 ∧ ((run size prog).events 0).data 1 = some 8 ∧
    ((run size prog).events 0).slots = [Slot.ready 1, Slot.writing, Slot.invalid] :=
  ⟨_, rfl, ⟨_, rfl, rfl⟩, by decide +kernel, by decide +kernel⟩

example : ∃ t, ((run size (prog ++ [.send 0 3])).events 0).slots[1]? = some (Slot.ready t) ∧
    Newer ((run size prog).events 0) t :=
  (send_partial size prog tidy 3 _ 0 1 1 rfl ⟨_, rfl, rfl⟩).2.2.1

-- the sample of event 0 is given to event 2, which is not offered
example : (run size (prog ++ [.send 2 3])).log = (run size prog).log ++ [Ret.notOffered] ∧
    ((run size (prog ++ [.send 2 3])).events 0).slots[1]? = some Slot.invalid := by
  have h := send_refused size prog tidy 3 _ 2 rfl (by decide +kernel) (by decide +kernel)
  exact ⟨h.1, h.2.2.2.2.1 0 1 1 ⟨_, rfl, rfl⟩⟩

example : ((run size (prog ++ [.write 3 9])).events 0).data 1 = some 9 :=
  (write_partial size prog tidy 3 _ 0 1 1 rfl ⟨_, rfl, rfl⟩ 9).2.2.2.1

example : ((run size (prog ++ [.drop 3])).events 0).slots[1]? = some Slot.invalid :=
  (give_back_partial size prog tidy 3 _ 0 1 1 rfl ⟨_, rfl, rfl⟩ _ (Or.inl rfl)).2.2.1

example : ∃ p ∈ (run size prog).ptrs, At p 0 1 1 :=
  no_leak_partial size prog tidy 0 1 (by decide +kernel)

example : (run size (prog ++ [.allocate 0 (some 2)])).log = (run size prog).log ++ [Ret.ok] :=
  (allocate_partial size prog tidy 0 2 .invalid (by decide +kernel) (by decide +kernel) (by simp)).1

example : ((run size (prog ++ [.sendCopy 0 5 (some 0)])).events 0).data 0 = some 5 :=
  (send_copy_partial size prog tidy 0 0 5 (.ready 1) (by decide +kernel) (by decide +kernel)
    (by simp)).2.2.2.1

example : (run size (prog ++ [.allocate 2 (some 0)])).log = (run size prog).log ++ [Ret.notOffered] := by
  rw [allocate_refused size prog 2 (some 0) (by decide +kernel) (by decide +kernel) (Or.inl (by decide +kernel))]
  decide +kernel

example : (run size (prog ++ [.destroyEvent 0])).fault = some Fault.assertion :=
  (event_outlives size prog (by decide +kernel) _ (mem_of_get (i := 3) rfl) 0 ⟨_, _, _, rfl, rfl⟩).2

example : (run size (prog ++ [.destroyEvent 2])).fault = none :=
  (event_ends size prog (by decide +kernel) 2 (fun p hp hh => by
    have h : (run size prog).ptrs.all (fun p => !holdsB p 2) = true := by decide +kernel
    have := List.all_eq_true.mp h p hp
    rw [(holdsB_iff p 2).mpr hh] at this; cases this)).1

example : ((run size (prog ++ [.write 2 4])).events 0).data 1 = some 8 :=
  (content_partial size prog (.write 2 4) (allTidyB_tidy (by decide +kernel)) 3 _ 0 1 1 rfl ⟨_, rfl, rfl⟩
    (by simp)).trans (by decide +kernel)

/-- The sample that was published before the event was withdrawn. -/
example : ((run size ([.offer 0 true, .sendCopy 0 5 (some 1), .stopOffer 0] ++ [.offer 0 false]) : World Nat).events 0).data 1 =
    some 5 :=
  (published_stays size _ 0 _ (Or.inr rfl) 0 1 1 (by decide +kernel)).2.trans (by decide +kernel)

example : ((run size ([.offer 0 true, .allocate 0 (some 1), .stopOffer 0] ++ [.offer 0 false]) : World Nat).events 0).slots[1]? =
    some Slot.invalid :=
  (offer_frees size _ 0 false (by decide +kernel) (by decide +kernel) (by decide +kernel)).2.2.2 rfl 1 (by decide +kernel)

end Verif.Props.C104
