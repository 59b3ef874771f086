import Verif.Proofs.Sizing
namespace Verif.Sizing
open Verif.Arith Verif.Props.ArithSpec

theorem W_eq : W = 2 ^ 64 := by decide

theorem Ty.Valid.pos {t : Ty} (h : t.Valid) : 0 < t.align := by
  obtain ⟨k, e⟩ := h.power
  rw [e]; exact Nat.two_pow_pos k

theorem pow_dvd_of_le {j k : Nat} (h : 2 ^ j ≤ 2 ^ k) : 2 ^ j ∣ 2 ^ k :=
  Nat.pow_dvd_pow 2 ((Nat.pow_le_pow_iff_right (by omega)).1 h)

theorem Ty.Valid.dvd {lib : Lib} (hl : lib.Valid) {t : Ty} (h : t.Valid) (hf : t.Fundamental lib) : t.align ∣ lib.maxAlign.align := by
  obtain ⟨j, e⟩ := h.power
  obtain ⟨k, e'⟩ := hl.max.power
  unfold Ty.Fundamental at hf
  rw [e, e'] at hf ⊢
  exact pow_dvd_of_le hf

theorem Lib.Valid.page_dvd {lib : Lib} (hl : lib.Valid) : lib.maxAlign.align ∣ 4096 := by
  obtain ⟨k, e⟩ := hl.max.power
  have := hl.page
  rw [e] at this ⊢
  exact pow_dvd_of_le (k := 12) this

theorem Lib.Valid.mem {lib : Lib} (hl : lib.Valid) {t : Ty} (h : t ∈ [lib.block, lib.storage, lib.eventEntry, lib.metaEntry,
    lib.eventStorage, lib.control, lib.controlEntry, lib.pidEntry, lib.slot, lib.logSlot, lib.logNode]) :
    0 < t.align ∧ t.align ∣ lib.maxAlign.align ∧ t.size ≤ 2 ^ 40 ∧ 0 < t.size := by
  obtain ⟨h1, h2⟩ := hl.all t h
  exact ⟨h1.pos, h1.dvd hl h2, h1.modest, h1.nonempty⟩

theorem mgmt_spec {lib : Lib} (hl : lib.Valid) :
    ∃ m, mgmt lib = some m ∧ lib.maxAlign.align ∣ m ∧ m < lib.block.size + lib.maxAlign.align := by
  obtain ⟨-, -, hb, -⟩ := hl.mem (t := lib.block) (by simp)
  have hp := hl.max.pos
  have hpage := hl.page
  have hW := W_eq
  obtain ⟨u1, u2, u3⟩ := up_spec hp lib.block.size
  unfold mgmt
  cases e : alignedSize lib.block.size lib.maxAlign.align with
  | none =>
    exfalso
    have hd : lib.maxAlign.align ∣ W := Nat.dvd_trans hl.page_dvd (by decide)
    have := alignedSize_none hp hd e ⟨u1, u2, fun k hk hle => up_least hp hk hle⟩
    omega
  | some m =>
    have := alignedSize_up (by omega) e
    subst this
    exact ⟨_, rfl, u1, u3⟩

theorem Div.of_dvd {a b : Nat} {l : List Req} (h : Div a l) (hd : a ∣ b) : Div b l :=
  fun x hx => ⟨(h x hx).1, Nat.dvd_trans (h x hx).2 hd⟩

/-- Creating an object and everything in it succeeds iff the size is enough. -/
theorem create_eq {lib : Lib} (hl : lib.Valid) {user base : Nat} {reqs : List Req} (hd : Div lib.maxAlign.align reqs)
    (hm : Mapped lib base user) :
    create lib user base reqs = if ideal 0 reqs ≤ user then some (ideal 0 reqs) else none := by
  obtain ⟨m, e, hdm, hlt⟩ := mgmt_spec hl
  obtain ⟨hb, hb0, hsz⟩ := hm
  have hW := W_eq
  unfold create
  rw [e]
  dsimp only [Option.bind_eq_bind, Option.bind_some]
  unfold ShmAlloc.safeAdd
  rw [if_pos (by omega)]
  dsimp only [Option.bind_some]
  have hbase : Div base reqs := hd.of_dvd (Nat.dvd_trans hl.page_dvd hb)
  rw [place_eq (c := ⟨user + m, m, fun _ => base⟩) hb0 (by dsimp only; omega) reqs m hbase (by dsimp only; omega)]
  dsimp only
  have hid : ideal m reqs = m + ideal 0 reqs := by
    have := ideal_add (b := m) reqs 0 (hd.of_dvd hdm)
    simpa using this
  rw [hid]
  by_cases h : ideal 0 reqs ≤ user
  · rw [if_pos h, if_pos (by omega)]
    dsimp only [Option.bind_some, pure]
    congr 1; omega
  · rw [if_neg h, if_neg (by omega)]; rfl

theorem array_spec {skip : Bool} {n : Nat} {t : Ty} (h : n * t.size < W) :
    ∃ l, array skip n t = some l ∧ l.Sublist [(n * t.size, t.align)] ∧ ((skip = false ∨ 0 < n) → l = [(n * t.size, t.align)]) := by
  unfold array
  rw [if_neg (by omega)]
  by_cases hs : (skip && n == 0) = true
  · rw [if_pos hs]
    refine ⟨[], rfl, by simp, ?_⟩
    simp at hs
    intro h; rcases h with h | h
    · rw [h] at hs; simp at hs
    · omega
  · rw [if_neg hs]
    exact ⟨_, rfl, List.Sublist.refl _, fun _ => rfl⟩

/-- The slot array that is created for an element with `n` slots. -/
def slotReq (lib : Lib) (generic : Bool) (e : Elem) (n : Nat) : Req :=
  if generic then (chunks lib (n * e.sample.size) * lib.maxAlign.size, lib.maxAlign.align) else (n * e.sample.size, e.sample.align)

theorem mul_small {n s : Nat} (hn : n < 2 ^ 18) (hs : s ≤ 2 ^ 40) : n * s ≤ 2 ^ 58 := by
  have h1 : n * s ≤ 2 ^ 18 * 2 ^ 40 := Nat.mul_le_mul (by omega) hs
  have : (2 : Nat) ^ 18 * 2 ^ 40 = 2 ^ 58 := by decide
  omega

theorem chunks_le {lib : Lib} (hl : lib.Valid) {b : Nat} (hb : b ≤ 2 ^ 58) :
    chunks lib b * lib.maxAlign.size ≤ 2 ^ 59 := by
  have hm := hl.max.modest
  have hn := hl.max.nonempty
  have hW := W_eq
  unfold chunks
  rw [Nat.mod_eq_of_lt (by omega)]
  have := Nat.div_mul_le_self (b + lib.maxAlign.size - 1) lib.maxAlign.size
  omega

theorem alignedSize_multiple {s a : Nat} (ha : 0 < a) (hd : a ∣ s) : alignedSize s a = some s := by
  unfold alignedSize
  rw [if_neg (by omega), if_pos (Nat.mod_eq_zero_of_dvd hd)]

theorem elemData_spec {lib : Lib} (hl : lib.Valid) {e : Elem} (hs : e.sample.Valid) (hf : e.sample.Fundamental lib) {skip g : Bool}
    {n subs : Nat} (hp : properties e = some (n, subs)) (hn : n < 2 ^ 18) :
    ∃ l, createElemData lib skip g e = some l ∧ l.Sublist [(lib.eventStorage.size, lib.eventStorage.align), slotReq lib g e n] ∧
      (skip = false ∨ (0 < n ∧ g = false) → l = [(lib.eventStorage.size, lib.eventStorage.align), slotReq lib g e n]) := by
  have hW := W_eq
  have hsm := mul_small hn hs.modest
  unfold createElemData
  rw [hp]
  dsimp only [Option.bind_eq_bind, Option.bind_some]
  cases g with
  | true =>
    unfold Ty.Fundamental at hf
    rw [if_pos rfl, if_neg (by omega), alignedSize_multiple hs.pos hs.multiple]
    dsimp only [Option.bind_some]
    have hc := chunks_le hl hsm
    rw [Nat.mul_comm e.sample.size n, Nat.mod_eq_of_lt (by omega)]
    obtain ⟨l, e1, e2, e3⟩ := array_spec (skip := skip) (n := chunks lib (n * e.sample.size)) (t := lib.maxAlign) (by omega)
    rw [e1]
    dsimp only [Option.bind_some, pure, object, slotReq]
    refine ⟨_, rfl, ?_, ?_⟩
    · rw [if_pos rfl]; exact List.Sublist.cons_cons _ e2
    · intro h
      rcases h with h | h
      · rw [e3 (Or.inl h), if_pos rfl]; rfl
      · cases h.2
  | false =>
    rw [if_neg (by simp)]
    obtain ⟨l, e1, e2, e3⟩ := array_spec (skip := skip) (n := n) (t := e.sample) (by omega)
    rw [e1]
    dsimp only [Option.bind_some, pure, object, slotReq]
    refine ⟨_, rfl, ?_, ?_⟩
    · rw [if_neg (by simp)]; exact List.Sublist.cons_cons _ e2
    · intro h
      rw [e3 (h.imp id (·.1)), if_neg (by simp)]; rfl

theorem flatten_replicate_sublist {x : Req} {l : List Req} (h : l.Sublist [x]) : ∀ k, (List.replicate k l).flatten.Sublist (List.replicate k x)
  | 0 => by simp
  | k + 1 => by
    rw [List.replicate_succ, List.replicate_succ, List.flatten_cons]
    exact h.append (flatten_replicate_sublist h k)

theorem flatten_replicate_single (x : Req) : ∀ k, (List.replicate k [x]).flatten = List.replicate k x
  | 0 => by simp
  | k + 1 => by rw [List.replicate_succ, List.replicate_succ, List.flatten_cons, flatten_replicate_single x k]; rfl

theorem elemControl_spec {lib : Lib} (hl : lib.Valid) {e : Elem} {skip : Bool} {n subs : Nat} (hp : properties e = some (n, subs))
    (hsub : subs < 255) :
    ∃ l, createElemControl lib skip e = some l ∧ l.Sublist (controlArrays lib (n % 65536) subs) ∧
      (skip = false → l = controlArrays lib (n % 65536) subs) := by
  have hW := W_eq
  have hn : n % 65536 < 2 ^ 18 := by have := Nat.mod_lt n (show 0 < 65536 by omega); omega
  have h1 := mul_small hn (hl.mem (t := lib.slot) (by simp)).2.2.1
  have h2 := mul_small hn (hl.mem (t := lib.logSlot) (by simp)).2.2.1
  have h3 := mul_small (show subs < 2 ^ 18 by omega) (hl.mem (t := lib.logNode) (by simp)).2.2.1
  unfold createElemControl controlArrays
  rw [hp]
  dsimp only [Option.bind_eq_bind, Option.bind_some]
  rw [if_neg (by omega), Nat.mod_eq_of_lt (a := n % 65536 * lib.slot.size) (by omega),
    Nat.mod_eq_of_lt (a := n % 65536 * lib.logSlot.size) (by omega), Nat.mod_eq_of_lt (a := subs * lib.logNode.size) (by omega)]
  obtain ⟨l1, a1, b1, c1⟩ := array_spec (skip := skip) (n := n % 65536) (t := lib.slot) (by omega)
  obtain ⟨l2, a2, b2, c2⟩ := array_spec (skip := skip) (n := n % 65536) (t := lib.logSlot) (by omega)
  obtain ⟨l3, a3, b3, c3⟩ := array_spec (skip := skip) (n := subs) (t := lib.logNode) (by omega)
  rw [a1, a2, a3]
  dsimp only [Option.bind_some, pure]
  refine ⟨_, rfl, ?_, ?_⟩
  · refine (List.Sublist.append ?_ (flatten_replicate_sublist b2 subs)).append b2
    exact (b1.append b2).append b3
  · intro h
    rw [c1 (.inl h), c2 (.inl h), c3 (.inl h), flatten_replicate_single]
    rfl

theorem mapM_spec {α : Type} {skip : Prop} {f : α → Option (List Req)} {g : α → List Req} : ∀ (es : List α),
    (∀ e ∈ es, ∃ l, f e = some l ∧ l.Sublist (g e) ∧ (skip → l = g e)) →
    ∃ ls, es.mapM f = some ls ∧ ls.flatten.Sublist (es.flatMap g) ∧ (skip → ls.flatten = es.flatMap g)
  | [], _ => ⟨[], by simp, by simp, by simp⟩
  | e :: es, h => by
    obtain ⟨l, a1, b1, c1⟩ := h e (by simp)
    obtain ⟨ls, a2, b2, c2⟩ := mapM_spec es (fun x hx => h x (List.mem_cons_of_mem _ hx))
    refine ⟨l :: ls, by simp [List.mapM_cons, a1, a2], ?_, ?_⟩
    · rw [List.flatten_cons, List.flatMap_cons]; exact b1.append b2
    · intro hs; rw [List.flatten_cons, List.flatMap_cons, c1 hs, c2 hs]

theorem mapM_some {α β : Type} {f : α → Option β} : ∀ {es : List α} {ls : List β}, es.mapM f = some ls → ∀ e ∈ es, ∃ a, f e = some a
  | [], _, _, e, he => by cases he
  | x :: es, ls, h, e, he => by
    simp only [List.mapM_cons, Option.bind_eq_bind, Option.bind_eq_some_iff] at h
    obtain ⟨a, ha, as, has, -⟩ := h
    rcases List.mem_cons.1 he with rfl | he
    · exact ⟨a, ha⟩
    · exact mapM_some has e he

theorem mapM_flatMap {α β : Type} {f : α → Option β} {k : β → List Req} {g : α → List Req} : ∀ {es : List α} {ls : List β},
    es.mapM f = some ls → (∀ e ∈ es, ∀ a, f e = some a → k a = g e) → ls.flatMap k = es.flatMap g
  | [], ls, h, _ => by simp at h; subst h; rfl
  | x :: es, ls, h, hg => by
    simp only [List.mapM_cons, Option.bind_eq_bind, Option.bind_eq_some_iff, pure, Option.some.injEq] at h
    obtain ⟨a, ha, as, has, rfl⟩ := h
    rw [List.flatMap_cons, List.flatMap_cons, hg x (by simp) a ha, mapM_flatMap has (fun e he => hg e (List.mem_cons_of_mem _ he))]

/-- What is created for an element in the object for data and in an object for control, if no allocation is left out. -/
def elemData (lib : Lib) (g : Bool) (e : Elem) : List Req :=
  [(lib.eventStorage.size, lib.eventStorage.align), slotReq lib g e ((properties e).getD (0, 0)).1]
def elemControl (lib : Lib) (e : Elem) : List Req :=
  controlArrays lib (((properties e).getD (0, 0)).1 % 65536) ((properties e).getD (0, 0)).2

def allData (lib : Lib) (svc : Svc) : List Req :=
  [(lib.storage.size, lib.storage.align), (svc.elems.length * lib.eventEntry.size, lib.eventEntry.align),
    (svc.elems.length * lib.metaEntry.size, lib.metaEntry.align)] ++ svc.elems.flatMap (elemData lib svc.generic)
def allControl (lib : Lib) (svc : Svc) : List Req :=
  [(lib.control.size, lib.control.align), (svc.elems.length * lib.controlEntry.size, lib.controlEntry.align),
    (maxPids * lib.pidEntry.size, lib.pidEntry.align)] ++ svc.elems.flatMap (elemControl lib)

theorem properties_small {e : Elem} (hv : e.Valid) {n subs : Nat} (hp : properties e = some (n, subs)) : n < 2 ^ 18 ∧ subs < 255 := by
  have ht := hv.tracing
  unfold properties at hp
  split at hp
  · rename_i k s hk hs
    simp only [Option.some.injEq, Prod.mk.injEq] at hp
    obtain ⟨h1, h2⟩ := hp
    have := hv.slots k hk
    constructor
    · have he : extraSlots e ≤ 2 := by
        unfold extraSlots getterSlots
        repeat' split
        all_goals omega
      omega
    · subst h2
      unfold subscribers at hs
      split at hs
      · exact hv.maxSubs _ hs
      · split at hs
        · exact hv.maxSubs _ hs
        · cases hs; omega
  · cases hp

theorem createData_spec {lib : Lib} (hl : lib.Valid) {svc : Svc} (hv : svc.Valid) (hf : ∀ e ∈ svc.elems, e.sample.Fundamental lib)
    (hp : ∀ e ∈ svc.elems, ∃ x, properties e = some x) (skip : Bool) :
    ∃ l, createData lib skip svc = some l ∧ l.Sublist (allData lib svc) ∧ (skip = false → l = allData lib svc) := by
  have hW := W_eq
  have hc := hv.count
  have h1 := mul_small (show svc.elems.length < 2 ^ 18 by omega) (hl.mem (t := lib.eventEntry) (by simp)).2.2.1
  have h2 := mul_small (show svc.elems.length < 2 ^ 18 by omega) (hl.mem (t := lib.metaEntry) (by simp)).2.2.1
  obtain ⟨l1, a1, b1, c1⟩ := array_spec (skip := skip) (n := svc.elems.length) (t := lib.eventEntry) (by omega)
  obtain ⟨l2, a2, b2, c2⟩ := array_spec (skip := skip) (n := svc.elems.length) (t := lib.metaEntry) (by omega)
  obtain ⟨ls, a3, b3, c3⟩ := mapM_spec (skip := skip = false) (f := createElemData lib skip svc.generic) (g := elemData lib svc.generic) svc.elems (by
    intro e he
    obtain ⟨⟨n, subs⟩, hpe⟩ := hp e he
    obtain ⟨l, q1, q2, q3⟩ := elemData_spec hl (hv.elems e he).sample (hf e he) (skip := skip) (g := svc.generic) hpe
      (properties_small (hv.elems e he) hpe).1
    refine ⟨l, q1, ?_, ?_⟩
    · unfold elemData; rw [hpe]; exact q2
    · intro h; unfold elemData; rw [hpe]; exact q3 (.inl h))
  unfold createData allData
  rw [a1, a2, a3]
  dsimp only [Option.bind_eq_bind, Option.bind_some, pure, object]
  refine ⟨_, rfl, ?_, ?_⟩
  · refine List.Sublist.append ?_ b3
    exact ((List.Sublist.refl _).append b1).append b2
  · intro h
    rw [c1 (.inl h), c2 (.inl h), c3 h]; rfl

theorem createControl_spec {lib : Lib} (hl : lib.Valid) {svc : Svc} (hv : svc.Valid)
    (hp : ∀ e ∈ svc.elems, ∃ x, properties e = some x) (skip : Bool) :
    ∃ l, createControl lib skip svc = some l ∧ l.Sublist (allControl lib svc) ∧ (skip = false → l = allControl lib svc) := by
  have hW := W_eq
  have hc := hv.count
  have h1 := mul_small (show svc.elems.length < 2 ^ 18 by omega) (hl.mem (t := lib.controlEntry) (by simp)).2.2.1
  have h2 := mul_small (show maxPids < 2 ^ 18 by decide) (hl.mem (t := lib.pidEntry) (by simp)).2.2.1
  obtain ⟨l1, a1, b1, c1⟩ := array_spec (skip := skip) (n := svc.elems.length) (t := lib.controlEntry) (by omega)
  obtain ⟨l2, a2, b2, c2⟩ := array_spec (skip := skip) (n := maxPids) (t := lib.pidEntry) (by omega)
  obtain ⟨ls, a3, b3, c3⟩ := mapM_spec (skip := skip = false) (f := createElemControl lib skip) (g := elemControl lib) svc.elems (by
    intro e he
    obtain ⟨⟨n, subs⟩, hpe⟩ := hp e he
    obtain ⟨l, q1, q2, q3⟩ := elemControl_spec hl (skip := skip) hpe (properties_small (hv.elems e he) hpe).2
    refine ⟨l, q1, ?_, ?_⟩
    · unfold elemControl; rw [hpe]; exact q2
    · intro h; unfold elemControl; rw [hpe]; exact q3 h)
  unfold createControl allControl
  rw [a1, a2, a3]
  dsimp only [Option.bind_eq_bind, Option.bind_some, pure, object]
  refine ⟨_, rfl, ?_, ?_⟩
  · refine List.Sublist.append ?_ b3
    exact ((List.Sublist.refl _).append b1).append b2
  · intro h
    rw [c1 (.inl h), c2 (.inl h), c3 h]; rfl

theorem allData_div {lib : Lib} (hl : lib.Valid) {svc : Svc} (hv : svc.Valid) (hf : ∀ e ∈ svc.elems, e.sample.Fundamental lib) :
    Div lib.maxAlign.align (allData lib svc) := by
  intro x hx
  have k1 := hl.mem (t := lib.storage) (by simp)
  have k2 := hl.mem (t := lib.eventEntry) (by simp)
  have k3 := hl.mem (t := lib.metaEntry) (by simp)
  have k4 := hl.mem (t := lib.eventStorage) (by simp)
  simp only [allData, List.cons_append, List.nil_append, List.mem_cons, List.mem_flatMap, elemData, List.not_mem_nil, or_false] at hx
  rcases hx with rfl | rfl | rfl | ⟨e, he, rfl | rfl⟩
  · exact ⟨k1.1, k1.2.1⟩
  · exact ⟨k2.1, k2.2.1⟩
  · exact ⟨k3.1, k3.2.1⟩
  · exact ⟨k4.1, k4.2.1⟩
  · unfold slotReq
    split
    · exact ⟨hl.max.pos, Nat.dvd_refl _⟩
    · have := (hv.elems e he).sample
      exact ⟨this.pos, this.dvd hl (hf e he)⟩

theorem controlArrays_div {lib : Lib} (hl : lib.Valid) (n m : Nat) : Div lib.maxAlign.align (controlArrays lib n m) := by
  intro x hx
  have k1 := hl.mem (t := lib.slot) (by simp)
  have k2 := hl.mem (t := lib.logSlot) (by simp)
  have k3 := hl.mem (t := lib.logNode) (by simp)
  simp only [controlArrays, List.mem_append, List.mem_cons, List.mem_replicate, List.not_mem_nil, or_false] at hx
  rcases hx with ((rfl | rfl | rfl) | ⟨-, rfl⟩) | rfl
  · exact ⟨k1.1, k1.2.1⟩
  · exact ⟨k2.1, k2.2.1⟩
  · exact ⟨k3.1, k3.2.1⟩
  · exact ⟨k2.1, k2.2.1⟩
  · exact ⟨k2.1, k2.2.1⟩

theorem allControl_div {lib : Lib} (hl : lib.Valid) {svc : Svc} : Div lib.maxAlign.align (allControl lib svc) := by
  intro x hx
  have k1 := hl.mem (t := lib.control) (by simp)
  have k2 := hl.mem (t := lib.controlEntry) (by simp)
  have k3 := hl.mem (t := lib.pidEntry) (by simp)
  simp only [allControl, List.cons_append, List.nil_append, List.mem_cons, List.mem_flatMap] at hx
  rcases hx with rfl | rfl | rfl | ⟨e, he, h⟩
  · exact ⟨k1.1, k1.2.1⟩
  · exact ⟨k2.1, k2.2.1⟩
  · exact ⟨k3.1, k3.2.1⟩
  · exact controlArrays_div hl _ _ x h

theorem Div.sublist {b : Nat} {l m : List Req} (h : Div b m) (hs : l.Sublist m) : Div b l := fun x hx => h x (hs.mem hx)

end Verif.Sizing
