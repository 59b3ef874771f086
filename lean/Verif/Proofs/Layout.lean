import Verif.Spec.Layout
/-! Helper lemmas for C106. -/
namespace Verif.Layout
open Verif.ElementFqId (Id) 
open Verif.Spec.Layout

theorem eq_iff {a b : Id} : ElementFqId.eq a b = true ↔ Same a b := by
  unfold ElementFqId.eq Same
  simp only [Bool.and_eq_true, beq_iff_eq]
  exact ⟨fun h => ⟨h.1.1, h.2, h.1.2⟩, fun h => ⟨⟨h.1, h.2.2⟩, h.2.1⟩⟩

theorem Same.refl (a : Id) : Same a a := ⟨rfl, rfl, rfl⟩
theorem Same.symm {a b : Id} (h : Same a b) : Same b a := ⟨h.1.symm, h.2.1.symm, h.2.2.symm⟩
theorem Same.trans {a b c : Id} (h : Same a b) (g : Same b c) : Same a c :=
  ⟨h.1.trans g.1, h.2.1.trans g.2.1, h.2.2.trans g.2.2⟩

variable {V : Type}

theorem find_none {l : List (Id × V)} {k : Id} : findIn l k = none ↔ ∀ x ∈ l, ¬ Same x.1 k := by
  induction l with
  | nil => simp [findIn]
  | cons x l ih =>
    obtain ⟨a, v⟩ := x
    unfold findIn
    by_cases h : ElementFqId.eq a k = true
    · rw [if_pos h]
      constructor
      · intro h; cases h
      · intro h2; exact absurd (eq_iff.mp h) (h2 (a, v) List.mem_cons_self)
    · rw [if_neg h, ih]
      constructor
      · intro h2 x hx
        rcases List.mem_cons.mp hx with rfl | hx
        · exact fun g => h (eq_iff.mpr g)
        · exact h2 x hx
      · intro h2 x hx; exact h2 x (List.mem_cons_of_mem _ hx)

theorem find_some {l : List (Id × V)} {k : Id} {a : Id} {v : V} (hd : l.Pairwise (fun x y => ¬ Same x.1 y.1))
    (hm : (a, v) ∈ l) (hs : Same a k) : findIn l k = some v := by
  induction l with
  | nil => cases hm
  | cons x l ih =>
    obtain ⟨b, w⟩ := x
    unfold findIn
    rw [List.pairwise_cons] at hd
    rcases List.mem_cons.mp hm with h | h
    · injection h with h1 h2
      subst h1 h2
      rw [if_pos (eq_iff.mpr hs)]
    · have : ¬ (ElementFqId.eq b k = true) := fun g => hd.1 _ h (Same.trans (eq_iff.mp g) (Same.symm hs))
      rw [if_neg this]
      exact ih hd.2 h

theorem emplace_some {m m' : Map V} {k : Id} {v : V} (h : m.emplace k v = some m') :
    (∀ x ∈ m.items, ¬ Same x.1 k) ∧ m.items.length < m.cap ∧ m' = { m with items := m.items ++ [(k, v)] } := by
  unfold Map.emplace at h
  split at h
  · cases h
  · rename_i hf
    split at h
    · rename_i hl
      injection h with h
      exact ⟨find_none.mp hf, hl, h.symm⟩
    · cases h

theorem emplace_ok {m : Map V} {k : Id} {v : V} (h : ∀ x ∈ m.items, ¬ Same x.1 k) (hl : m.items.length < m.cap) :
    m.emplace k v = some { m with items := m.items ++ [(k, v)] } := by
  unfold Map.emplace
  have : m.find k = none := find_none.mpr h
  rw [this]
  simp [hl]

theorem up_ge {p a : Nat} (h : 0 < a) : p ≤ up p a := by
  unfold up
  have := Nat.lt_div_mul_add (a := p + (a - 1)) h
  omega

theorem up_le {p a : Nat} : up p a ≤ p + (a - 1) := Nat.div_mul_le_self _ _

theorem up_mod {p a : Nat} : up p a % a = 0 := Nat.mul_mod_left _ _

/-- The state between registrations: an element, its storage and the bytes of its array. -/
structure Slot3 where
  reg : Reg
  store : Store
  bytes : Nat

/-- The array of an element is large enough and aligned. -/
structure Placed (p : Slot3) (k : Nat) : Prop where
  aligned : Arith.alignedSize p.reg.ty.size p.reg.ty.align = some k
  ge : p.reg.ty.size ≤ k
  le : k ≤ p.reg.ty.size + p.reg.ty.align
  mod : k % p.reg.ty.align = 0
  room : k * p.reg.slots ≤ p.bytes
  typed : p.reg.generic = false → p.store.count = p.reg.slots ∧ k = p.reg.ty.size
  data : p.store.data % p.reg.ty.align = 0

structure Inv (lib : Lib) (start size n : Nat) (m : Shm) (l : List Reg) (ps : List Slot3) : Prop where
  total : m.size = size
  caps : m.events.cap = n ∧ m.metas.cap = n ∧ m.controls.cap = n
  regs : ps.map (·.reg) = l
  events : m.events.items = ps.map fun p => (p.reg.id, p.store)
  metas : m.metas.items = ps.map fun p => (p.reg.id, ⟨p.reg.ty, p.store.data⟩)
  controls : m.controls.items = ps.map fun p => (p.reg.id, p.reg.slots % 65536)
  keys : ps.Pairwise fun p q => ¬ Same p.reg.id q.reg.id
  placed : ∀ p ∈ ps, ∃ k, Placed p k
  order : ps.Pairwise fun p q => p.store.data + p.bytes ≤ q.store.obj
  objs : ∀ p ∈ ps, p.store.obj % lib.storage.align = 0 ∧ p.store.obj + lib.storage.size ≤ p.store.data
  low : ∀ p ∈ ps, start ≤ p.store.obj ∧ p.store.data + p.bytes ≤ m.used
  used : start ≤ m.used ∧ (ps ≠ [] → m.used ≤ size)
  len : ps.length ≤ n

theorem alignedSize_good {lib : Lib} {r : Reg} (hg : Good lib r) :
    ∃ k, Arith.alignedSize r.ty.size r.ty.align = some k ∧ r.ty.size ≤ k ∧ k ≤ r.ty.size + r.ty.align ∧ k % r.ty.align = 0 ∧
      (r.generic = false → k = r.ty.size) := by
  have ha := hg.align
  have hb : r.ty.size + r.ty.align < 2 ^ 63 := Nat.lt_of_le_of_lt (Nat.le_mul_of_pos_right _ (Nat.succ_pos _)) hg.bytes
  unfold Arith.alignedSize
  rw [if_neg (by omega)]
  by_cases h : r.ty.size % r.ty.align = 0
  · rw [if_pos h]; exact ⟨_, rfl, Nat.le_refl _, by omega, h, fun _ => rfl⟩
  · rw [if_neg h]
    have hgen : r.generic = false → False := fun g => h (hg.typed g)
    by_cases h2 : r.ty.size > r.ty.align
    · rw [if_pos h2, if_pos (by unfold Arith.W; omega)]
      have h3 := Nat.mod_lt r.ty.size ha
      have h4 : (r.ty.size + r.ty.align - r.ty.size % r.ty.align) % Arith.W = r.ty.size + r.ty.align - r.ty.size % r.ty.align := by
        apply Nat.mod_eq_of_lt; unfold Arith.W; omega
      refine ⟨_, rfl, ?_, ?_, ?_, fun g => (hgen g).elim⟩
      · rw [h4]; omega
      · rw [h4]; omega
      · rw [h4]
        have : r.ty.size + r.ty.align - r.ty.size % r.ty.align = r.ty.align * (r.ty.size / r.ty.align + 1) := by
          have := Nat.div_add_mod r.ty.size r.ty.align
          rw [Nat.mul_add]
          omega
        rw [this, Nat.mul_mod_right]
    · rw [if_neg h2]
      exact ⟨_, rfl, by omega, by omega, Nat.mod_self _, fun g => (hgen g).elim⟩


/-! ## Registration -/

theorem alloc_some {m m' : Shm} {b al a : Nat} (h : alloc m b al = some (m', a)) :
    a = up m.used al ∧ up m.used al + b ≤ m.size ∧ m' = { m with used := up m.used al + b } := by
  unfold alloc at h
  split at h
  · rename_i hl
    injection h with h
    injection h with h1 h2
    exact ⟨h2.symm, hl, h1.symm⟩
  · cases h

theorem construct_some {lib : Lib} (hlib : GoodLib lib) {m m' : Shm} {n : Nat} {t : Ty} {s : Store} (ht : 0 < t.align)
    (h : construct lib m n t = some (m', s)) :
    s.count = n ∧ s.data % t.align = 0 ∧ (m.used ≤ s.obj ∧ s.obj % lib.storage.align = 0 ∧ s.obj + lib.storage.size ≤ s.data) ∧
      m'.used = s.data + n * t.size ∧ m'.used ≤ m.size ∧
      m' = { m with used := m'.used } := by
  unfold construct at h
  simp only [Option.bind_eq_bind, Option.bind_eq_some_iff] at h
  obtain ⟨⟨m1, a1⟩, h1, h2⟩ := h
  obtain ⟨rfl, h3, rfl⟩ := alloc_some h1
  split at h2
  · rw [Option.bind_eq_some_iff] at h2
    obtain ⟨⟨m2, a2⟩, h4, h5⟩ := h2
    obtain ⟨rfl, h6, rfl⟩ := alloc_some h4
    injection h5 with h5
    injection h5 with h5 h7
    subst h5 h7
    have g1 := up_ge (p := m.used) hlib.1.1
    have g2 := up_ge (p := up m.used lib.storage.align + lib.storage.size) ht
    exact ⟨rfl, up_mod, ⟨by dsimp only; omega, up_mod, by dsimp only; omega⟩, rfl, h6, rfl⟩
  · cases h2

theorem enter_some {m m' : Shm} {id : Id} {s : Store} {t : Ty} (h : enter m id s t = some m') :
    ∃ e i, m.events.emplace id s = some e ∧ m.metas.emplace id ⟨t, s.data⟩ = some i ∧
      m' = { m with events := e, metas := i } := by
  unfold enter at h
  simp only [Option.bind_eq_bind, Option.bind_eq_some_iff] at h
  obtain ⟨e, h1, i, h2, h3⟩ := h
  injection h3 with h3
  exact ⟨e, i, h1, h2, h3.symm⟩

theorem chunks_ge {lib : Lib} (hlib : GoodLib lib) {k n : Nat} (h : k * n < 2 ^ 63) :
    k * n ≤ chunks lib k n * lib.maxAlign.size ∧ chunks lib k n * lib.maxAlign.size ≤ k * n + lib.maxAlign.size := by
  have hp := hlib.2.1.2.1
  have hs := hlib.2.2
  have h1 : k * n % Arith.W = k * n := Nat.mod_eq_of_lt (by unfold Arith.W; omega)
  have h2 : (k * n + lib.maxAlign.size - 1) % Arith.W = k * n + lib.maxAlign.size - 1 :=
    Nat.mod_eq_of_lt (by unfold Arith.W; omega)
  unfold chunks
  rw [h1, h2]
  have h3 := Nat.div_mul_le_self (k * n + lib.maxAlign.size - 1) lib.maxAlign.size
  have h4 := Nat.lt_div_mul_add (a := k * n + lib.maxAlign.size - 1) hp
  omega

theorem stride_bytes {r : Reg} {lib : Lib} (hg : Good lib r) {k : Nat} (hk : k ≤ r.ty.size + r.ty.align) :
    k * r.slots < 2 ^ 63 ∧ k < 2 ^ 63 := by
  have h1 : k * r.slots ≤ (r.ty.size + r.ty.align) * (r.slots + 1) := Nat.mul_le_mul hk (by omega)
  have h2 : k ≤ (r.ty.size + r.ty.align) * (r.slots + 1) := Nat.le_trans hk (Nat.le_mul_of_pos_right _ (Nat.succ_pos _))
  have := hg.bytes
  omega

theorem createData_some {lib : Lib} (hlib : GoodLib lib) {m m' : Shm} {r : Reg} (hg : Good lib r)
    (h : createData lib m r = some m') :
    ∃ (s : Store) (b k : Nat) (e : Map Store) (i : Map Meta), Placed ⟨r, s, b⟩ k ∧
      (m.used ≤ s.obj ∧ s.obj % lib.storage.align = 0 ∧ s.obj + lib.storage.size ≤ s.data) ∧ m'.used = s.data + b ∧
      m'.used ≤ m.size ∧ m.events.emplace r.id s = some e ∧ m.metas.emplace r.id ⟨r.ty, s.data⟩ = some i ∧
      m' = { m with used := m'.used, events := e, metas := i } := by
  obtain ⟨k, hk, k1, k2, k3, k4⟩ := alignedSize_good hg
  unfold createData at h
  split at h
  · rename_i hgen
    split at h
    · cases h
    · simp only [Option.bind_eq_bind, Option.bind_eq_some_iff] at h
      obtain ⟨k', h1, ⟨m1, s⟩, h2, h3⟩ := h
      rw [hk] at h1
      injection h1 with h1
      subst h1
      obtain ⟨c1, c2, c3, c4, c5, c6⟩ := construct_some hlib hlib.2.1.1 h2
      obtain ⟨e, i, e1, e2, rfl⟩ := enter_some h3
      have hch := chunks_ge hlib (stride_bytes hg k2).1
      rw [c6] at e1 e2
      refine ⟨s, chunks lib k r.slots * lib.maxAlign.size, k, e, i, ⟨hk, k1, k2, k3, hch.1, fun g => ?_, ?_⟩, c3, c4, c5, e1, e2, ?_⟩
      · rw [hgen] at g; cases g
      · have hd := hg.generic hgen
        have : s.data = lib.maxAlign.align * (s.data / lib.maxAlign.align) := by
          have := Nat.div_add_mod s.data lib.maxAlign.align
          omega
        dsimp only
        rw [this, Nat.mul_mod, hd, Nat.zero_mul, Nat.zero_mod]
      · rw [c6]
  · rename_i hgen
    have hgen : r.generic = false := by simpa using hgen
    simp only [Option.bind_eq_bind, Option.bind_eq_some_iff] at h
    obtain ⟨⟨m1, s⟩, h2, h3⟩ := h
    obtain ⟨c1, c2, c3, c4, c5, c6⟩ := construct_some hlib hg.align h2
    obtain ⟨e, i, e1, e2, rfl⟩ := enter_some h3
    rw [c6] at e1 e2
    refine ⟨s, r.slots * r.ty.size, k, e, i, ⟨hk, k1, k2, k3, ?_, fun _ => ⟨c1, k4 hgen⟩, c2⟩, c3, c4, c5, e1, e2, ?_⟩
    · rw [k4 hgen]; exact Nat.le_of_eq (Nat.mul_comm _ _)
    · rw [c6]

theorem register_inv {lib : Lib} (hlib : GoodLib lib) {start size n : Nat} {m m' : Shm} {l : List Reg} {ps : List Slot3}
    {r : Reg} (hi : Inv lib start size n m l ps) (hg : Good lib r) (h : register lib m r = some m') :
    ∃ p, Inv lib start size n m' (l ++ [r]) (ps ++ [p]) := by
  unfold register at h
  simp only [Option.bind_eq_bind, Option.bind_eq_some_iff] at h
  obtain ⟨m1, h1, c, h2, h3⟩ := h
  injection h3 with h3
  obtain ⟨s, b, k, e, i, hp, ⟨d1, o1, o2⟩, d2, d3, d4, d5, d6⟩ := createData_some hlib hg h1
  obtain ⟨f1, f2, f3⟩ := emplace_some d4
  obtain ⟨g1, g2, g3⟩ := emplace_some d5
  have hc : m1.controls = m.controls := by rw [d6]
  obtain ⟨j1, j2, j3⟩ := emplace_some h2
  have hs : m1.size = m.size := by rw [d6]
  have hev : m1.events = e := by rw [d6]
  have hme : m1.metas = i := by rw [d6]
  have hne : ∀ p ∈ ps, ¬ Same p.reg.id r.id := by
    intro p hp
    exact f1 (p.reg.id, p.store) (by rw [hi.events]; exact List.mem_map_of_mem hp)
  subst h3
  refine ⟨⟨r, s, b⟩, ?_⟩
  refine ⟨?_, ?_, ?_, ?_, ?_, ?_, ?_, ?_, ?_, ?_, ?_, ?_, ?_⟩
  · exact hs.trans hi.total
  · refine ⟨?_, ?_, ?_⟩
    · show m1.events.cap = n; rw [hev, f3]; exact hi.caps.1
    · show m1.metas.cap = n; rw [hme, g3]; exact hi.caps.2.1
    · show c.cap = n; rw [j3, hc]; exact hi.caps.2.2
  · simp [hi.regs]
  · show m1.events.items = _; rw [hev, f3]; simp [hi.events]
  · show m1.metas.items = _; rw [hme, g3]; simp [hi.metas]
  · show c.items = _; rw [j3, hc]; simp [hi.controls]
  · rw [List.pairwise_append]
    exact ⟨hi.keys, List.pairwise_singleton _ _, fun p hp q hq => by
      rw [List.mem_singleton] at hq; subst hq; exact hne p hp⟩
  · intro p hp'
    rcases List.mem_append.mp hp' with h | h
    · exact hi.placed p h
    · rw [List.mem_singleton] at h; subst h; exact ⟨k, hp⟩
  · rw [List.pairwise_append]
    refine ⟨hi.order, List.pairwise_singleton _ _, fun p hp q hq => ?_⟩
    rw [List.mem_singleton] at hq; subst hq
    exact Nat.le_trans (hi.low p hp).2 d1
  · intro p hp'
    rcases List.mem_append.mp hp' with h | h
    · exact hi.objs p h
    · rw [List.mem_singleton] at h; subst h; exact ⟨o1, o2⟩
  · intro p hp'
    show start ≤ p.store.obj ∧ p.store.data + p.bytes ≤ m1.used
    rcases List.mem_append.mp hp' with h | h
    · have := hi.low p h
      exact ⟨this.1, by omega⟩
    · rw [List.mem_singleton] at h; subst h
      exact ⟨Nat.le_trans hi.used.1 d1, Nat.le_of_eq d2.symm⟩
  · show start ≤ m1.used ∧ (_ → m1.used ≤ size)
    have := hi.used.1
    exact ⟨by omega, fun _ => by rw [← hi.total]; exact d3⟩
  · rw [List.length_append]
    have h1 : m.events.items.length = ps.length := by rw [hi.events, List.length_map]
    have h2 := hi.caps.1
    simp only [List.length_singleton]
    omega

theorem empty_inv (lib : Lib) (start size n : Nat) : Inv lib start size n (empty size start n) [] [] :=
  ⟨rfl, ⟨rfl, rfl, rfl⟩, rfl, rfl, rfl, rfl, List.Pairwise.nil, by simp, List.Pairwise.nil, by simp, by simp, ⟨Nat.le_refl _, by simp⟩, by simp⟩

theorem offer_inv_from {lib : Lib} (hlib : GoodLib lib) {start size n : Nat} {l : List Reg} : ∀ {m m' : Shm} {l0 : List Reg}
    {ps : List Slot3}, Inv lib start size n m l0 ps → (∀ r ∈ l, Good lib r) → offer lib m l = some m' →
    ∃ ps', Inv lib start size n m' (l0 ++ l) ps' := by
  induction l with
  | nil =>
    intro m m' l0 ps hi _ h
    simp only [offer, Option.some.injEq] at h
    subst h
    exact ⟨ps, by simpa using hi⟩
  | cons r l ih =>
    intro m m' l0 ps hi hg h
    simp only [offer, Option.bind_eq_some_iff] at h
    obtain ⟨m1, h1, h2⟩ := h
    obtain ⟨p, hi1⟩ := register_inv hlib hi (hg r List.mem_cons_self) h1
    obtain ⟨ps', h3⟩ := ih hi1 (fun x hx => hg x (List.mem_cons_of_mem _ hx)) h2
    exact ⟨ps', by simpa using h3⟩

theorem offer_inv {lib : Lib} (hlib : GoodLib lib) {start size n : Nat} {l : List Reg} {m : Shm} (hg : ∀ r ∈ l, Good lib r)
    (h : offer lib (empty size start n) l = some m) : ∃ ps, Inv lib start size n m l ps := by
  obtain ⟨ps, hi⟩ := offer_inv_from hlib (empty_inv lib start size n) hg h
  exact ⟨ps, by simpa using hi⟩

/-! ## Looking up -/

section
variable {lib : Lib} {start size n : Nat} {m : Shm} {l : List Reg} {ps : List Slot3}

theorem Inv.of_mem (hi : Inv lib start size n m l ps) {r : Reg} (hr : r ∈ l) : ∃ p ∈ ps, p.reg = r := by
  rw [← hi.regs] at hr
  exact List.mem_map.mp hr

theorem pairwise_map_key {α : Type} {f : Slot3 → Id × α} (hf : ∀ p, (f p).1 = p.reg.id) {ps : List Slot3}
    (h : ps.Pairwise fun p q => ¬ Same p.reg.id q.reg.id) : (ps.map f).Pairwise (fun x y => ¬ Same x.1 y.1) := by
  rw [List.pairwise_map]
  exact h.imp (fun {a b} g => by rw [hf, hf]; exact g)

theorem Inv.event (hi : Inv lib start size n m l ps) {p : Slot3} (hp : p ∈ ps) : m.events.find p.reg.id = some p.store := by
  unfold Map.find
  rw [hi.events]
  exact find_some (pairwise_map_key (fun _ => rfl) hi.keys)
    (List.mem_map_of_mem (f := fun p : Slot3 => (p.reg.id, p.store)) hp) (Same.refl _)

theorem Inv.info (hi : Inv lib start size n m l ps) {p : Slot3} (hp : p ∈ ps) :
    m.metas.find p.reg.id = some ⟨p.reg.ty, p.store.data⟩ := by
  unfold Map.find
  rw [hi.metas]
  exact find_some (pairwise_map_key (fun _ => rfl) hi.keys)
    (List.mem_map_of_mem (f := fun p : Slot3 => (p.reg.id, (⟨p.reg.ty, p.store.data⟩ : Meta))) hp) (Same.refl _)

theorem Inv.control (hi : Inv lib start size n m l ps) {p : Slot3} (hp : p ∈ ps) :
    m.controls.find p.reg.id = some (p.reg.slots % 65536) := by
  unfold Map.find
  rw [hi.controls]
  exact find_some (pairwise_map_key (fun _ => rfl) hi.keys)
    (List.mem_map_of_mem (f := fun p : Slot3 => (p.reg.id, p.reg.slots % 65536)) hp) (Same.refl _)

theorem Inv.control_none (hi : Inv lib start size n m l ps) {id : Id} (h : ∀ r ∈ l, ¬ Same r.id id) : m.controls.find id = none := by
  unfold Map.find
  rw [hi.controls, find_none]
  intro x hx
  obtain ⟨p, hp, rfl⟩ := List.mem_map.mp hx
  exact h p.reg (by rw [← hi.regs]; exact List.mem_map_of_mem hp)

theorem Inv.control_some (hi : Inv lib start size n m l ps) {r : Reg} (hr : r ∈ l) {id : Id} (h : Same r.id id) :
    m.controls.find id = some (r.slots % 65536) := by
  obtain ⟨p, hp, rfl⟩ := hi.of_mem hr
  unfold Map.find
  rw [hi.controls]
  exact find_some (pairwise_map_key (fun _ => rfl) hi.keys)
    (List.mem_map_of_mem (f := fun p : Slot3 => (p.reg.id, p.reg.slots % 65536)) hp) h

/-- A sample in the array of an element. -/
theorem Inv.range (hi : Inv lib start size n m l ps) {p : Slot3} (hp : p ∈ ps) {k s : Nat} (hk : Placed p k) (hs : s < p.reg.slots) :
    p.store.data + k * s + p.reg.ty.size ≤ p.store.data + p.bytes ∧ p.store.data + p.bytes ≤ size := by
  have h1 : k * s + k ≤ k * p.reg.slots := by
    rw [← Nat.mul_succ]; exact Nat.mul_le_mul_left _ hs
  have h2 := hk.room
  have h3 := hk.ge
  have h4 := (hi.low p hp).2
  have h5 := hi.used.2 (by intro h; rw [h] at hp; cases hp)
  omega

theorem Inv.made (hi : Inv lib start size n m l ps) {p : Slot3} (hp : p ∈ ps) :
    created m p.reg = some ⟨p.reg.generic, p.reg.ty, p.store.data, p.store.count, p.reg.slots % 65536⟩ := by
  unfold Layout.created
  rw [hi.control hp, hi.event hp]
  rfl

theorem place_eq {lib : Lib} (hsize : size < 2 ^ 64) (hi : Inv lib start size n m l ps) {p : Slot3} (hp : p ∈ ps)
    (_hg : Good lib p.reg) {k s c q : Nat} (hk : Placed p k) (hs : s < p.reg.slots) (hc : p.reg.generic = false → c = p.store.count) :
    (Handle.mk p.reg.generic p.reg.ty p.store.data c q).place s = some (p.store.data + k * s) := by
  have hr := hi.range hp hk hs
  unfold Handle.place
  dsimp only
  split
  · rw [hk.aligned]
    have h1 : s * k = k * s := Nat.mul_comm _ _
    have h2 : k * s % Arith.W = k * s := Nat.mod_eq_of_lt (by unfold Arith.W; omega)
    show Arith.addOffset p.store.data (s * k % Arith.W) = _
    rw [h1, h2]
    unfold Arith.addOffset
    rw [if_pos (by unfold Arith.W; omega)]
    rw [Nat.mod_eq_of_lt (by unfold Arith.W; omega)]
  · rename_i hgen
    have hgen : p.reg.generic = false := by simpa using hgen
    have := hk.typed hgen
    rw [hc hgen, if_pos (by rw [this.1]; exact hs), this.2, Nat.mul_comm]

theorem Inv.bytes_le (hi : Inv lib start size n m l ps) {p : Slot3} (hp : p ∈ ps) : p.store.data + p.bytes ≤ size := by
  have h4 := (hi.low p hp).2
  have h5 := hi.used.2 (by intro h; rw [h] at hp; cases hp)
  omega

theorem Inv.viewG {lib : Lib} (hi : Inv lib start size n m l ps) {p : Slot3} (hp : p ∈ ps) (hg : Good lib p.reg) {k : Nat}
    (hk : Placed p k) : genericView m p.reg.id = some ⟨p.store.data, k, p.reg.slots⟩ := by
  unfold Layout.genericView
  rw [hi.control hp, hi.info hp]
  have hmod : p.reg.slots % 65536 = p.reg.slots := Nat.mod_eq_of_lt hg.slots
  simp only [Option.bind_eq_bind, Option.bind_some, hmod, hk.aligned]
  have h1 := (stride_bytes hg hk.le).1
  have h2 := hi.bytes_le hp
  have h3 := hk.room
  rw [if_pos]
  refine ⟨by unfold Arith.W; omega, ?_⟩
  unfold inside
  rw [hi.total]
  exact decide_eq_true (by omega)

theorem Inv.view {lib : Lib} (hi : Inv lib start size n m l ps) {p : Slot3} (hp : p ∈ ps) (hg : Good lib p.reg) {k : Nat}
    (hk : Placed p k) : typedView m p.reg.id p.reg.ty = some ⟨p.store.data, k, p.reg.slots⟩ := by
  unfold Layout.typedView
  rw [hi.control hp, hi.info hp]
  have hmod : p.reg.slots % 65536 = p.reg.slots := Nat.mod_eq_of_lt hg.slots
  simp only [Option.bind_eq_bind, Option.bind_some, hmod, hk.aligned]
  have h1 := (stride_bytes hg hk.le).1
  have h2 := hi.bytes_le hp
  have h3 := hk.room
  rw [if_pos]
  refine ⟨by unfold Arith.W; omega, ?_, by simp⟩
  unfold inside
  rw [hi.total]
  exact decide_eq_true (by omega)

theorem Inv.view_other (hi : Inv lib start size n m l ps) {p : Slot3} (hp : p ∈ ps) {t : Ty} (ht : t ≠ p.reg.ty) :
    typedView m p.reg.id t = none := by
  unfold Layout.typedView
  rw [hi.control hp, hi.info hp]
  simp only [Option.bind_eq_bind, Option.bind_some]
  cases ha : Arith.alignedSize t.size t.align with
  | none => rfl
  | some k =>
    simp only [Option.bind_some]
    rw [if_neg]
    rintro ⟨_, _, h1, h2⟩
    apply ht
    cases t
    cases hh : p.reg.ty
    rw [hh] at h1 h2
    simp_all

theorem Inv.retrieve_typed (hi : Inv lib start size n m l ps) {p : Slot3} (hp : p ∈ ps) (t : Ty) (q : Nat) :
    retrieve m ⟨p.reg.id, false, t, q⟩ = some ⟨false, t, p.store.data, p.store.count, p.reg.slots % 65536⟩ := by
  unfold Layout.retrieve
  rw [hi.control hp, hi.info hp]
  simp only [Option.bind_eq_bind, Option.bind_some]
  rw [if_neg (by simp), hi.event hp]
  rfl

theorem Inv.retrieve_generic {lib : Lib} (hi : Inv lib start size n m l ps) {p : Slot3} (hp : p ∈ ps) (hg : Good lib p.reg) {k : Nat}
    (hk : Placed p k) : retrieve m ⟨p.reg.id, true, p.reg.ty, p.reg.slots⟩ =
      some ⟨true, p.reg.ty, p.store.data, p.reg.slots, p.reg.slots % 65536⟩ := by
  unfold Layout.retrieve
  rw [hi.control hp, hi.info hp]
  simp only [Option.bind_eq_bind, Option.bind_some, if_true, hk.aligned]
  have h1 := (stride_bytes hg hk.le).1
  have h2 := hi.bytes_le hp
  have h3 := hk.room
  rw [if_pos]
  refine ⟨by unfold Arith.W; omega, ?_⟩
  unfold inside
  rw [hi.total]
  exact decide_eq_true (by omega)

end

/-! ## Offering succeeds -/

theorem alloc_ok {m : Shm} {b al : Nat} (h : m.used + (al - 1) + b ≤ m.size) :
    alloc m b al = some ({ m with used := up m.used al + b }, up m.used al) := by
  unfold alloc
  have := up_le (p := m.used) (a := al)
  rw [if_pos (by omega)]

theorem construct_ok {lib : Lib} {m : Shm} {n : Nat} {t : Ty} (hw : n * t.size < Arith.W)
    (h : m.used + lib.storage.align + lib.storage.size + t.align + n * t.size ≤ m.size) :
    ∃ u s, construct lib m n t = some ({ m with used := u }, s) ∧
      u ≤ m.used + lib.storage.align + lib.storage.size + t.align + n * t.size := by
  unfold construct
  have g1 := up_le (p := m.used) (a := lib.storage.align)
  have g2 := up_le (p := up m.used lib.storage.align + lib.storage.size) (a := t.align)
  rw [alloc_ok (by omega)]
  simp only [Option.bind_eq_bind, Option.bind_some, if_pos hw]
  rw [alloc_ok (by dsimp only; omega)]
  exact ⟨_, _, rfl, by dsimp only; omega⟩

/-- A bound of what an element takes. -/
def cost (lib : Lib) (r : Reg) : Nat :=
  lib.storage.align + lib.storage.size + (r.ty.align + lib.maxAlign.align) + ((r.ty.size + r.ty.align) * r.slots + lib.maxAlign.size)

theorem createData_ok {lib : Lib} (hlib : GoodLib lib) {m : Shm} {r : Reg} (hg : Good lib r) (h : m.used + cost lib r ≤ m.size) :
    ∃ u s, createData lib m r = enter { m with used := u } r.id s r.ty ∧ u ≤ m.used + cost lib r := by
  obtain ⟨k, hk, k1, k2, k3, k4⟩ := alignedSize_good hg
  have hkn : k * r.slots ≤ (r.ty.size + r.ty.align) * r.slots := Nat.mul_le_mul_right _ k2
  have hb := (stride_bytes hg k2).1
  unfold cost at h
  unfold createData
  split
  · rename_i hgen
    have hd := hg.generic hgen
    have hle : ¬ r.ty.align > lib.maxAlign.align := by
      intro hgt
      have := Nat.mod_eq_of_lt hgt
      have := hlib.2.1.1
      omega
    have hch := chunks_ge hlib hb
    have := hlib.2.2
    rw [if_neg hle, hk]
    obtain ⟨u, s, h1, h2⟩ := construct_ok (lib := lib) (m := m) (n := chunks lib k r.slots) (t := lib.maxAlign)
      (by unfold Arith.W; omega) (by omega)
    simp only [Option.bind_eq_bind, Option.bind_some, h1]
    exact ⟨u, s, rfl, by unfold cost; omega⟩
  · rename_i hgen
    have hgen : r.generic = false := by simpa using hgen
    have hks := k4 hgen
    subst hks
    have hcomm : r.slots * r.ty.size = r.ty.size * r.slots := Nat.mul_comm _ _
    obtain ⟨u, s, h1, h2⟩ := construct_ok (lib := lib) (m := m) (n := r.slots) (t := r.ty)
      (by unfold Arith.W; omega) (by omega)
    simp only [Option.bind_eq_bind, Option.bind_some, h1]
    exact ⟨u, s, rfl, by unfold cost; omega⟩

theorem register_ok {lib : Lib} (hlib : GoodLib lib) {start size n : Nat} {m : Shm} {l : List Reg} {ps : List Slot3} {r : Reg}
    (hi : Inv lib start size n m l ps) (hg : Good lib r) (hn : l.length < n) (hk : ∀ x ∈ l, ¬ Same x.id r.id)
    (h : m.used + cost lib r ≤ m.size) : ∃ m', register lib m r = some m' ∧ m'.used ≤ m.used + cost lib r := by
  obtain ⟨u, s, h1, h2⟩ := createData_ok hlib hg h
  have hlen : ps.length = l.length := by rw [← hi.regs, List.length_map]
  have hp : ∀ p ∈ ps, ¬ Same p.reg.id r.id := fun p hp => hk _ (by rw [← hi.regs]; exact List.mem_map_of_mem hp)
  have e1 := emplace_ok (m := m.events) (k := r.id) (v := s)
    (by rw [hi.events]; intro x hx; obtain ⟨p, h3, rfl⟩ := List.mem_map.mp hx; exact hp p h3)
    (by rw [hi.events, List.length_map, hi.caps.1]; omega)
  have e2 := emplace_ok (m := m.metas) (k := r.id) (v := (⟨r.ty, s.data⟩ : Meta))
    (by rw [hi.metas]; intro x hx; obtain ⟨p, h3, rfl⟩ := List.mem_map.mp hx; exact hp p h3)
    (by rw [hi.metas, List.length_map, hi.caps.2.1]; omega)
  have e3 := emplace_ok (m := m.controls) (k := r.id) (v := r.slots % 65536)
    (by rw [hi.controls]; intro x hx; obtain ⟨p, h3, rfl⟩ := List.mem_map.mp hx; exact hp p h3)
    (by rw [hi.controls, List.length_map, hi.caps.2.2]; omega)
  unfold register
  rw [h1]
  unfold enter
  simp only [Option.bind_eq_bind, e1, Option.bind_some, e2, e3]
  exact ⟨_, rfl, h2⟩

theorem offer_ok_from {lib : Lib} (hlib : GoodLib lib) {start size n : Nat} {l : List Reg} : ∀ {m : Shm} {l0 : List Reg}
    {ps : List Slot3}, Inv lib start size n m l0 ps → (∀ r ∈ l, Good lib r) → l0.length + l.length ≤ n →
    (l0 ++ l).Pairwise (fun x y => ¬ Same x.id y.id) → m.used + (l.map (cost lib)).sum ≤ m.size →
    ∃ m', offer lib m l = some m' := by
  induction l with
  | nil => intro m l0 ps hi _ _ _ _; exact ⟨m, rfl⟩
  | cons r l ih =>
    intro m l0 ps hi hg hn hk hs
    simp only [List.map_cons, List.sum_cons, List.length_cons] at hs hn
    have hk' := List.pairwise_append.mp hk
    obtain ⟨m1, h1, h2⟩ := register_ok hlib hi (hg r List.mem_cons_self) (by omega)
      (fun x hx => hk'.2.2 x hx r List.mem_cons_self) (by omega)
    obtain ⟨p, hi1⟩ := register_inv hlib hi (hg r List.mem_cons_self) h1
    have hsz : m1.size = m.size := hi1.total.trans hi.total.symm
    obtain ⟨m', h3⟩ := ih hi1 (fun x hx => hg x (List.mem_cons_of_mem _ hx)) (by simp; omega) (by simpa using hk) (by omega)
    exact ⟨m', by simp [offer, h1, h3]⟩

end Verif.Layout
