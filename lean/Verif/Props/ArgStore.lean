import Verif.Proofs.ArgStore
import Verif.Props.CallQueue
/-! C94: the arguments and the result of a method call arrive unchanged. -/

namespace Verif.ArgStore
open CallQueue

/-- The slot of a call, seen by both processes. -/
theorem slot_both {ts : List TypeInfo} (hne : ts ≠ []) (hts : ∀ t ∈ ts, t.Ok ∧ t.align ≤ 4096) {b b' : Nat} (hb : 4096 ∣ b) (hb' : 4096 ∣ b')
    {a : Span} (hle : b ≤ a.data) (hal : (sizeInfo ts).align ∣ a.data) :
    ∃ d, a.data = b + d ∧ (move b b' a).data = b' + d ∧ (∀ t ∈ ts, 0 < t.align ∧ t.align ∣ b + d ∧ t.align ∣ b' + d) := by
  obtain ⟨s1, ⟨t0, ht0, s2⟩, _⟩ := sizeInfo_spec ts hne fun t ht => (hts t ht).1.2.2
  obtain ⟨d, hd⟩ := Nat.exists_eq_add_of_le hle
  have hpage : (sizeInfo ts).align ∣ 4096 := by
    obtain ⟨k, _, hk⟩ := (hts t0 ht0).1.2.2
    have h12 := (hts t0 ht0).2
    rw [s2, hk]
    rw [hk] at h12
    have : k ≤ 12 := by
      refine Nat.le_of_not_lt fun h => ?_
      have := Nat.pow_lt_pow_right (a := 2) (by decide) h
      omega
    exact Nat.pow_dvd_pow 2 this
  have hdd : (sizeInfo ts).align ∣ d := (Nat.dvd_add_right (Nat.dvd_trans hpage hb)).mp (hd ▸ hal)
  refine ⟨d, hd, by show a.data - b + b' = _; omega, fun t ht => ?_⟩
  have hx := s1 t ht
  refine ⟨?_, Nat.dvd_trans hx (Nat.dvd_add (Nat.dvd_trans hpage hb) hdd), Nat.dvd_trans hx (Nat.dvd_add (Nat.dvd_trans hpage hb') hdd)⟩
  obtain ⟨k, _, hk⟩ := (hts t ht).1.2.2
  rw [hk]; exact Nat.pow_pos (by decide)

end Verif.ArgStore

namespace Verif.Demo.C94
open Verif.CallQueue Verif.ArgStore

/-- Memory of 4096 bytes, mapped at different addresses by processes 0 and others. -/
def mem : ShmAlloc.Cfg := ⟨4096, 64, fun i => if i = 0 then 65536 else 69632⟩

theorem mem_ok : mem.Ok := ⟨by decide, fun i => by
  show 0 < (if i = 0 then 65536 else 69632) ∧ (if i = 0 then 65536 else 69632) + 4096 < 2 ^ 64; split <;> decide⟩

theorem mem_pages (i : Nat) : 4096 ∣ mem.base i := by
  show 4096 ∣ if i = 0 then 65536 else 69632
  split <;> decide

/-- Arguments (uint8_t, uint32_t, uint16_t) and a result of 8 bytes. -/
def ts : List TypeInfo := [⟨1, 1⟩, ⟨4, 4⟩, ⟨2, 2⟩]
def rt : TypeInfo := ⟨8, 8⟩

theorem ts_ok : ∀ t ∈ ts, t.Ok ∧ t.align ≤ 4096 := by
  intro t ht
  simp only [ts, List.mem_cons, List.not_mem_nil, or_false] at ht
  rcases ht with rfl | rfl | rfl
  · exact ⟨⟨by decide, by decide, 0, by decide, by decide⟩, by decide⟩
  · exact ⟨⟨by decide, by decide, 2, by decide, by decide⟩, by decide⟩
  · exact ⟨⟨by decide, by decide, 1, by decide, by decide⟩, by decide⟩

theorem rt_ok : rt.Ok ∧ rt.align ≤ 4096 := ⟨⟨by decide, by decide, 3, by decide, by decide⟩, by decide⟩

def queue : Queue := ⟨⟨some (sizeInfo ts), some (sizeInfo [rt]), 1⟩, ⟨65636, 12⟩, ⟨65648, 8⟩⟩

theorem built : Built mem 0 98 queue 120 := by
  refine ⟨mem_ok, by decide, ⟨fun t h => ?_, fun t h => ?_, by decide⟩, by decide +kernel⟩ <;> cases h
  · exact ⟨by decide +kernel, by decide +kernel, 2, by decide, by decide +kernel⟩
  · exact ⟨by decide +kernel, by decide +kernel, 3, by decide, by decide +kernel⟩

theorem fits : queue.info.Fits := by
  refine ⟨fun t h => ?_, fun t h => ?_⟩ <;> cases h <;> decide +kernel

def values : List (List Byte) := [[7], [1, 2, 3, 4], [5, 6]]

/-- The handler reverses its second argument and appends it to itself. -/
def handler (vs : List (List Byte)) : List Byte := let v := vs.getD 1 []; v.reverse ++ v

/-- A type that is aligned to two pages. -/
def wide : TypeInfo := ⟨8192, 8192⟩

end Verif.Demo.C94

namespace Verif.Props.C94
open Verif.CallQueue Verif.ArgStore

/-- The storage for arguments is laid out like a C++ struct of them, wherever it is (if it is aligned for them): size and alignment are
those of the struct, and the addresses those of its members. For all lists of types. -/
theorem like_a_struct (ts : List TypeInfo) (hne : ts ≠ []) (hts : ∀ t ∈ ts, t.Ok) :
    ∃ os e, StructFrom 0 ts os e ∧ NextMultiple e (sizeInfo ts).align (sizeInfo ts).size ∧
      (∀ t ∈ ts, t.align ∣ (sizeInfo ts).align) ∧ (∃ t ∈ ts, (sizeInfo ts).align = t.align) ∧
      ∀ data, (sizeInfo ts).align ∣ data → pointers data 0 ts = os.map (data + ·) := by
  obtain ⟨s1, s2, s3⟩ := sizeInfo_spec ts hne fun t ht => (hts t ht).2.2
  refine ⟨offsets 0 ts, endOf 0 ts, offsets_struct 0 ts fun t ht => ?_, s3, s1, s2, fun data hd => pointers_eq data 0 ts fun t ht => Nat.dvd_trans (s1 t ht) hd⟩
  obtain ⟨k, _, hk⟩ := (hts t ht).2.2
  rw [hk]; exact Nat.pow_pos (by decide)

example : sizeInfo Demo.C94.ts = ⟨12, 4⟩ ∧ pointers 65636 0 Demo.C94.ts = [65636, 65640, 65644] ∧ StructFrom 0 [⟨1, 1⟩] [0] 1 :=
  ⟨by decide +kernel, by decide +kernel, ⟨Nat.le_refl _, by decide, fun _ h _ => h⟩, rfl⟩

/-- In the process of the caller and in that of the handler the arguments of a call are objects inside of the slot of the call, aligned
and apart from each other. -/
theorem arguments_are_objects (c : ShmAlloc.Cfg) (i j cur cur' : Nat) (q : Queue) (hb : Built c i cur q cur') (hf : q.info.Fits)
    (hp : ∀ k, 4096 ∣ c.base k) (ts : List TypeInfo) (hne : ts ≠ []) (hts : ∀ t ∈ ts, t.Ok ∧ t.align ≤ 4096)
    (hi : q.info.inArg = some (sizeInfo ts)) (pos : Nat) (a : Span) (ha : q.inArgAt pos = some a) :
    Objects a ts (pointers a.data 0 ts) ∧
    Objects (move (c.base i) (c.base j) a) ts (pointers (move (c.base i) (c.base j) a).data 0 ts) := by
  obtain ⟨h1, h2, h3⟩ := (C65.slot_inside_partial c i cur cur' q hb hf pos a).1 _ hi ha
  obtain ⟨mid, _, _, _, g, _⟩ := construct_some hb
  obtain ⟨_, _, g3, _⟩ := g _ hi
  obtain ⟨d, d1, d2, d3⟩ := slot_both hne hts (hp i) (hp j) (a := a) (by have := h3.1; omega) h2
  have hs := (sizeInfo_spec ts hne fun t ht => (hts t ht).1.2.2).2.2.1
  constructor
  · rw [pointers_eq _ _ _ fun t ht => by rw [d1]; exact (d3 t ht).2.1]
    exact (objects_of a 0 ts (fun t ht => ⟨(d3 t ht).1, by rw [d1]; exact (d3 t ht).2.1⟩) (by rw [h1]; exact hs)).1
  · rw [pointers_eq _ _ _ fun t ht => by rw [d2]; exact (d3 t ht).2.2]
    exact (objects_of (move (c.base i) (c.base j) a) 0 ts (fun t ht => ⟨(d3 t ht).1, by rw [d2]; exact (d3 t ht).2.2⟩)
      (by show _ ≤ a.size; rw [h1]; exact hs)).1

/-- The handler is called with the values that the caller has passed, and the caller gets the value that the handler has computed, for
all types, values and addresses of the shared memory; and the call changes no byte outside of its slot. -/
theorem call_arrives (c : ShmAlloc.Cfg) (i j cur cur' : Nat) (q : Queue) (hb : Built c i cur q cur') (hf : q.info.Fits)
    (hp : ∀ k, 4096 ∣ c.base k) (ts : List TypeInfo) (hne : ts ≠ []) (hts : ∀ t ∈ ts, t.Ok ∧ t.align ≤ 4096) (rt : TypeInfo)
    (hrt : rt.Ok ∧ rt.align ≤ 4096) (hi : q.info.inArg = some (sizeInfo ts)) (ho : q.info.ret = some (sizeInfo [rt])) (pos : Nat) (a r : Span)
    (ha : q.inArgAt pos = some a) (hr : q.returnAt pos = some r) (m : Mem) (vs : List (List Byte)) (hv : Fit ts vs)
    (handler : List (List Byte) → List Byte) (hh : (handler vs).length = rt.size) :
    (call (c.base i) (c.base j) m a r ts rt handler vs).2 = (vs, handler vs) ∧
    ∀ x, ¬ a.Has (c.base i + x) → ¬ r.Has (c.base i + x) → (call (c.base i) (c.base j) m a r ts rt handler vs).1 x = m x := by
  obtain ⟨h1, h2, h3⟩ := (C65.slot_inside_partial c i cur cur' q hb hf pos a).1 _ hi ha
  obtain ⟨k1, k2, k3⟩ := (C65.slot_inside_partial c i cur cur' q hb hf pos r).2 _ ho hr
  obtain ⟨mid, _, _, _, g, g'⟩ := construct_some hb
  obtain ⟨_, _, g3, _⟩ := g _ hi
  obtain ⟨_, _, g4, _⟩ := g' _ ho
  obtain ⟨d, d1, d2, d3⟩ := slot_both hne hts (hp i) (hp j) (a := a) (by have := h3.1; omega) h2
  have hrts : ∀ t ∈ [rt], t.Ok ∧ t.align ≤ 4096 := fun t ht => by rw [List.mem_singleton.mp ht]; exact hrt
  obtain ⟨o, o1, o2, o3⟩ := slot_both (ts := [rt]) (by simp) hrts (hp i) (hp j) (a := r) (by have := k3.1; omega) k2
  have hs := (sizeInfo_spec ts hne fun t ht => (hts t ht).1.2.2).2.2.1
  have hsr := (sizeInfo_spec [rt] (by simp) fun t ht => (hrts t ht).1.2.2).2.2.1
  have hend : endOf 0 [rt] = rt.size := by simp [endOf, padding]
  rw [hend] at hsr
  have e1 : pointers a.data 0 ts = (offsets 0 ts).map (c.base i + d + ·) := by
    rw [pointers_eq _ _ _ fun t ht => by rw [d1]; exact (d3 t ht).2.1, d1]
  have e2 : pointers (move (c.base i) (c.base j) a).data 0 ts = (offsets 0 ts).map (c.base j + d + ·) := by
    rw [pointers_eq _ _ _ fun t ht => by rw [d2]; exact (d3 t ht).2.2, d2]
  have e3 : pointers (move (c.base i) (c.base j) r).data 0 [rt] = [c.base j + o] := by
    rw [pointers_eq _ _ _ fun t ht => by rw [o2]; exact (o3 t ht).2.2, o2]
    simp [offsets, padding]
  unfold call
  dsimp only
  rw [e1, e2, e3]
  dsimp only
  rw [getAll_putAll hv]
  generalize hm : putAll (c.base i) m ((offsets 0 ts).map (c.base i + d + ·)) vs = m1
  refine ⟨?_, ?_⟩
  · rw [o1, ← get_other (base := c.base i) (base' := c.base j), ← hh, get_put m1 (by omega)]
  · intro x hx hx'
    unfold Span.Has at hx hx'
    rw [put_outside (by omega), ← hm]
    exact putAll_outside hv m x (by omega)

example : (∀ t ∈ Demo.C94.ts, t.Ok ∧ t.align ≤ 4096) ∧ Built Demo.C94.mem 0 98 Demo.C94.queue 120 ∧ Demo.C94.queue.info.Fits ∧
    (∀ k, 4096 ∣ Demo.C94.mem.base k) ∧ Demo.C94.queue.inArgAt 0 = some ⟨65636, 12⟩ ∧ Demo.C94.queue.returnAt 0 = some ⟨65648, 8⟩ ∧
    Fit Demo.C94.ts Demo.C94.values ∧ (Demo.C94.handler Demo.C94.values).length = Demo.C94.rt.size ∧
    (call 65536 69632 (fun _ => 0) ⟨65636, 12⟩ ⟨65648, 8⟩ Demo.C94.ts Demo.C94.rt Demo.C94.handler Demo.C94.values).2 =
      ([[7], [1, 2, 3, 4], [5, 6]], [4, 3, 2, 1, 1, 2, 3, 4]) :=
  ⟨Demo.C94.ts_ok, Demo.C94.built, Demo.C94.fits, Demo.C94.mem_pages, by decide +kernel, by decide +kernel, ⟨rfl, rfl, rfl, trivial⟩, by decide +kernel,
    by decide +kernel⟩

/-- The limit on the alignment is needed: with arguments aligned to two pages, the handler of a process that has mapped the memory one
page further reads something else. -/
theorem wide_alignment_differs : ∃ (m : Mem) (a : Span) (ts : List TypeInfo) (vs : List (List Byte)), 4096 ∣ 65536 ∧ 4096 ∣ 69632 ∧
    (sizeInfo ts).align ∣ a.data ∧ a.size = (sizeInfo ts).size ∧ Fit ts vs ∧
    (getAll 69632 (putAll 65536 m (pointers a.data 0 ts) vs) (pointers (move 65536 69632 a).data 0 ts) ts).map (List.take 1) ≠
      vs.map (List.take 1) :=
  ⟨fun _ => 0, ⟨65536, 8192⟩, [Demo.C94.wide], [List.replicate 4096 1 ++ List.replicate 4096 2], by decide, by decide, by decide +kernel,
    by decide +kernel, ⟨by simp only [List.length_append, List.length_replicate]; rfl, trivial⟩, by
    rw [show pointers (⟨65536, 8192⟩ : Span).data 0 [Demo.C94.wide] = [65536] by decide +kernel,
      show pointers (move 65536 69632 ⟨65536, 8192⟩).data 0 [Demo.C94.wide] = [73728] by decide +kernel]
    have h0 : (List.range 8192).take 1 = [0] := by decide +kernel
    have hl : (List.replicate 4096 1 ++ List.replicate 4096 2 : List Byte).length = 8192 := by simp only [List.length_append, List.length_replicate]
    simp only [getAll, putAll, List.map_cons, List.map_nil]
    rw [show Demo.C94.wide.size = 8192 from rfl]
    unfold ArgStore.get
    rw [← List.map_take, h0]
    simp only [List.map_cons, List.map_nil, put]
    rw [if_pos ⟨by decide, by rw [hl]; decide⟩]
    intro h
    have h2 := (List.cons.inj h).1
    have h3 := (List.cons.inj h2).1
    rw [List.getD_eq_getElem?_getD, List.getElem?_append_right (by rw [List.length_replicate]; decide), List.length_replicate,
      List.getElem?_replicate, if_pos (by decide)] at h3
    exact absurd h3 (by decide)⟩

example : sizeInfo [Demo.C94.wide] = ⟨8192, 8192⟩ := by decide +kernel

/-- SerializeArgs: a buffer of the computed size and alignment is large enough, and DeserializeArgs finds the values again, also at another
address. `copy`: where the copies of the arguments are that the check for overlaps looks at. -/
theorem serialized_is_found (base base' : Nat) (m : Mem) (buf : Span) (hb : base ≤ buf.data) (as : List Arg) (hne : as ≠ [])
    (hts : ∀ a ∈ as, a.type.Ok ∧ a.value.length = a.type.size ∧ (a.copy + a.type.size < buf.data ∨ buf.data + buf.size < a.copy))
    (hs : (sizeInfo (as.map Arg.type)).size ≤ buf.size) (hal : (sizeInfo (as.map Arg.type)).align ∣ buf.data)
    (hal' : (sizeInfo (as.map Arg.type)).align ∣ (move base base' buf).data) :
    ∃ m', serialize base m buf 0 as = some m' ∧
      getAll base' m' (pointers (move base base' buf).data 0 (as.map Arg.type)) (as.map Arg.type) = as.map Arg.value ∧
      ∀ x, ¬ buf.Has (base + x) → m' x = m x := by
  obtain ⟨s1, s2, s3⟩ := sizeInfo_spec (as.map Arg.type) (by simpa using hne) fun t ht => by
    obtain ⟨a, ha, rfl⟩ := List.mem_map.mp ht
    exact (hts a ha).1.2.2
  obtain ⟨d, hd⟩ := Nat.exists_eq_add_of_le hb
  have hd' : (move base base' buf).data = base' + d := by show buf.data - base + base' = _; omega
  have hfit : Fit (as.map Arg.type) (as.map Arg.value) := by
    clear hne hs hal hal' s1 s2 s3
    induction as with
    | nil => trivial
    | cons a as ih => exact ⟨(hts a List.mem_cons_self).2.1, ih fun a' ha => hts a' (List.mem_cons_of_mem _ ha)⟩
  have ebuf : buf = ⟨base + d, buf.size⟩ := by cases buf; simp_all
  have hser := serialize_eq (base := base) (d := d) (size := buf.size) (off := 0) as m
    (fun a ha => by rw [← hd]; exact Nat.dvd_trans (s1 _ (List.mem_map_of_mem ha)) hal) (Nat.le_trans s3.1 hs)
    (fun a ha => by
      have := (hts a ha).2.2
      unfold overlapping
      dsimp only
      rw [← hd]
      rcases this with h | h <;> simp [h])
  rw [← ebuf] at hser
  refine ⟨_, hser, ?_, ?_⟩
  · rw [pointers_eq _ _ _ fun t ht => Nat.dvd_trans (s1 t ht) hal', hd']
    exact getAll_putAll hfit m
  · intro x hx
    have := s3.1
    unfold Span.Has at hx
    exact putAll_outside hfit m x (by omega)

/-- SerializeArgs never writes outside of the buffer, whatever its size and address are. -/
theorem serialize_stays_inside (base : Nat) (m m' : Mem) (buf : Span) (as : List Arg) (hv : ∀ a ∈ as, a.value.length = a.type.size)
    (h : serialize base m buf 0 as = some m') (x : Nat) (hx : ¬ buf.Has (base + x)) : m' x = m x :=
  serialize_inside as (Nat.zero_le _) hv h hx

example : serialize 0 (fun _ => 0) ⟨96, 12⟩ 0 [⟨⟨1, 1⟩, [7], 0⟩, ⟨⟨4, 4⟩, [1, 2, 3, 4], 4⟩, ⟨⟨2, 2⟩, [5, 6], 200⟩] ≠ none ∧
    serialize 0 (fun _ => 0) ⟨96, 10⟩ 0 [⟨⟨1, 1⟩, [7], 0⟩, ⟨⟨4, 4⟩, [1, 2, 3, 4], 4⟩, ⟨⟨2, 2⟩, [5, 6], 200⟩] ≠ none ∧
    serialize 0 (fun _ => 0) ⟨96, 9⟩ 0 [⟨⟨1, 1⟩, [7], 0⟩, ⟨⟨4, 4⟩, [1, 2, 3, 4], 4⟩, ⟨⟨2, 2⟩, [5, 6], 200⟩] = none := by
  refine ⟨?_, ?_, by rfl⟩ <;> exact fun h => by cases h

end Verif.Props.C94
