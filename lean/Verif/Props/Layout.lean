import Verif.Proofs.Layout

/-!
# C106: provider and consumers agree on where every sample is

`offer lib (empty size start n) l = some m` says that a provider with a table for `n` elements has registered the events
and fields `l` one after the other in memory of `size` bytes, the first `start` of them taken, and that `m` is the result.
-/
namespace Verif.Layout
open Verif.Spec.Layout Verif.ElementFqId

theorem pairwise_cases {α : Type} {R : α → α → Prop} {l : List α} (h : l.Pairwise R) {a b : α} (ha : a ∈ l) (hb : b ∈ l) :
    a = b ∨ R a b ∨ R b a := by
  induction h with
  | nil => cases ha
  | cons h1 _ ih =>
    rcases List.mem_cons.mp ha with ea | ha' <;> rcases List.mem_cons.mp hb with eb | hb'
    · exact .inl (ea.trans eb.symm)
    · rw [ea]; exact .inr (.inl (h1 _ hb'))
    · rw [eb]; exact .inr (.inr (h1 _ ha'))
    · exact ih ha' hb'

theorem mul_apart {k a s1 s2 z : Nat} (hz : z ≤ k) (h : s1 < s2) : a + k * s1 + z ≤ a + k * s2 := by
  have : k * s1 + k ≤ k * s2 := by rw [← Nat.mul_succ]; exact Nat.mul_le_mul_left _ h
  omega

theorem reads_of {lib : Lib} {start size n : Nat} {m : Shm} {l : List Reg} {ps : List Slot3} (hsize : size < 2 ^ 64)
    (hi : Inv lib start size n m l ps) {p : Slot3} (hp : p ∈ ps) (hg : Good lib p.reg) {k s : Nat} (hk : Placed p k)
    (hs : s < p.reg.slots) : WritesAt m p.reg s (p.store.data + k * s) ∧
      ReadsAt m p.reg.id p.reg.ty s (p.store.data + k * s) ∧ GenericReadsAt m p.reg.id s (p.store.data + k * s) :=
  ⟨⟨_, hi.made hp, place_eq hsize hi hp hg hk hs (fun _ => rfl)⟩, ⟨_, hi.view hp hg hk, hs, rfl⟩, ⟨_, hi.viewG hp hg hk, hs, rfl⟩⟩

end Verif.Layout

namespace Verif.Demo.C106
open Verif.Layout Verif.Spec.Layout Verif.ElementFqId

/-- EventDataStorage of 48 bytes and std::max_align_t of a 64-bit platform. -/
def lib : Lib := ⟨⟨48, 8⟩, ⟨32, 16⟩⟩

def speed : Reg := ⟨⟨7, 1, 3, .event⟩, false, ⟨12, 4⟩, 3⟩
def image : Reg := ⟨⟨7, 2, 3, .event⟩, true, ⟨13, 8⟩, 5⟩
def mode : Reg := ⟨⟨7, 9, 3, .field⟩, false, ⟨1, 1⟩, 2⟩

theorem goodLib : GoodLib lib := ⟨⟨by decide, by decide, by decide⟩, ⟨by decide, by decide, by decide⟩, by decide⟩

theorem good : ∀ r ∈ [speed, image, mode], Good lib r := by
  intro r hr
  simp only [List.mem_cons, List.not_mem_nil, or_false] at hr
  rcases hr with rfl | rfl | rfl
  all_goals exact ⟨by decide, by decide, by decide, by decide, by decide⟩

def memory : Shm := (offer lib (empty 4096 100 3) [speed, image, mode]).getD (empty 0 0 0)

theorem offered : offer lib (empty 4096 100 3) [speed, image, mode] = some memory := by decide +kernel

end Verif.Demo.C106

namespace Verif.Props.C106
open Verif.Layout Verif.Spec.Layout Verif.ElementFqId

/-- For every event and field that is offered and each of its slots there is one place: the provider writes the sample
there, a consumer with a typed proxy reads it there and so does one with a generic proxy.  The place is aligned for the
type, lies in the memory, and behind what the library keeps there.  Partial because of the sizes in `Good`, see
`wrap_fails`. -/
theorem same_place_partial {lib : Lib} (hlib : GoodLib lib) {start size n : Nat} (hsize : size < 2 ^ 64) {l : List Reg} {m : Shm}
    (hg : ∀ r ∈ l, Good lib r) (h : offer lib (empty size start n) l = some m) {r : Reg} (hr : r ∈ l) {s : Nat} (hs : s < r.slots) :
    ∃ a, WritesAt m r s a ∧ ReadsAt m r.id r.ty s a ∧ GenericReadsAt m r.id s a ∧ start ≤ a ∧ a % r.ty.align = 0 ∧
      a + r.ty.size ≤ size := by
  obtain ⟨ps, hi⟩ := offer_inv hlib hg h
  obtain ⟨p, hp, rfl⟩ := hi.of_mem hr
  obtain ⟨k, hk⟩ := hi.placed p hp
  obtain ⟨h1, h2, h3⟩ := reads_of hsize hi hp (hg _ hr) hk hs
  have h4 := hi.range hp hk hs
  have h5 := (hi.low p hp).1
  have h6 := (hi.objs p hp).2
  refine ⟨_, h1, h2, h3, by omega, ?_, by omega⟩
  rw [Nat.add_mod, hk.data, Nat.mul_mod, hk.mod]
  simp

example : ∃ a, WritesAt Demo.C106.memory Demo.C106.image 4 a ∧
    ReadsAt Demo.C106.memory Demo.C106.image.id Demo.C106.image.ty 4 a ∧
    GenericReadsAt Demo.C106.memory Demo.C106.image.id 4 a ∧ 100 ≤ a ∧ a % 8 = 0 ∧ a + 13 ≤ 4096 :=
  same_place_partial Demo.C106.goodLib (by decide) Demo.C106.good Demo.C106.offered (by decide) (by decide)

example : (created Demo.C106.memory Demo.C106.image).bind (·.place 4) = some 304 := by decide +kernel

/-- The provider writes two samples, of two elements or in two slots, in bytes that are apart: no sample is changed when
another one is written.  Partial because of the sizes in `Good`. -/
theorem apart_partial {lib : Lib} (hlib : GoodLib lib) {start size n : Nat} (hsize : size < 2 ^ 64) {l : List Reg} {m : Shm}
    (hg : ∀ r ∈ l, Good lib r) (h : offer lib (empty size start n) l = some m) {r1 r2 : Reg} (h1 : r1 ∈ l) (h2 : r2 ∈ l)
    {s1 s2 a1 a2 : Nat} (hs1 : s1 < r1.slots) (hs2 : s2 < r2.slots) (hne : r1 ≠ r2 ∨ s1 ≠ s2) (w1 : WritesAt m r1 s1 a1)
    (w2 : WritesAt m r2 s2 a2) : Apart a1 r1.ty.size a2 r2.ty.size := by
  obtain ⟨ps, hi⟩ := offer_inv hlib hg h
  obtain ⟨p, hp, rfl⟩ := hi.of_mem h1
  obtain ⟨q, hq, rfl⟩ := hi.of_mem h2
  obtain ⟨k, hk⟩ := hi.placed p hp
  obtain ⟨j, hj⟩ := hi.placed q hq
  have e1 : a1 = p.store.data + k * s1 := by
    obtain ⟨x, x1, x2⟩ := w1
    rw [hi.made hp] at x1
    cases x1
    rw [place_eq hsize hi hp (hg _ h1) hk hs1 (fun _ => rfl)] at x2
    cases x2; rfl
  have e2 : a2 = q.store.data + j * s2 := by
    obtain ⟨x, x1, x2⟩ := w2
    rw [hi.made hq] at x1
    cases x1
    rw [place_eq hsize hi hq (hg _ h2) hj hs2 (fun _ => rfl)] at x2
    cases x2; rfl
  subst e1; subst e2
  have g1 := hi.range hp hk hs1
  have g2 := hi.range hq hj hs2
  unfold Apart
  rcases pairwise_cases hi.order hp hq with rfl | ho | ho
  · have hs : s1 ≠ s2 := by rcases hne with h | h; exact absurd rfl h; exact h
    have hkj : k = j := by have := hk.aligned; rw [hj.aligned] at this; cases this; rfl
    subst hkj
    rcases Nat.lt_or_gt_of_ne hs with hlt | hlt
    · exact .inl (mul_apart hk.ge hlt)
    · exact .inr (mul_apart hk.ge hlt)
  · have := (hi.objs q hq).2; exact .inl (by omega)
  · have := (hi.objs p hp).2; exact .inr (by omega)

example : ∃ a1 a2, WritesAt Demo.C106.memory Demo.C106.speed 2 a1 ∧ WritesAt Demo.C106.memory Demo.C106.image 0 a2 ∧
    Apart a1 12 a2 13 := by
  obtain ⟨a1, w1, _⟩ := same_place_partial Demo.C106.goodLib (by decide) Demo.C106.good Demo.C106.offered
    (r := Demo.C106.speed) (by decide) (s := 2) (by decide)
  obtain ⟨a2, w2, _⟩ := same_place_partial Demo.C106.goodLib (by decide) Demo.C106.good Demo.C106.offered
    (r := Demo.C106.image) (by decide) (s := 0) (by decide)
  exact ⟨a1, a2, w1, w2, apart_partial Demo.C106.goodLib (by decide) Demo.C106.good Demo.C106.offered
    (by decide) (by decide) (by decide) (by decide) (.inl (by decide)) w1 w2⟩

/-- No sample shares a byte with an object that the library keeps in the memory for an element, those objects share none with each
other, they are aligned and lie behind what was there before.  Partial because of the sizes in `Good`. -/
theorem kept_apart_partial {lib : Lib} (hlib : GoodLib lib) {start size n : Nat} (hsize : size < 2 ^ 64) {l : List Reg} {m : Shm}
    (hg : ∀ r ∈ l, Good lib r) (h : offer lib (empty size start n) l = some m) {r1 r2 : Reg} (h1 : r1 ∈ l) (h2 : r2 ∈ l) :
    ∃ o, KeptAt m r1 o ∧ start ≤ o ∧ o % lib.storage.align = 0 ∧ o + lib.storage.size ≤ size ∧
      (∀ s a, s < r2.slots → WritesAt m r2 s a → Apart o lib.storage.size a r2.ty.size) ∧
      (∀ o', r1 ≠ r2 → KeptAt m r2 o' → Apart o lib.storage.size o' lib.storage.size) := by
  obtain ⟨ps, hi⟩ := offer_inv hlib hg h
  obtain ⟨p, hp, rfl⟩ := hi.of_mem h1
  obtain ⟨q, hq, rfl⟩ := hi.of_mem h2
  obtain ⟨j, hj⟩ := hi.placed q hq
  have a1 := hi.objs p hp
  have a2 := hi.objs q hq
  have b1 := hi.bytes_le hp
  refine ⟨_, ⟨_, hi.event hp, rfl⟩, (hi.low p hp).1, a1.1, by omega, fun s a hs w => ?_, fun o' hne w => ?_⟩
  · have e2 : a = q.store.data + j * s := by
      obtain ⟨x, x1, x2⟩ := w
      rw [hi.made hq] at x1
      cases x1
      rw [place_eq hsize hi hq (hg _ h2) hj hs (fun _ => rfl)] at x2
      cases x2; rfl
    subst e2
    have g2 := hi.range hq hj hs
    unfold Apart
    rcases pairwise_cases hi.order hp hq with rfl | ho | ho
    · exact .inl (by omega)
    · exact .inl (by omega)
    · exact .inr (by omega)
  · obtain ⟨x, x1, rfl⟩ := w
    rw [hi.event hq] at x1
    cases x1
    unfold Apart
    rcases pairwise_cases hi.order hp hq with rfl | ho | ho
    · exact absurd rfl hne
    · exact .inl (by omega)
    · exact .inr (by omega)

example : ∃ o, KeptAt Demo.C106.memory Demo.C106.mode o ∧ 100 ≤ o ∧
    (∀ s a, s < 5 → WritesAt Demo.C106.memory Demo.C106.image s a → Apart o 48 a 13) := by
  obtain ⟨o, h1, h2, _, _, h3, _⟩ := kept_apart_partial Demo.C106.goodLib (by decide) Demo.C106.good Demo.C106.offered
    (r1 := Demo.C106.mode) (r2 := Demo.C106.image) (by decide) (by decide)
  exact ⟨o, h1, h2, h3⟩

/-- A provider can offer elements with different numbers if the tables have room for them and the memory is large enough. -/
theorem offers {lib : Lib} (hlib : GoodLib lib) {start n : Nat} {l : List Reg} (hg : ∀ r ∈ l, Good lib r) (hn : l.length ≤ n)
    (hk : l.Pairwise fun a b => ¬ Same a.id b.id) : ∃ need, ∀ size, need ≤ size → ∃ m, offer lib (empty size start n) l = some m := by
  refine ⟨start + (l.map (cost lib)).sum, fun size hs => ?_⟩
  exact offer_ok_from hlib (empty_inv lib start size n) hg (by simpa using hn) (by simpa using hk) (by simpa [empty] using hs)

example : ∃ need, ∀ size, need ≤ size → ∃ m,
    offer Demo.C106.lib (empty size 100 3) [Demo.C106.speed, Demo.C106.image, Demo.C106.mode] = some m :=
  offers Demo.C106.goodLib Demo.C106.good (by decide)
    (by simp [Same, Demo.C106.speed, Demo.C106.image, Demo.C106.mode])

/-- Elements that have been offered have different numbers, and there are no more of them than the tables have entries: the
second element with a number, also a field with the number of an event, and one element too many end the process. -/
theorem distinct {lib : Lib} (hlib : GoodLib lib) {start size n : Nat} {l : List Reg} {m : Shm}
    (hg : ∀ r ∈ l, Good lib r) (h : offer lib (empty size start n) l = some m) :
    l.Pairwise (fun a b => ¬ Same a.id b.id) ∧ l.length ≤ n := by
  obtain ⟨ps, hi⟩ := offer_inv hlib hg h
  rw [← hi.regs]
  refine ⟨?_, by rw [List.length_map]; exact hi.len⟩
  rw [List.pairwise_map]
  exact hi.keys

example : offer Demo.C106.lib (empty 4096 100 3)
    [Demo.C106.speed, { Demo.C106.mode with id := ⟨7, 1, 3, .field⟩ }] = none := by decide +kernel
example : offer Demo.C106.lib (empty 4096 100 2) [Demo.C106.speed, Demo.C106.image, Demo.C106.mode] = none := by decide +kernel

/-- A typed proxy with a type of another size or alignment is refused. -/
theorem wrong_type_refused {lib : Lib} (hlib : GoodLib lib) {start size n : Nat} {l : List Reg} {m : Shm}
    (hg : ∀ r ∈ l, Good lib r) (h : offer lib (empty size start n) l = some m) {r : Reg} (hr : r ∈ l) {t : Ty} (ht : t ≠ r.ty) :
    typedView m r.id t = none := by
  obtain ⟨ps, hi⟩ := offer_inv hlib hg h
  obtain ⟨p, hp, rfl⟩ := hi.of_mem hr
  exact hi.view_other hp ht

example : typedView Demo.C106.memory Demo.C106.speed.id ⟨12, 2⟩ = none :=
  wrong_type_refused Demo.C106.goodLib Demo.C106.good Demo.C106.offered (by decide) (by decide)

/-- IsEventProvided says exactly whether the provider has registered an element with that number, and a proxy for an element
that it has not registered is refused. -/
theorem provided_iff {lib : Lib} (hlib : GoodLib lib) {start size n : Nat} {l : List Reg} {m : Shm}
    (hg : ∀ r ∈ l, Good lib r) (h : offer lib (empty size start n) l = some m) (id : Id) :
    (provided m id = true ↔ ∃ r ∈ l, Same r.id id) ∧
      (provided m id = false → (∀ t, typedView m id t = none) ∧ genericView m id = none) := by
  obtain ⟨ps, hi⟩ := offer_inv hlib hg h
  by_cases he : ∃ r ∈ l, Same r.id id
  · obtain ⟨r, hr, hs⟩ := he
    have hc := hi.control_some hr hs
    have hp : provided m id = true := by unfold provided; rw [hc]; rfl
    exact ⟨⟨fun _ => ⟨r, hr, hs⟩, fun _ => hp⟩, fun hf => by rw [hp] at hf; cases hf⟩
  · have hc := hi.control_none (id := id) fun r hr hs => he ⟨r, hr, hs⟩
    have hp : provided m id = false := by unfold provided; rw [hc]; rfl
    refine ⟨⟨fun hf => (by rw [hp] at hf; cases hf), fun h => absurd h he⟩, fun _ => ⟨fun t => ?_, ?_⟩⟩
    · unfold typedView; rw [hc]; rfl
    · unfold genericView; rw [hc]; rfl

example : provided Demo.C106.memory Demo.C106.mode.id = true ∧ provided Demo.C106.memory ⟨7, 3, 3, .event⟩ = false := by
  refine ⟨((provided_iff Demo.C106.goodLib Demo.C106.good Demo.C106.offered _).1).mpr ⟨Demo.C106.mode, by decide, ?_⟩, by decide +kernel⟩
  exact ⟨rfl, rfl, rfl⟩

/-- A generic proxy has the events of its configuration that the provider has registered, and no others. -/
theorem generic_events {lib : Lib} (hlib : GoodLib lib) {start size n : Nat} {l : List Reg} {m : Shm}
    (hg : ∀ r ∈ l, Good lib r) (h : offer lib (empty size start n) l = some m) (ids : List Id) (id : Id) :
    id ∈ genericEvents m ids ↔ id ∈ ids ∧ ∃ r ∈ l, Same r.id id := by
  unfold genericEvents
  rw [List.mem_filter, (provided_iff hlib hg h id).1]

example : genericEvents Demo.C106.memory [⟨7, 2, 3, .event⟩, ⟨7, 3, 3, .event⟩, ⟨8, 1, 3, .event⟩] = [⟨7, 2, 3, .event⟩] := by
  decide +kernel

/-- GetSampleSize of a generic proxy is the size of the provider's samples. -/
theorem sample_size {lib : Lib} (hlib : GoodLib lib) {start size n : Nat} {l : List Reg} {m : Shm}
    (hg : ∀ r ∈ l, Good lib r) (h : offer lib (empty size start n) l = some m) {r : Reg} (hr : r ∈ l) :
    sampleSize m r.id = some r.ty.size := by
  obtain ⟨ps, hi⟩ := offer_inv hlib hg h
  obtain ⟨p, hp, rfl⟩ := hi.of_mem hr
  unfold sampleSize
  rw [hi.info hp]; rfl

example : sampleSize Demo.C106.memory Demo.C106.image.id = some 13 :=
  sample_size Demo.C106.goodLib Demo.C106.good Demo.C106.offered (by decide)

/-- A provider that is restarted with the elements it had before writes every sample where it was, so that consumers that
have stayed connected read it there.  Partial because the elements have to be the same, see `reopen_other_type_fails`. -/
theorem reopen_partial {lib : Lib} (hlib : GoodLib lib) {start size n : Nat} (hsize : size < 2 ^ 64) {l : List Reg} {m : Shm}
    (hg : ∀ r ∈ l, Good lib r) (h : offer lib (empty size start n) l = some m) {r : Reg} (hr : r ∈ l) {s : Nat} (hs : s < r.slots)
    (a : Nat) : WritesAgainAt m r s a ↔ WritesAt m r s a := by
  obtain ⟨ps, hi⟩ := offer_inv hlib hg h
  obtain ⟨p, hp, rfl⟩ := hi.of_mem hr
  obtain ⟨k, hk⟩ := hi.placed p hp
  have hw : ∃ c, retrieve m p.reg = some ⟨p.reg.generic, p.reg.ty, p.store.data, c, p.reg.slots % 65536⟩ ∧
      (p.reg.generic = false → c = p.store.count) := by
    cases hgen : p.reg.generic with
    | true =>
      have := hi.retrieve_generic hp (hg _ hr) hk
      rw [← hgen] at this
      exact ⟨_, by rw [hgen] at this; rw [← this]; congr 1; rw [← hgen], fun h => by cases h⟩
    | false =>
      have := hi.retrieve_typed hp p.reg.ty p.reg.slots
      exact ⟨_, by rw [← this]; congr 1; rw [← hgen], fun _ => rfl⟩
  obtain ⟨c, hw, hc⟩ := hw
  have e1 := place_eq (q := p.reg.slots % 65536) hsize hi hp (hg _ hr) hk hs hc
  have e2 := place_eq (q := p.reg.slots % 65536) hsize hi hp (hg _ hr) hk hs (fun _ => rfl)
  constructor
  · rintro ⟨x, x1, x2⟩
    rw [hw] at x1; cases x1
    exact ⟨_, hi.made hp, by rw [e2, ← e1]; exact x2⟩
  · rintro ⟨x, x1, x2⟩
    rw [hi.made hp] at x1; cases x1
    exact ⟨_, hw, by rw [e1, ← e2]; exact x2⟩

example : (∃ a, WritesAgainAt Demo.C106.memory Demo.C106.mode 1 a) := by
  obtain ⟨a, w, _⟩ := same_place_partial Demo.C106.goodLib (by decide) Demo.C106.good Demo.C106.offered
    (r := Demo.C106.mode) (by decide) (s := 1) (by decide)
  exact ⟨a, (reopen_partial Demo.C106.goodLib (by decide) Demo.C106.good Demo.C106.offered (by decide) (by decide) a).mpr w⟩

/-- A generic provider can take over the memory of a typed one: it writes every sample where consumers read it. -/
theorem generic_after_typed {lib : Lib} (hlib : GoodLib lib) {start size n : Nat} (hsize : size < 2 ^ 64) {l : List Reg} {m : Shm}
    (hg : ∀ r ∈ l, Good lib r) (h : offer lib (empty size start n) l = some m) {r : Reg} (hr : r ∈ l) {s : Nat} (hs : s < r.slots) :
    ∃ a, WritesAgainAt m { r with generic := true } s a ∧ GenericReadsAt m r.id s a := by
  obtain ⟨ps, hi⟩ := offer_inv hlib hg h
  obtain ⟨p, hp, rfl⟩ := hi.of_mem hr
  obtain ⟨k, hk⟩ := hi.placed p hp
  refine ⟨p.store.data + k * s, ⟨_, hi.retrieve_generic hp (hg _ hr) hk, ?_⟩, (reads_of hsize hi hp (hg _ hr) hk hs).2.2⟩
  have hr' := hi.range hp hk hs
  unfold Handle.place
  dsimp only
  rw [if_pos rfl, hk.aligned]
  have h1 : s * k = k * s := Nat.mul_comm _ _
  have h2 : k * s % Arith.W = k * s := Nat.mod_eq_of_lt (by unfold Arith.W; omega)
  show Arith.addOffset p.store.data (s * k % Arith.W) = _
  rw [h1, h2]
  unfold Arith.addOffset
  rw [if_pos (by unfold Arith.W; omega), Nat.mod_eq_of_lt (by unfold Arith.W; omega)]

example : ∃ a, WritesAgainAt Demo.C106.memory { Demo.C106.speed with generic := true } 2 a ∧
    GenericReadsAt Demo.C106.memory Demo.C106.speed.id 2 a :=
  generic_after_typed Demo.C106.goodLib (by decide) Demo.C106.good Demo.C106.offered (by decide) (by decide)

/-- **Violated.** A provider that is restarted with a larger sample type is not stopped: it writes a sample of one event over
the samples of another one that consumers read. -/
theorem reopen_other_type_fails : ∃ (m : Shm) (l : List Reg) (r r' q : Reg) (s t a b : Nat), (∀ x ∈ l, Good Demo.C106.lib x) ∧
    offer Demo.C106.lib (empty 4096 100 3) l = some m ∧ r ∈ l ∧ q ∈ l ∧ r ≠ q ∧ Good Demo.C106.lib r' ∧ r'.id = r.id ∧
    r'.slots = r.slots ∧ s < r'.slots ∧ t < q.slots ∧ WritesAgainAt m r' s a ∧ ReadsAt m q.id q.ty t b ∧
    ¬ Apart a r'.ty.size b q.ty.size := by
  refine ⟨Demo.C106.memory, [Demo.C106.speed, Demo.C106.image, Demo.C106.mode], Demo.C106.speed,
    { Demo.C106.speed with ty := ⟨64, 4⟩ }, Demo.C106.image, 1, 0, 216, 240, Demo.C106.good, Demo.C106.offered, by decide, by decide,
    by decide, ⟨by decide, by decide, by decide, by decide, by decide⟩, rfl, rfl, by decide, by decide, ?_, ?_, by decide⟩
  · exact ⟨_, rfl, by decide +kernel⟩
  · exact ⟨_, rfl, by decide +kernel, by decide +kernel⟩

/-- **Violated.** A typed provider that takes over the memory of a generic one with samples of the same size and alignment
ends when it allocates a slot: its array has as many elements as std::max_align_t fit, not as there are slots. -/
theorem typed_after_generic_fails : ∃ (m : Shm) (l : List Reg) (r : Reg) (s : Nat) (h : Handle), (∀ x ∈ l, Good Demo.C106.lib x) ∧
    offer Demo.C106.lib (empty 4096 100 3) l = some m ∧ r ∈ l ∧ s < r.slots ∧ r.ty.size % r.ty.align = 0 ∧
    retrieve m { r with generic := false } = some h ∧ h.slots = r.slots ∧ h.place s = none := by
  let r : Reg := ⟨⟨7, 2, 3, .event⟩, true, ⟨16, 8⟩, 5⟩
  have hl : offer Demo.C106.lib (empty 4096 100 3) [r] = some ((offer Demo.C106.lib (empty 4096 100 3) [r]).getD (empty 0 0 0)) := by
    decide +kernel
  refine ⟨_, [r], r, 3, ⟨false, ⟨16, 8⟩, 160, 3, 5⟩, ?_, hl, List.mem_singleton.mpr rfl, by decide, by decide, by decide +kernel, by decide +kernel, by decide +kernel⟩
  intro x hx
  rw [List.mem_singleton.mp hx]
  exact ⟨by decide, by decide, by decide, by decide, by decide⟩

/-- **Violated.** Without the bound on the sizes: the number of bytes of a generic event wraps to 0, the event is offered
in 4096 bytes, and the provider writes its samples beyond the end of the memory. -/
theorem wrap_fails : ∃ (m : Shm) (r : Reg) (a : Nat), 0 < r.ty.align ∧ Demo.C106.lib.maxAlign.align % r.ty.align = 0 ∧ r.slots = 2 ∧
    r.ty.size < 2 ^ 64 ∧ offer Demo.C106.lib (empty 4096 100 3) [r] = some m ∧ WritesAt m r 0 a ∧ m.size < a + r.ty.size := by
  let r : Reg := ⟨⟨7, 2, 3, .event⟩, true, ⟨2 ^ 63, 8⟩, 2⟩
  have hl : offer Demo.C106.lib (empty 4096 100 3) [r] = some ((offer Demo.C106.lib (empty 4096 100 3) [r]).getD (empty 0 0 0)) := by
    decide +kernel
  exact ⟨_, r, 160, by decide, by decide, rfl, by decide, hl, ⟨⟨true, ⟨2 ^ 63, 8⟩, 160, 0, 2⟩, by decide +kernel, by decide +kernel⟩, by decide +kernel⟩

end Verif.Props.C106
