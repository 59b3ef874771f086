import Verif.Proofs.OffsetPtr
/-! C48 to C50: OffsetPtr. -/

namespace Verif.Demo.OffsetPtr
open Verif.OffsetPtr

/-- One registered region from 4096 to 8192. -/
def env : Env := ⟨true, fun a => if 4096 ≤ a ∧ a ≤ 8192 then some (4096, 8192) else none⟩

end Verif.Demo.OffsetPtr

namespace Verif.Props.C48
open Verif.OffsetPtr Verif.Demo.OffsetPtr

/-- An OffsetPtr that is created from the pointer `p` at address `a` designates `p`. -/
theorem created (a p : Nat) (ha : Addr a) (hp : Addr p) (o : OP) (h : ofPtr a p = .ok o) : Designates a o p ∧ Off o.off := by
  unfold ofPtr at h
  cases hf : offsetFrom a p with
  | abort => rw [hf] at h; simp [Res.bind] at h
  | ub => rw [hf] at h; simp [Res.bind] at h
  | ok d =>
    rw [hf] at h
    simp only [Res.bind, Res.ok.injEq] at h
    subst h
    obtain ⟨h1, h2⟩ := offsetFrom_ok ha hp hf
    exact ⟨h2, h1⟩

/-- Creation aborts only for a pointer that is too far away, or that points to the second byte of the OffsetPtr itself. -/
theorem creation_aborts_iff (a p : Nat) (ha : Addr a) (hp : Addr p) :
    (∀ o, ofPtr a p ≠ .ok o) ↔ p ≠ 0 ∧ (p = a + 1 ∨ ¬ Off ((p : Int) - a)) := by
  constructor
  · intro h
    refine ⟨?_, ?_⟩
    · rintro rfl; exact h ⟨nullRep, none⟩ rfl
    · by_cases hp0 : p = 0
      · subst hp0; exact absurd rfl (h ⟨nullRep, none⟩)
      · by_cases h1 : p = a + 1
        · exact Or.inl h1
        · right
          intro ho
          exact h ⟨(p : Int) - a, none⟩ (by unfold ofPtr; rw [offsetFrom_eq ha hp hp0 h1 ho]; rfl)
  · rintro ⟨h0, h⟩ o ho
    obtain ⟨h1, h2⟩ := created a p ha hp o ho
    rcases h1 with ⟨h1, _⟩ | ⟨_, h3, h4⟩
    · exact h0 h1
    · have he : o.off = (p : Int) - a := by omega
      rcases h with h | h
      · rw [he] at h3; simp only [nullRep] at h3; omega
      · rw [he] at h2; exact h h2

/-- What an OffsetPtr designates is what `get` returns, if it is outside of the registered regions and not restricted to one. -/
theorem get_outside (env : Env) (a p size : Nat) (o : OP) (hp : Addr p) (ho : Off o.off) (hpl : Placed env a)
    (hr : env.region a = none) (hb : o.bnd = none) (h : Designates a o p) : get env a o size = .ok p := by
  have ha : Addr a := by have := hpl.1; unfold Addr; omega
  unfold OffsetPtr.get
  rw [checked_stack_pass hr hpl ho (by rw [hb]; simp)]
  exact designates_raw ha ho hp h

/-- It is also what `get` returns if the OffsetPtr is in a region that contains the object. -/
theorem get_inside (env : Env) (a p size : Nat) (o : OP) (r : Nat × Nat) (ho : Off o.off) (hpl : Placed env a)
    (hr : env.region a = some r) (hr2 : Addr r.2) (hp0 : p ≠ 0) (hin : Inside p size r) (h : Designates a o p) :
    get env a o size = .ok p := by
  have ha : Addr a := by have := hpl.1; unfold Addr; omega
  have hp : Addr p := by unfold Addr Inside at *; omega
  rcases h with ⟨h, _⟩ | ⟨h1, h2, h3⟩
  · exact absurd h hp0
  · unfold OffsetPtr.get
    rw [checked_shm_pass hr hpl hr2 ho h3 hin]
    exact raw_eq ha ho h2 hp h3

/-- A copy, and a copy of a copy, and so on, to any places, designates the same. -/
theorem copied (env : Env) (ds : List Nat) (a a' p : Nat) (o o' : OP) (ha : Addr a) (hds : ∀ d ∈ ds, Addr d) (ho : Off o.off)
    (hp : Addr p) (h : Designates a o p) (hc : copies env a o ds = .ok (a', o')) : Designates a' o' p :=
  (copies_designates ha hds ho hp h hc).2.2

/-- Copying succeeds for addresses in the lower half of the address space, unless an OffsetPtr would point to its own second
byte. -/
theorem copying_succeeds (env : Env) (ds : List Nat) (a p : Nat) (o : OP) (ha : Addr a) (ho : Off o.off) (hp : p < 2 ^ 63)
    (hds : ∀ d ∈ ds, d < 2 ^ 63 ∧ p ≠ d + 1) (h : Designates a o p) : ∃ a' o', copies env a o ds = .ok (a', o') :=
  copies_succeed ds ha ho hp hds h

/-- `get` of the last copy returns the object, wherever the copies are, as long as those in shared memory are in regions that
contain the object; this includes the copies that carry the bounds of the region they come from. -/
theorem copied_get (env : Env) (ds : List Nat) (a a' p size : Nat) (o o' : OP) (hds : ∀ d ∈ ds, Addr d)
    (ho : Off o.off) (hp : Addr p) (hp0 : p ≠ 0) (hpl : ∀ d ∈ a :: ds, Placed env d)
    (hreg : ∀ d ∈ a :: ds, ∀ r, env.region d = some r → Addr r.2 ∧ Inside p size r)
    (hb : ∀ r, o.bnd = some r → Addr r.2 ∧ Inside p size r)
    (h : Designates a o p) (hc : copies env a o ds = .ok (a', o')) : get env a' o' size = .ok p := by
  have ha : Addr a := by have := (hpl a (by simp)).1; unfold Addr; omega
  obtain ⟨g1, g2, g3, g4⟩ := copies_good hp hp0 ds ha ho hds hreg h hb hc
  have hpa := hpl a' g4
  have ha' : Addr a' := by have := hpa.1; unfold Addr; omega
  rcases g1 with ⟨g, _⟩ | ⟨_, h2, h3⟩
  · exact absurd g hp0
  · cases hr : env.region a' with
    | some r =>
      obtain ⟨e1, e2⟩ := hreg a' g4 r hr
      exact get_inside env a' p size o' r g2 hpa hr e1 hp0 e2 (Or.inr ⟨hp0, h2, h3⟩)
    | none =>
      unfold OffsetPtr.get
      rw [checked_stack_pass hr hpa g2 (fun r hr' => ⟨(g3 r hr').1, p, h3, (g3 r hr').2⟩)]
      exact raw_eq ha' g2 h2 hp h3

/-- The same bits seen at another mapping of the region (at `b'` instead of `b`) designate the same object of the region. -/
theorem remapped (b b' x y : Nat) (o : OP) (hy : b' + y ≠ 0) (h : Designates (b + x) o (b + y)) (hby : b + y ≠ 0) :
    Designates (b' + x) o (b' + y) := by
  rcases h with ⟨h, _⟩ | ⟨_, h2, h3⟩
  · exact absurd h hby
  · exact Or.inr ⟨hy, h2, by omega⟩

/-- A null OffsetPtr is null at every mapping and in every copy. -/
theorem null_everywhere (env : Env) (a a' : Nat) (o : OP) (h : Designates a o 0) :
    Designates a' o 0 ∧ copy env a o a' = .ok ⟨nullRep, none⟩ := by
  rcases h with ⟨_, h⟩ | ⟨h, _⟩
  · exact ⟨Or.inl ⟨rfl, h⟩, by simp [copy, raw, h, Res.bind]⟩
  · exact absurd rfl h

/-- Moving by `k` elements moves the designated address by `k` elements, or aborts; unless the result is the second byte of the
OffsetPtr itself. -/
theorem moved (a p size : Nat) (k : Int) (o o' : OP) (q : Nat) (hs : 0 < size) (ho : Off o.off) (hk : Off k) (hp0 : p ≠ 0)
    (hq : (p : Int) + size * k = q) (hq0 : q ≠ 0) (hqa : q ≠ a + 1) (h : Designates a o p) (hm : advance o size k = .ok o') :
    Designates a o' q := by
  obtain ⟨h1, h2, h3⟩ := advance_ok hs ho hk hm
  rcases h with ⟨h, _⟩ | ⟨_, g2, g3⟩
  · exact absurd h hp0
  · refine Or.inr ⟨hq0, ?_, by rw [h3]; omega⟩
    rw [h3]
    simp only [nullRep]
    omega

/-- From the region to the stack, to another place on the stack, back into the region, and out again. -/
example : ∃ o o', ofPtr 5000 6000 = .ok o ∧ copies env 5000 o [100, 900, 7000, 200] = .ok (200, o') ∧
    get env 200 o' 64 = .ok 6000 ∧ o'.bnd = some (4096, 8192) := ⟨⟨1000, none⟩, ⟨5800, some (4096, 8192)⟩, by decide +kernel⟩
example : ∀ d ∈ [5000, 100, 900, 7000, 200], Placed env d := by
  simp [Placed, env, ptrSize]
example : Designates (5000 + 10) ⟨990, none⟩ (5000 + 1000) ∧ Designates (70000 + 10) ⟨990, none⟩ (70000 + 1000) :=
  ⟨by unfold Designates; decide, by unfold Designates; decide⟩
example : advance ⟨1000, none⟩ 8 (-3) = .ok ⟨976, none⟩ := by decide +kernel

end Verif.Props.C48

namespace Verif.Props.C49
open Verif.OffsetPtr Verif.Demo.OffsetPtr

/-- `get` (also -> and the conversion to a pointer) of an OffsetPtr in a registered region, whatever its content: it aborts, or
returns null for the null representation, or an object of the requested size inside the region. -/
theorem get_stays_inside (env : Env) (a size p : Nat) (o : OP) (r : Nat × Nat) (he : env.enabled = true)
    (hr : env.region a = some r) (ha : Addr a) (ho : Off o.off) (hs : Addr size) (h : get env a o size = .ok p) :
    (p = 0 ∧ o.off = nullRep) ∨ Inside p size r :=
  get_shm he hr ha ho hs h

/-- `*` yields an object inside the region or aborts. -/
theorem deref_stays_inside (env : Env) (a size : Nat) (o : OP) (r : Nat × Nat) (he : env.enabled = true)
    (hr : env.region a = some r) (ha : Addr a) (ho : Off o.off) (hs : Addr size) (hr1 : 0 < r.1) :
    deref env a o size = .abort ∨ ∃ p, deref env a o size = .ok p ∧ Inside p size r := by
  unfold deref
  cases hg : get env a o size with
  | abort => exact Or.inl rfl
  | ub => exact absurd hg (checked_ne_ub _ _ _ _ _)
  | ok p =>
    simp only [Res.bind]
    rcases get_shm he hr ha ho hs hg with ⟨rfl, _⟩ | hin
    · exact Or.inl rfl
    · right
      have hp0 : p ≠ 0 := by have := hin.1; omega
      rw [if_neg hp0]
      exact ⟨p, rfl, hin⟩

/-- `[]` yields an object inside the region or aborts, if the offset of the element is representable. Full property: for every
offset; what is missing is that the sum is computed in the signed type (`index_is_undefined`). -/
theorem index_stays_inside_partial (env : Env) (a size p : Nat) (idx : Int) (o : OP) (r : Nat × Nat) (he : env.enabled = true)
    (hr : env.region a = some r) (ha : Addr a) (hs : Addr size) (h : index env a o size idx = .ok p) : Inside p size r := by
  unfold index at h
  split at h
  · rename_i hf
    cases hg : checked env a (o.off + size * idx) o.bnd size with
    | abort => rw [hg] at h; simp [Res.bind] at h
    | ub => rw [hg] at h; simp [Res.bind] at h
    | ok q =>
      rw [hg] at h
      simp only [Res.bind] at h
      split at h
      · simp at h
      · rename_i hq
        simp only [Res.ok.injEq] at h
        subst h
        rcases get_shm he hr ha hf.2 hs hg with ⟨h, _⟩ | h
        · exact absurd h hq
        · exact h
  · simp at h

/-- The same holds for an OffsetPtr that was copied out of the region, copied further and moved outside of the regions: it
carries the bounds of the region. Full property: also if a null OffsetPtr is moved, which is false (`moved_null_escapes`). -/
theorem copy_stays_inside_partial (env : Env) (a a' size p : Nat) (o o' : OP) (r : Nat × Nat) (us : List Use)
    (he : env.enabled = true) (hr : env.region a = some r) (ha : Addr a) (ho : Off o.off) (hs0 : 0 < size) (hs : Addr size)
    (hus : ∀ u ∈ us, match u with | .copy d => Addr d ∧ env.region d = none | .advance k => Off k)
    (hn : NoNullArith env size a o us) (h : uses env size a o us = .ok (a', o')) (hg : get env a' o' size = .ok p) :
    (p = 0 ∧ o'.off = nullRep) ∨ Inside p size r := by
  obtain ⟨h1, h2, h3⟩ := uses_tainted he hs0 us ha ho hus hn (Or.inl hr) h
  exact get_tainted he h1 h2 hs h3 hg

/-- Good and bad offsets. -/
example : env.region 5000 = some (4096, 8192) ∧ get env 5000 ⟨1000, none⟩ 64 = .ok 6000 ∧
    get env 5000 ⟨3191, none⟩ 2 = .abort ∧ get env 5000 ⟨-4000, none⟩ 2 = .abort ∧
    get env 5000 ⟨9223372036854775807, none⟩ 2 = .abort ∧ deref env 5000 ⟨1, none⟩ 2 = .abort ∧
    index env 5000 ⟨1000, none⟩ 8 (-3) = .ok 5976 := by decide +kernel
example : uses env 8 5000 ⟨1000, none⟩ [.copy 100, .advance 5, .copy 900] = .ok (900, ⟨5140, some (4096, 8192)⟩) ∧
    get env 900 ⟨5140, some (4096, 8192)⟩ 8 = .ok 6040 := by decide +kernel
/-- A corrupted offset is noticed in the copy of a copy. -/
example : uses env 8 5000 ⟨10000, none⟩ [.copy 100, .advance 5, .copy 900] = .ok (900, ⟨14140, some (4096, 8192)⟩) ∧
    get env 900 ⟨14140, some (4096, 8192)⟩ 8 = .abort := by decide +kernel

/-- Finding: for an offset written by another process, `[]` has undefined behaviour. -/
theorem index_is_undefined : ∃ (a size : Nat) (o : OP) (idx : Int) (r : Nat × Nat), env.region a = some r ∧ Off o.off ∧
    index env a o size idx = .ub :=
  ⟨5000, 8, ⟨9223372036854775807, none⟩, 1, (4096, 8192), by decide +kernel, by decide, by decide +kernel⟩

/-- Finding: after `swap`, an OffsetPtr on the stack has the unchecked content of the one in shared memory and no bounds: `get`
returns an address far outside of the region. -/
theorem swap_escapes : ∃ (la ra : Nat) (l r l' r' : OP) (reg : Nat × Nat), env.region ra = some reg ∧ env.region la = none ∧
    swap env la l ra r = .ok (l', r') ∧ get env ra r 8 = .abort ∧ get env la l' 8 = .ok 123456 :=
  ⟨100, 5000, ⟨4900, none⟩, ⟨118456, none⟩, ⟨123356, none⟩, ⟨0, none⟩, (4096, 8192), by decide +kernel⟩

/-- Finding: a null OffsetPtr in shared memory that is copied to the stack and moved, as in `base + 3`, designates an address
next to the copy on the stack, and `get` returns it. -/
theorem moved_null_escapes : ∃ (o' : OP), uses env 8 5000 ⟨nullRep, none⟩ [.copy 100, .advance 3] = .ok (100, o') ∧
    get env 100 o' 8 = .ok 125 := ⟨⟨25, none⟩, by decide +kernel⟩

end Verif.Props.C49

namespace Verif.Props.C50
open Verif.OffsetPtr Verif.Demo.OffsetPtr

/-- `get` of a null OffsetPtr outside of the regions returns null. -/
theorem outside (env : Env) (a size : Nat) (o : OP) (hpl : Placed env a) (hr : env.region a = none) (hb : o.bnd = none)
    (h : o.off = nullRep) : get env a o size = .ok 0 := by
  refine C48.get_outside env a 0 size o (by decide) (by rw [h]; decide) hpl hr hb (Or.inl ⟨rfl, h⟩)

/-- A null OffsetPtr that was copied from anywhere has no bounds. -/
theorem copied_null (env : Env) (a a' : Nat) (o : OP) (h : o.off = nullRep) : copy env a o a' = .ok ⟨nullRep, none⟩ := by
  simp [copy, raw, h, Res.bind]

/-- `get` of a null OffsetPtr in a region returns null, or aborts; it returns null if an object of the pointed-to type would fit
between the second byte of the OffsetPtr and the end of the region. Full property: it always returns null, which is false
(`null_aborts`). -/
theorem in_region_partial (env : Env) (a size : Nat) (o : OP) (r : Nat × Nat) (hpl : Placed env a) (hr : env.region a = some r)
    (hr2 : Addr r.2) (h : o.off = nullRep) (hfit : a + 1 + size ≤ r.2) : get env a o size = .ok 0 := by
  have hpl' := hpl
  unfold Placed at hpl'
  rw [hr] at hpl'
  unfold OffsetPtr.get
  rw [h, checked_shm_pass (p := a + 1) hr hpl hr2 (by decide) (by simp [nullRep]) ⟨by omega, hfit⟩]
  rfl

/-- Without bounds checking `get` of a null OffsetPtr returns null. -/
theorem unchecked (env : Env) (a size : Nat) (o : OP) (he : env.enabled = false) (h : o.off = nullRep) :
    get env a o size = .ok 0 := by
  simp [OffsetPtr.get, checked, he, raw, h]

example : get env 5000 ⟨nullRep, none⟩ 3000 = .ok 0 ∧ get env 100 ⟨nullRep, none⟩ 3000 = .ok 0 := by decide +kernel

/-- Finding: `get` of a null OffsetPtr to a large object near the end of its region aborts. -/
theorem null_aborts : ∃ (a size : Nat), Placed env a ∧ get env a ⟨nullRep, none⟩ size = .abort ∧
    nonNull ⟨nullRep, none⟩ = false :=
  ⟨8000, 200, by unfold Placed; simp [env, ptrSize], by decide +kernel, rfl⟩

/-- Finding: `[]` of a null OffsetPtr in a region is not noticed for an index other than 0. -/
theorem index_of_null : ∃ (a size : Nat) (idx : Int), index env a ⟨nullRep, none⟩ size idx = .ok 5009 :=
  ⟨5000, 8, 1, by decide +kernel⟩

end Verif.Props.C50
