import Verif.Proofs.SizingSvc
namespace Verif.Sizing
open Verif.Arith Verif.Props.ArithSpec

theorem not_accessor {e : Elem} (hv : e.Valid) (ha : ¬ e.Accessor) {n m : Nat} (hn : cfgSlots e = some n) (hm : cfgSubs e = some m) :
    properties e = some (n, m) ∧ n < 65536 := by
  unfold cfgSlots at hn
  simp only [Option.bind_eq_bind, Option.bind_eq_some_iff] at hn
  obtain ⟨k, hk, hn⟩ := hn
  split at hn
  · cases hn
  · cases hn
    have hx : extraSlots e = 0 := by
      unfold extraSlots
      split
      · rfl
      · rename_i t ht
        have h1 : t.getter = false := by
          cases h : t.getter with
          | false => rfl
          | true => exact absurd ⟨t, ht, .inl h⟩ ha
        have h2 : t.setter = false := by
          cases h : t.setter with
          | false => rfl
          | true => exact absurd ⟨t, ht, .inr h⟩ ha
        simp [h1, h2]
    have hs : subscribers e = some m := by
      unfold subscribers
      split
      · exact hm
      · rename_i t ht
        rcases hv.tags t ht with h | h
        · exact absurd ⟨t, ht, .inl h⟩ ha
        · rw [if_pos h]; exact hm
    refine ⟨?_, by omega⟩
    unfold properties
    rw [hk, hs, hx]
    rfl

theorem allData_small {lib : Lib} (hl : lib.Valid) {svc : Svc} (hv : svc.Valid) (hp : ∀ e ∈ svc.elems, ∃ x, properties e = some x) :
    ∀ x ∈ allData lib svc, x.1 < 2 ^ 64 := by
  intro x hx
  have hc := hv.count
  have k1 := (hl.mem (t := lib.storage) (by simp)).2.2.1
  have k2 := mul_small (show svc.elems.length < 2 ^ 18 by omega) (hl.mem (t := lib.eventEntry) (by simp)).2.2.1
  have k3 := mul_small (show svc.elems.length < 2 ^ 18 by omega) (hl.mem (t := lib.metaEntry) (by simp)).2.2.1
  have k4 := (hl.mem (t := lib.eventStorage) (by simp)).2.2.1
  simp only [allData, List.cons_append, List.nil_append, List.mem_cons, List.mem_flatMap, elemData, List.not_mem_nil, or_false] at hx
  rcases hx with rfl | rfl | rfl | ⟨e, he, rfl | rfl⟩
  · dsimp only; omega
  · dsimp only; omega
  · dsimp only; omega
  · dsimp only; omega
  · obtain ⟨⟨n, s⟩, hpe⟩ := hp e he
    have hn := (properties_small (hv.elems e he) hpe).1
    have h1 := mul_small hn (hv.elems e he).sample.modest
    have h2 := chunks_le hl h1
    rw [hpe]
    simp only [slotReq, Option.getD_some]
    split
    · dsimp only; omega
    · dsimp only; omega

theorem allControl_small {lib : Lib} (hl : lib.Valid) {svc : Svc} (hv : svc.Valid) : ∀ x ∈ allControl lib svc, x.1 < 2 ^ 64 := by
  intro x hx
  have hc := hv.count
  have hW := W_eq
  have k1 := (hl.mem (t := lib.control) (by simp)).2.2.1
  have k2 := mul_small (show svc.elems.length < 2 ^ 18 by omega) (hl.mem (t := lib.controlEntry) (by simp)).2.2.1
  have k3 := mul_small (show maxPids < 2 ^ 18 by decide) (hl.mem (t := lib.pidEntry) (by simp)).2.2.1
  simp only [allControl, List.cons_append, List.nil_append, List.mem_cons, List.mem_flatMap, elemControl, controlArrays, List.mem_append,
    List.mem_replicate, List.not_mem_nil, or_false] at hx
  have hmod : ∀ a, a % W < 2 ^ 64 := fun a => by rw [← hW]; exact Nat.mod_lt _ (by decide)
  rcases hx with rfl | rfl | rfl | ⟨e, he, h⟩
  · dsimp only; omega
  · dsimp only; omega
  · dsimp only; omega
  · rcases h with h | h | h | h | h
    · rw [h]; exact hmod _
    · rw [h]; exact hmod _
    · rw [h]; exact hmod _
    · rw [h.2]; exact hmod _
    · rw [h]; exact hmod _

theorem Div.lt64 {lib : Lib} (hl : lib.Valid) {l : List Req} (h : Div lib.maxAlign.align l) : ∀ x ∈ l, x.2 < 2 ^ 64 := by
  intro x hx
  have := Nat.le_of_dvd hl.max.pos (h x hx).2
  have := hl.page
  omega

/-- The analysis computes the end of the sequence that is created. -/
theorem analysis_spec {lib : Lib} (hl : lib.Valid) {svc : Svc} (hv : svc.Valid) (hf : ∀ e ∈ svc.elems, e.sample.Fundamental lib)
    (ha : ∀ e ∈ svc.elems, ¬ e.Accessor) {d c : Nat} (hd : analyseData lib svc = some d) (hc : analyseControl lib svc = some c) :
    (∀ e ∈ svc.elems, ∃ x, properties e = some x) ∧ d = ideal 0 (allData lib svc) ∧ c = ideal 0 (allControl lib svc) := by
  have hW := W_eq
  have hcount := hv.count
  unfold analyseControl at hc
  simp only [Option.bind_eq_bind, Option.bind_eq_some_iff] at hc
  obtain ⟨infos, hi, hc⟩ := hc
  have hall : ∀ e ∈ svc.elems, ∃ n m, cfgSlots e = some n ∧ cfgSubs e = some m ∧ properties e = some (n, m) ∧ n < 65536 := by
    intro e he
    obtain ⟨x, hx⟩ := mapM_some hi e he
    simp only [Option.bind_eq_some_iff] at hx
    obtain ⟨n, hn, m, hm, -⟩ := hx
    obtain ⟨h1, h2⟩ := not_accessor (hv.elems e he) (ha e he) hn hm
    exact ⟨n, m, hn, hm, h1, h2⟩
  have hp : ∀ e ∈ svc.elems, ∃ x, properties e = some x := fun e he => by
    obtain ⟨n, m, -, -, h, -⟩ := hall e he
    exact ⟨_, h⟩
  refine ⟨hp, ?_, ?_⟩
  · unfold analyseData at hd
    simp only [Option.bind_eq_bind, Option.bind_eq_some_iff] at hd
    obtain ⟨arrays, hm, hd⟩ := hd
    have k2 := mul_small (show svc.elems.length < 2 ^ 18 by omega) (hl.mem (t := lib.eventEntry) (by simp)).2.2.1
    have k3 := mul_small (show svc.elems.length < 2 ^ 18 by omega) (hl.mem (t := lib.metaEntry) (by simp)).2.2.1
    rw [Nat.mod_eq_of_lt (a := svc.elems.length * lib.eventEntry.size) (by omega),
      Nat.mod_eq_of_lt (a := svc.elems.length * lib.metaEntry.size) (by omega),
      mapM_flatMap (g := elemData lib svc.generic) hm (by
        intro e he a hea
        obtain ⟨n, m, h1, -, h3, h4⟩ := hall e he
        have s1 := mul_small (show n < 2 ^ 18 by omega) (hv.elems e he).sample.modest
        have s2 := chunks_le hl s1
        unfold slotArray at hea
        rw [h1] at hea
        dsimp only [Option.bind_eq_bind, Option.bind_some] at hea
        unfold elemData slotReq
        rw [h3]
        simp only [Option.getD_some]
        rw [Nat.mod_eq_of_lt (a := n * e.sample.size) (by omega), Nat.mod_eq_of_lt (a := chunks lib (n * e.sample.size) * lib.maxAlign.size) (by omega)] at hea
        split at hea
        · rename_i hg; cases hea; rw [if_pos hg]
        · rename_i hg; cases hea; rw [if_neg hg])] at hd
    have hdiv := allData_div hl hv hf
    exact sequence_ideal _ 0 d (fun x _ => Nat.dvd_zero _) hd (by omega)
      (fun x hx => ⟨allData_small hl hv hp x hx, hdiv.lt64 hl x hx⟩)
  · have k2 := mul_small (show svc.elems.length < 2 ^ 18 by omega) (hl.mem (t := lib.controlEntry) (by simp)).2.2.1
    have k3 := mul_small (show maxPids < 2 ^ 18 by decide) (hl.mem (t := lib.pidEntry) (by simp)).2.2.1
    rw [Nat.mod_eq_of_lt (a := svc.elems.length * lib.controlEntry.size) (by omega),
      Nat.mod_eq_of_lt (a := maxPids * lib.pidEntry.size) (by omega),
      mapM_flatMap (g := elemControl lib) hi (by
        intro e he a hea
        obtain ⟨n, m, h1, h2, h3, h4⟩ := hall e he
        rw [h1, h2] at hea
        dsimp only [Option.bind_some, pure] at hea
        cases hea
        unfold elemControl
        rw [h3]
        simp only [Option.getD_some]
        rw [Nat.mod_eq_of_lt h4])] at hc
    have hdiv := allControl_div hl (svc := svc)
    exact sequence_ideal _ 0 c (fun x _ => Nat.dvd_zero _) hc (by omega)
      (fun x hx => ⟨allControl_small hl hv x hx, hdiv.lt64 hl x hx⟩)

theorem createData_props {lib : Lib} {skip : Bool} {svc : Svc} {l : List Req} (h : createData lib skip svc = some l) :
    ∀ e ∈ svc.elems, ∃ x, properties e = some x := by
  intro e he
  unfold createData at h
  simp only [Option.bind_eq_bind, Option.bind_eq_some_iff] at h
  obtain ⟨_, -, _, -, rest, hr, -⟩ := h
  obtain ⟨a, ha⟩ := mapM_some hr e he
  unfold createElemData at ha
  cases hp : properties e with
  | none => rw [hp] at ha; cases ha
  | some x => exact ⟨x, rfl⟩

/-- What the calculated sizes have to do with what is created. -/
theorem calculate_spec {lib : Lib} (hl : lib.Valid) {svc : Svc} (hv : svc.Valid) (hf : ∀ e ∈ svc.elems, e.sample.Fundamental lib)
    {mode : Mode} (ha : mode = .analysis → ∀ e ∈ svc.elems, ¬ e.Accessor) {skip : Bool} {d c : Nat}
    (h : calculate lib skip svc mode = some (d, c)) :
    ∃ ld lc, createData lib skip svc = some ld ∧ createControl lib skip svc = some lc ∧ Div lib.maxAlign.align ld ∧
      Div lib.maxAlign.align lc ∧ ideal 0 ld ≤ d ∧ ideal 0 lc ≤ c ∧
      (skip = false ∨ mode = .simulation → ideal 0 ld = d ∧ ideal 0 lc = c) := by
  cases mode with
  | analysis =>
    simp only [calculate, Option.bind_eq_bind, Option.bind_eq_some_iff, pure, Option.some.injEq, Prod.mk.injEq] at h
    obtain ⟨d', hd, c', hc, rfl, rfl⟩ := h
    obtain ⟨hp, e1, e2⟩ := analysis_spec hl hv hf (ha rfl) hd hc
    obtain ⟨ld, a1, b1, c1⟩ := createData_spec hl hv hf hp skip
    obtain ⟨lc, a2, b2, c2⟩ := createControl_spec hl hv hp skip
    have g1 := allData_div hl hv hf
    have g2 := allControl_div hl (svc := svc)
    refine ⟨ld, lc, a1, a2, g1.sublist b1, g2.sublist b2, ?_, ?_, ?_⟩
    · rw [e1]; exact ideal_sublist b1 0 0 g1 (Nat.le_refl _)
    · rw [e2]; exact ideal_sublist b2 0 0 g2 (Nat.le_refl _)
    · intro hs
      rcases hs with hs | hs
      · rw [e1, e2, c1 hs, c2 hs]; exact ⟨rfl, rfl⟩
      · cases hs
  | simulation =>
    simp only [calculate, Option.bind_eq_bind, Option.bind_eq_some_iff, pure, Option.some.injEq, Prod.mk.injEq] at h
    obtain ⟨ld, hld, lc, hlc, d', hd, c', hc, rfl, rfl⟩ := h
    have hp := createData_props hld
    obtain ⟨ld', a1, b1, c1⟩ := createData_spec hl hv hf hp skip
    obtain ⟨lc', a2, b2, c2⟩ := createControl_spec hl hv hp skip
    rw [hld] at a1; cases a1
    rw [hlc] at a2; cases a2
    have g1 := (allData_div hl hv hf).sublist b1
    have g2 := (allControl_div hl (svc := svc)).sublist b2
    have e1 := simulate_some _ _ _ (g1.of_dvd hl.page_dvd) hd
    have e2 := simulate_some _ _ _ (g2.of_dvd hl.page_dvd) hc
    exact ⟨ld, lc, hld, hlc, g1, g2, by omega, by omega, fun _ => ⟨e1.symm, e2.symm⟩⟩

theorem sizes_of_calculate {lib : Lib} {skip : Bool} {svc : Svc} {mode : Mode} {d c : Nat} (h : calculate lib skip svc mode = some (d, c)) :
    sizes lib skip svc mode = some (svc.manualData.getD d, svc.manualQm.getD c, svc.manualB.getD c) := by
  unfold sizes
  cases svc.manualData <;> cases svc.manualQm <;> cases svc.manualB <;> simp [h]

theorem atLeast_getD {m : Option Nat} {n : Nat} (h : AtLeast m n) : n ≤ m.getD n := by
  cases m with
  | none => exact Nat.le_refl _
  | some v => exact h v rfl

theorem offer_spec {lib : Lib} (hl : lib.Valid) {svc : Svc} (hv : svc.Valid) (hf : ∀ e ∈ svc.elems, e.sample.Fundamental lib)
    {mode : Mode} (ha : mode = .analysis → ∀ e ∈ svc.elems, ¬ e.Accessor) {skip : Bool} {d c : Nat}
    (h : calculate lib skip svc mode = some (d, c)) (m1 : AtLeast svc.manualData d) (m2 : AtLeast svc.manualQm c)
    (m3 : AtLeast svc.manualB c) {bases : Bases} (hb : bases.Mapped lib skip svc mode) :
    ∃ ud uc, offer lib skip svc mode bases = some ⟨ud, uc, if svc.asilB then some uc else none⟩ ∧ ud ≤ d ∧ uc ≤ c ∧
      (skip = false ∨ mode = .simulation → ud = d ∧ uc = c) := by
  obtain ⟨ld, lc, h1, h2, g1, g2, le1, le2, heq⟩ := calculate_spec hl hv hf ha h
  have hs := sizes_of_calculate h
  obtain ⟨q1, q2, q3⟩ := hb _ _ _ hs
  have d1 := atLeast_getD m1
  have d2 := atLeast_getD m2
  have d3 := atLeast_getD m3
  refine ⟨ideal 0 ld, ideal 0 lc, ?_, le1, le2, heq⟩
  unfold offer
  rw [hs, h1, h2]
  dsimp only [Option.bind_eq_bind, Option.bind_some]
  rw [create_eq hl g2 q2, if_pos (by omega)]
  dsimp only [Option.bind_some]
  cases hab : svc.asilB with
  | false =>
    simp only [Bool.false_eq_true, if_false, Option.bind_some]
    rw [create_eq hl g1 q1, if_pos (by omega)]
    rfl
  | true =>
    simp only [if_true]
    rw [create_eq hl g2 (q3 hab), if_pos (by omega)]
    dsimp only [Option.map_some, Option.bind_some]
    rw [create_eq hl g1 q1, if_pos (by omega)]
    rfl

/-! ## The analysis does not count the slots for getters and setters -/

/-- The service elements with so many slots each. -/
def withSlots (lib : Lib) (f : Elem → Nat) (es : List Elem) : List Req :=
  es.flatMap (fun e => [(lib.eventStorage.size, lib.eventStorage.align), (f e * e.sample.size, e.sample.align)])

theorem withSlots_div {lib : Lib} (hl : lib.Valid) {es : List Elem} (hs : ∀ e ∈ es, e.sample.Valid) (hf : ∀ e ∈ es, e.sample.Fundamental lib)
    (f : Elem → Nat) : Div lib.maxAlign.align (withSlots lib f es) := by
  intro x hx
  have k4 := hl.mem (t := lib.eventStorage) (by simp)
  simp only [withSlots, List.mem_flatMap, List.mem_cons, List.not_mem_nil, or_false] at hx
  obtain ⟨e, he, rfl | rfl⟩ := hx
  · exact ⟨k4.1, k4.2.1⟩
  · exact ⟨(hs e he).pos, (hs e he).dvd hl (hf e he)⟩

theorem withSlots_mono {lib : Lib} (hl : lib.Valid) {f g : Elem → Nat} : ∀ (es : List Elem) (p q : Nat), (∀ e ∈ es, e.sample.Valid) →
    (∀ e ∈ es, f e ≤ g e) → p ≤ q → ideal p (withSlots lib f es) ≤ ideal q (withSlots lib g es)
  | [], _, _, _, _, h => h
  | e :: es, p, q, hs, hfg, hpq => by
    have k4 := hl.mem (t := lib.eventStorage) (by simp)
    have h1 := up_mono k4.1 hpq
    have h2 := up_mono (hs e (by simp)).pos (Nat.add_le_add_right h1 lib.eventStorage.size)
    have h3 := Nat.mul_le_mul_right e.sample.size (hfg e (by simp))
    have := withSlots_mono hl es (p := up e.sample.align (up lib.eventStorage.align p + lib.eventStorage.size) + f e * e.sample.size)
      (q := up e.sample.align (up lib.eventStorage.align q + lib.eventStorage.size) + g e * e.sample.size)
      (fun x hx => hs x (by simp [hx])) (fun x hx => hfg x (by simp [hx])) (by omega)
    simpa only [withSlots, List.flatMap_cons, List.cons_append, List.nil_append, ideal] using this

theorem withSlots_strict {lib : Lib} (hl : lib.Valid) {f g : Elem → Nat} {es : List Elem} {e : Elem} {p : Nat}
    (hs : ∀ x ∈ es ++ [e], x.sample.Valid) (hfg : ∀ x ∈ es ++ [e], f x ≤ g x) (hlt : f e < g e) :
    ideal p (withSlots lib f (es ++ [e])) < ideal p (withSlots lib g (es ++ [e])) := by
  have k4 := hl.mem (t := lib.eventStorage) (by simp)
  have h0 := withSlots_mono hl es (f := f) (g := g) p p (fun x hx => hs x (by simp [hx])) (fun x hx => hfg x (by simp [hx])) (Nat.le_refl _)
  have hse := hs e (by simp)
  have h1 := up_mono k4.1 h0
  have h2 := up_mono hse.pos (Nat.add_le_add_right h1 lib.eventStorage.size)
  have h3 := Nat.mul_lt_mul_of_pos_right hlt hse.nonempty
  have hsplit : ∀ f, withSlots lib f (es ++ [e]) = withSlots lib f es ++ withSlots lib f [e] := fun f => by simp [withSlots]
  rw [hsplit, hsplit, ideal_append, ideal_append]
  simp only [withSlots, List.flatMap_cons, List.flatMap_nil, List.append_nil, ideal]
  simp only [withSlots] at h2
  omega

theorem createData_full {lib : Lib} (hl : lib.Valid) {svc : Svc} (hv : svc.Valid) (hf : ∀ e ∈ svc.elems, e.sample.Fundamental lib)
    (hp : ∀ e ∈ svc.elems, ∃ x, properties e = some x ∧ 0 < x.1) (hg : svc.generic = false) (hne : svc.elems ≠ []) (skip : Bool) :
    createData lib skip svc = some (allData lib svc) := by
  have hW := W_eq
  have hc := hv.count
  have hpos : 0 < svc.elems.length := List.length_pos_iff.2 hne
  have h1 := mul_small (show svc.elems.length < 2 ^ 18 by omega) (hl.mem (t := lib.eventEntry) (by simp)).2.2.1
  have h2 := mul_small (show svc.elems.length < 2 ^ 18 by omega) (hl.mem (t := lib.metaEntry) (by simp)).2.2.1
  obtain ⟨l1, a1, b1, c1⟩ := array_spec (skip := skip) (n := svc.elems.length) (t := lib.eventEntry) (by omega)
  obtain ⟨l2, a2, b2, c2⟩ := array_spec (skip := skip) (n := svc.elems.length) (t := lib.metaEntry) (by omega)
  obtain ⟨ls, a3, b3, c3⟩ := mapM_spec (skip := True) (f := createElemData lib skip svc.generic) (g := elemData lib svc.generic) svc.elems (by
    intro e he
    obtain ⟨⟨n, subs⟩, hpe, hn⟩ := hp e he
    obtain ⟨l, q1, q2, q3⟩ := elemData_spec hl (hv.elems e he).sample (hf e he) (skip := skip) (g := svc.generic) hpe
      (properties_small (hv.elems e he) hpe).1
    refine ⟨l, q1, ?_, ?_⟩
    · unfold elemData; rw [hpe]; exact q2
    · intro _; unfold elemData; rw [hpe]; exact q3 (.inr ⟨hn, hg⟩))
  unfold createData allData
  rw [a1, a2, a3]
  dsimp only [Option.bind_eq_bind, Option.bind_some, pure, object]
  rw [c1 (.inr hpos), c2 (.inr hpos), c3 trivial]; rfl

theorem properties_slots {e : Elem} {n subs : Nat} (h : properties e = some (n, subs)) : ∃ k, e.slots = some k ∧ n = k + e.tracing + extraSlots e := by
  unfold properties at h
  split at h
  · rename_i k s hk hs
    simp only [Option.some.injEq, Prod.mk.injEq] at h
    exact ⟨k, hk, h.1.symm⟩
  · cases h

theorem accessor_extra {e : Elem} (h : e.Accessor) : 0 < extraSlots e := by
  obtain ⟨t, ht, h⟩ := h
  unfold extraSlots
  rw [ht]
  rcases h with h | h
  · simp only [h, getterSlots, if_true]; omega
  · simp only [h, getterSlots, if_true]; omega

/-- The number of configured slots. -/
def cfgN (e : Elem) : Nat := e.slots.getD 0 + e.tracing
/-- The number of created slots. -/
def realN (e : Elem) : Nat := ((properties e).getD (0, 0)).1

theorem offer_data {lib : Lib} {skip : Bool} {svc : Svc} {mode : Mode} {bases : Bases} {u : Used} (ho : offer lib skip svc mode bases = some u) :
    ∃ d q b ld ud, sizes lib skip svc mode = some (d, q, b) ∧ createData lib skip svc = some ld ∧ create lib d bases.data ld = some ud := by
  unfold offer at ho
  cases hab : svc.asilB with
  | false =>
    simp only [hab, Bool.false_eq_true, if_false, Option.bind_eq_bind, Option.bind_eq_some_iff, Option.bind_some] at ho
    obtain ⟨⟨d, q, b⟩, hs, ld, hld, lc, hlc, uq, huq, ud, hud, -⟩ := ho
    exact ⟨d, q, b, ld, ud, hs, hld, hud⟩
  | true =>
    simp only [hab, if_true, Option.bind_eq_bind, Option.bind_eq_some_iff] at ho
    obtain ⟨⟨d, q, b⟩, hs, ld, hld, lc, hlc, uq, huq, ub, hub, ud, hud, -⟩ := ho
    exact ⟨d, q, b, ld, ud, hs, hld, hud⟩

theorem accessor_none {lib : Lib} (hl : lib.Valid) {svc : Svc} (hv : svc.Valid) (hf : ∀ e ∈ svc.elems, e.sample.Fundamental lib)
    (hg : svc.generic = false) (hm : svc.manualData = none) {es : List Elem} {e : Elem} (he : svc.elems = es ++ [e]) (ha : e.Accessor)
    (hpos : ∀ x ∈ svc.elems, x.slots ≠ some 0) {skip : Bool} {bases : Bases} (hb : bases.Mapped lib skip svc .analysis) :
    offer lib skip svc .analysis bases = none := by
  have hW := W_eq
  cases ho : offer lib skip svc .analysis bases with
  | none => rfl
  | some u =>
    exfalso
    obtain ⟨d, q, b, ld, ud, hs, hld, hud⟩ := offer_data ho
    have hp := createData_props hld
    have hp' : ∀ x ∈ svc.elems, ∃ y, properties x = some y ∧ 0 < y.1 := by
      intro x hx
      obtain ⟨⟨n, s⟩, hy⟩ := hp x hx
      obtain ⟨k, hk, hn⟩ := properties_slots hy
      have : k ≠ 0 := fun h0 => hpos x hx (h0 ▸ hk)
      exact ⟨_, hy, by dsimp only; omega⟩
    have hfull := createData_full hl hv hf hp' hg (by rw [he]; simp) skip
    rw [hld] at hfull; cases hfull
    rw [create_eq hl (allData_div hl hv hf) (hb _ _ _ hs).1] at hud
    split at hud
    case isFalse => cases hud
    case isTrue hle =>
    have hd : analyseData lib svc = some d := by
      unfold sizes at hs
      rw [hm] at hs
      dsimp only at hs
      cases hc : calculate lib skip svc .analysis with
      | none => rw [hc] at hs; cases hs
      | some x =>
        obtain ⟨d', c'⟩ := x
        rw [hc] at hs
        simp only [Option.getD_none, Option.some.injEq, Prod.mk.injEq] at hs
        simp only [calculate, Option.bind_eq_bind, Option.bind_eq_some_iff, pure, Option.some.injEq, Prod.mk.injEq] at hc
        obtain ⟨d2, hd2, c2, -, h1, -⟩ := hc
        rw [hd2, h1, hs.1]
    unfold analyseData at hd
    simp only [Option.bind_eq_bind, Option.bind_eq_some_iff] at hd
    obtain ⟨arrays, hma, hd⟩ := hd
    have hcount := hv.count
    have k1 := (hl.mem (t := lib.storage) (by simp)).2.2.1
    have k2 := mul_small (show svc.elems.length < 2 ^ 18 by omega) (hl.mem (t := lib.eventEntry) (by simp)).2.2.1
    have k3 := mul_small (show svc.elems.length < 2 ^ 18 by omega) (hl.mem (t := lib.metaEntry) (by simp)).2.2.1
    have k4 := (hl.mem (t := lib.eventStorage) (by simp)).2.2.1
    have hcfg : ∀ x ∈ svc.elems, cfgN x < 65536 := by
      intro x hx
      obtain ⟨a, ha⟩ := mapM_some hma x hx
      unfold slotArray at ha
      simp only [Option.bind_eq_bind, Option.bind_eq_some_iff] at ha
      obtain ⟨n, hn, -⟩ := ha
      unfold cfgSlots at hn
      simp only [Option.bind_eq_bind, Option.bind_eq_some_iff] at hn
      obtain ⟨k, hk, hn⟩ := hn
      split at hn
      · cases hn
      · unfold cfgN; rw [hk]; simp only [Option.getD_some]; omega
    rw [Nat.mod_eq_of_lt (a := svc.elems.length * lib.eventEntry.size) (by omega),
      Nat.mod_eq_of_lt (a := svc.elems.length * lib.metaEntry.size) (by omega),
      mapM_flatMap (g := fun e => [(lib.eventStorage.size, lib.eventStorage.align), (cfgN e * e.sample.size, e.sample.align)]) hma (by
        intro x hx a hxa
        have s1 := mul_small (show cfgN x < 2 ^ 18 by have := hcfg x hx; omega) (hv.elems x hx).sample.modest
        unfold slotArray at hxa
        rw [hg] at hxa
        simp only [Option.bind_eq_bind, Option.bind_eq_some_iff, Bool.false_eq_true, if_false, Option.some.injEq] at hxa
        obtain ⟨n, hn, rfl⟩ := hxa
        unfold cfgSlots at hn
        simp only [Option.bind_eq_bind, Option.bind_eq_some_iff] at hn
        obtain ⟨k, hk, hn⟩ := hn
        split at hn
        · cases hn
        · cases hn
          have : cfgN x = k + x.tracing := by unfold cfgN; rw [hk]; rfl
          rw [this] at s1 ⊢
          rw [Nat.mod_eq_of_lt (by omega)])] at hd
    have hvs : ∀ x ∈ svc.elems, x.sample.Valid := fun x hx => (hv.elems x hx).sample
    have g1 := withSlots_div hl hvs hf cfgN
    have m1 := hl.mem (t := lib.storage) (by simp)
    have m2 := hl.mem (t := lib.eventEntry) (by simp)
    have m3 := hl.mem (t := lib.metaEntry) (by simp)
    have m4 := hl.mem (t := lib.eventStorage) (by simp)
    have hdiv : Div lib.maxAlign.align ([(lib.storage.size, lib.storage.align), (svc.elems.length * lib.eventEntry.size, lib.eventEntry.align),
        (svc.elems.length * lib.metaEntry.size, lib.metaEntry.align)] ++ withSlots lib cfgN svc.elems) := by
      intro x hx
      rcases List.mem_append.1 hx with hx | hx
      · simp only [List.mem_cons, List.not_mem_nil, or_false] at hx
        rcases hx with rfl | rfl | rfl
        · exact ⟨m1.1, m1.2.1⟩
        · exact ⟨m2.1, m2.2.1⟩
        · exact ⟨m3.1, m3.2.1⟩
      · exact g1 x hx
    have heq := sequence_ideal _ 0 d (fun x _ => Nat.dvd_zero _) hd (by omega) (fun x hx => ⟨by
      rcases List.mem_append.1 hx with hx | hx
      · simp only [List.mem_cons, List.not_mem_nil, or_false] at hx
        rcases hx with rfl | rfl | rfl <;> dsimp only <;> omega
      · simp only [List.mem_flatMap, List.mem_cons, List.not_mem_nil, or_false] at hx
        obtain ⟨y, hy, rfl | rfl⟩ := hx
        · dsimp only; omega
        · have s1 := mul_small (show cfgN y < 2 ^ 18 by have := hcfg y hy; omega) (hv.elems y hy).sample.modest
          dsimp only; omega, hdiv.lt64 hl x hx⟩)
    have hle2 : ∀ x ∈ svc.elems, cfgN x + extraSlots x = realN x := by
      intro x hx
      obtain ⟨⟨n, s⟩, hy⟩ := hp x hx
      obtain ⟨k, hk, hn⟩ := properties_slots hy
      unfold cfgN realN
      rw [hy, hk, hn]
      simp only [Option.getD_some]
    have hlt : ideal 0 ([(lib.storage.size, lib.storage.align), (svc.elems.length * lib.eventEntry.size, lib.eventEntry.align),
        (svc.elems.length * lib.metaEntry.size, lib.metaEntry.align)] ++ withSlots lib cfgN svc.elems) < ideal 0 (allData lib svc) := by
      have hreal : allData lib svc = [(lib.storage.size, lib.storage.align), (svc.elems.length * lib.eventEntry.size, lib.eventEntry.align),
        (svc.elems.length * lib.metaEntry.size, lib.metaEntry.align)] ++ withSlots lib realN svc.elems := by
        unfold allData withSlots elemData slotReq realN
        rw [hg]
        simp
      rw [hreal, ideal_append, ideal_append]
      have hext := accessor_extra ha
      rw [he] at hvs hle2 ⊢
      exact withSlots_strict hl hvs (fun x hx => by have := hle2 x hx; omega) (by have := hle2 e (by simp); omega)
    have : d = ideal 0 ([(lib.storage.size, lib.storage.align), (svc.elems.length * lib.eventEntry.size, lib.eventEntry.align),
        (svc.elems.length * lib.metaEntry.size, lib.metaEntry.align)] ++ withSlots lib cfgN svc.elems) := heq
    omega

theorem missing_none {lib : Lib} {svc : Svc} {e : Elem} (he : e ∈ svc.elems) (hs : e.maxSubs = none)
    (hm : svc.manualData = none ∨ svc.manualQm = none ∨ svc.manualB = none) {skip : Bool} (bases : Bases) :
    offer lib skip svc .analysis bases = none := by
  have hc : calculate lib skip svc .analysis = none := by
    cases h : calculate lib skip svc .analysis with
    | none => rfl
    | some x =>
      exfalso
      obtain ⟨d, c⟩ := x
      simp only [calculate, Option.bind_eq_bind, Option.bind_eq_some_iff] at h
      obtain ⟨d', -, c', hc', -⟩ := h
      unfold analyseControl at hc'
      simp only [Option.bind_eq_bind, Option.bind_eq_some_iff] at hc'
      obtain ⟨infos, hi, -⟩ := hc'
      obtain ⟨a, ha⟩ := mapM_some hi e he
      simp only [Option.bind_eq_some_iff] at ha
      obtain ⟨n, hn, m, hm, -⟩ := ha
      unfold cfgSubs at hm
      rw [hs] at hm
      cases hm
  have : sizes lib skip svc .analysis = none := by
    unfold sizes
    rcases hm with h | h | h
    · rw [h]; simp [hc]
    · rw [h]; cases svc.manualData <;> simp [hc]
    · rw [h]; cases svc.manualData <;> cases svc.manualQm <;> simp [hc]
  unfold offer
  rw [this]; rfl

end Verif.Sizing
