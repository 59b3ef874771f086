import Verif.Spec.OffsetPtr
import Verif.Props.Arith
/-! Lemmas on OffsetPtr. -/
namespace Verif.OffsetPtr

theorem addU_eq {a n : Nat} (ha : Addr a) (hn : Addr n) : addU a n = if a + n < 2 ^ 64 then .ok (a + n) else .abort := by
  unfold addU
  rw [Props.C47.add_exact a n ha hn]
  by_cases h : a + n < 2 ^ 64
  · rw [if_pos h, if_pos h]; rfl
  · rw [if_neg h, if_neg h]; rfl

theorem addS_eq {a : Nat} {i : Int} (ha : Addr a) (hi : Off i) :
    addS a i = if 0 ≤ (a : Int) + i ∧ (a : Int) + i < 2 ^ 64 then .ok ((a : Int) + i).toNat else .abort := by
  unfold addS
  rw [Props.C47.add_signed_exact a i ha hi]
  by_cases h : 0 ≤ (a : Int) + i ∧ (a : Int) + i < 2 ^ 64
  · rw [if_pos h, if_pos h]; rfl
  · rw [if_neg h, if_neg h]; rfl

theorem subPtr_eq {p a : Nat} (hp : Addr p) (ha : Addr a) :
    subPtr p a = if Off ((p : Int) - a) then .ok ((p : Int) - a) else .abort := by
  unfold subPtr
  rw [Props.C47.sub_pointers_exact p a hp ha]
  by_cases h : Off ((p : Int) - a)
  · rw [if_pos (show Props.ArithSpec.I64 _ from h), if_pos h]; rfl
  · rw [if_neg (show ¬ Props.ArithSpec.I64 _ from h), if_neg h]; rfl

theorem raw_ok {a : Nat} {i : Int} {p : Nat} (ha : Addr a) (hi : Off i) (h : raw a i = .ok p) :
    (i = nullRep ∧ p = 0) ∨ (i ≠ nullRep ∧ (a : Int) + i = p ∧ Addr p) := by
  unfold raw at h
  split at h
  · simp only [Res.ok.injEq] at h; exact Or.inl ⟨by assumption, h.symm⟩
  · rename_i hn
    rw [addS_eq ha hi] at h
    split at h
    · simp only [Res.ok.injEq] at h
      unfold Addr at *
      right
      exact ⟨hn, by omega, by omega⟩
    · simp at h

theorem raw_eq {a : Nat} {i : Int} {p : Nat} (ha : Addr a) (hi : Off i) (hn : i ≠ nullRep) (hp : Addr p)
    (h : (a : Int) + i = p) : raw a i = .ok p := by
  unfold raw Addr at *
  rw [if_neg hn, addS_eq ha hi, if_pos (by omega)]
  congr 1; omega

theorem designates_raw {a : Nat} {o : OP} {p : Nat} (ha : Addr a) (ho : Off o.off) (hp : Addr p) (h : Designates a o p) :
    raw a o.off = .ok p := by
  rcases h with ⟨rfl, h⟩ | ⟨h1, h2, h3⟩
  · simp [raw, h]
  · exact raw_eq ha ho h2 hp h3

theorem offsetFrom_ok {a p : Nat} {d : Int} (ha : Addr a) (hp : Addr p) (h : offsetFrom a p = .ok d) :
    Off d ∧ ((p = 0 ∧ d = nullRep) ∨ (p ≠ 0 ∧ d ≠ nullRep ∧ (a : Int) + d = p)) := by
  unfold offsetFrom at h
  split at h
  · simp only [Res.ok.injEq] at h
    subst h
    exact ⟨by decide, Or.inl ⟨by assumption, rfl⟩⟩
  · rename_i hp0
    rw [subPtr_eq hp ha] at h
    split at h
    · rename_i ho
      simp only [Res.bind] at h
      split at h
      · simp at h
      · rename_i hn
        simp only [Res.ok.injEq] at h
        subst h
        exact ⟨ho, Or.inr ⟨hp0, hn, by omega⟩⟩
    · simp [Res.bind] at h

theorem offsetFrom_eq {a p : Nat} (ha : Addr a) (hp : Addr p) (hp0 : p ≠ 0) (hn : p ≠ a + 1) (ho : Off ((p : Int) - a)) :
    offsetFrom a p = .ok ((p : Int) - a) := by
  unfold offsetFrom
  rw [if_neg hp0, subPtr_eq hp ha, if_pos ho]
  simp only [Res.bind]
  rw [if_neg (by simp only [nullRep]; omega)]

theorem copy_ok {env : Env} {a d : Nat} {o o' : OP} (ha : Addr a) (hd : Addr d) (ho : Off o.off) (h : copy env a o d = .ok o') :
    Off o'.off ∧ ∃ p, Addr p ∧ raw a o.off = .ok p ∧ Designates d o' p ∧
      ((p = 0 ∧ o' = ⟨nullRep, none⟩) ∨ (p ≠ 0 ∧ o'.bnd = copyBounds env a o d)) := by
  unfold copy at h
  cases hr : raw a o.off with
  | abort => rw [hr] at h; simp [Res.bind] at h
  | ub => rw [hr] at h; simp [Res.bind] at h
  | ok p =>
    rw [hr] at h
    simp only [Res.bind] at h
    have hp : Addr p := by
      rcases raw_ok ha ho hr with ⟨_, rfl⟩ | ⟨_, _, h⟩
      · decide
      · exact h
    split at h
    · rename_i hp0
      subst hp0
      simp only [Res.ok.injEq] at h
      subst h
      exact ⟨by decide, 0, by decide, rfl, Or.inl ⟨rfl, rfl⟩, Or.inl ⟨rfl, rfl⟩⟩
    · rename_i hp0
      cases hof : offsetFrom d p with
      | abort => rw [hof] at h; simp at h
      | ub => rw [hof] at h; simp at h
      | ok x =>
        rw [hof] at h
        simp only [Res.ok.injEq] at h
        subst h
        obtain ⟨h1, h2⟩ := offsetFrom_ok hd hp hof
        exact ⟨h1, p, hp, rfl, h2, Or.inr ⟨hp0, rfl⟩⟩

/-- A copy designates the same object. -/
theorem copy_designates {env : Env} {a d : Nat} {o o' : OP} {p : Nat} (ha : Addr a) (hd : Addr d) (ho : Off o.off) (hp : Addr p)
    (hdes : Designates a o p) (h : copy env a o d = .ok o') : Off o'.off ∧ Designates d o' p := by
  obtain ⟨h1, p', h2, h3, h4, _⟩ := copy_ok ha hd ho h
  rw [designates_raw ha ho hp hdes] at h3
  simp only [Res.ok.injEq] at h3
  subst h3
  exact ⟨h1, h4⟩

theorem copies_designates {env : Env} {ds : List Nat} {a a' : Nat} {o o' : OP} {p : Nat} (ha : Addr a) (hds : ∀ d ∈ ds, Addr d)
    (ho : Off o.off) (hp : Addr p) (hdes : Designates a o p) (h : copies env a o ds = .ok (a', o')) :
    Addr a' ∧ Off o'.off ∧ Designates a' o' p := by
  induction ds generalizing a o with
  | nil =>
    simp only [copies, Res.ok.injEq, Prod.mk.injEq] at h
    obtain ⟨rfl, rfl⟩ := h
    exact ⟨ha, ho, hdes⟩
  | cons d ds ih =>
    simp only [copies] at h
    cases hc : copy env a o d with
    | abort => rw [hc] at h; simp [Res.bind] at h
    | ub => rw [hc] at h; simp [Res.bind] at h
    | ok o1 =>
      rw [hc] at h
      simp only [Res.bind] at h
      obtain ⟨h1, h2⟩ := copy_designates ha (hds d (by simp)) ho hp hdes hc
      exact ih (hds d (by simp)) (fun x hx => hds x (List.mem_cons_of_mem _ hx)) h1 h2 h

theorem checkObject_ok {a : Nat} {i : Int} {r : Nat × Nat} {size : Nat} (ha : Addr a) (hi : Off i) (hs : Addr size)
    (h : checkObject a i r size = .ok true) : ∃ p : Nat, (a : Int) + i = p ∧ Inside p size r := by
  unfold checkObject at h
  rw [addS_eq ha hi] at h
  split at h
  · rename_i hc
    simp only [Res.bind] at h
    have hp : Addr ((a : Int) + i).toNat := by unfold Addr at *; omega
    split at h
    · rename_i hw
      rw [addU_eq hp hs] at h
      by_cases hsum : ((a : Int) + i).toNat + size < 2 ^ 64
      · rw [if_pos hsum] at h
        simp only [Res.ok.injEq] at h
        simp only [within, Bool.and_eq_true, decide_eq_true_eq] at h hw
        exact ⟨((a : Int) + i).toNat, by omega, hw.1, h.2⟩
      · rw [if_neg hsum] at h; simp at h
    · simp at h
  · simp [Res.bind] at h

theorem checkObject_pass {a : Nat} {i : Int} {r : Nat × Nat} {p size : Nat} (ha : Addr a) (hi : Off i) (hr : Addr r.2)
    (hp : (a : Int) + i = p) (hin : Inside p size r) : checkObject a i r size = .ok true := by
  obtain ⟨h1, h2⟩ := hin
  unfold checkObject
  have hap : Addr p := by unfold Addr at *; omega
  have hpp : ((a : Int) + i).toNat = p := by omega
  have has : Addr size := by unfold Addr at *; omega
  rw [addS_eq ha hi, if_pos (by unfold Addr at *; omega), hpp]
  simp only [Res.bind]
  rw [if_pos (by simp [within]; omega), addU_eq hap has, if_pos (by unfold Addr at *; omega)]
  simp [within]
  omega

theorem get_shm {env : Env} {a : Nat} {i : Int} {b : Option (Nat × Nat)} {size p : Nat} {r : Nat × Nat} (he : env.enabled = true)
    (hr : env.region a = some r) (ha : Addr a) (hi : Off i) (hs : Addr size) (h : checked env a i b size = .ok p) :
    (p = 0 ∧ i = nullRep) ∨ Inside p size r := by
  unfold checked at h
  rw [if_pos he, hr] at h
  dsimp only at h
  cases hc : checkShm a i r size with
  | abort => rw [hc] at h; simp [Res.bind] at h
  | ub => rw [hc] at h; simp [Res.bind] at h
  | ok ok =>
    rw [hc] at h
    simp only [Res.bind] at h
    split at h
    · rename_i hok
      subst hok
      have hobj : checkObject a i r size = .ok true := by
        unfold checkShm at hc
        cases hu : addU a ptrSize with
        | abort => rw [hu] at hc; simp [Res.bind] at hc
        | ub => rw [hu] at hc; simp [Res.bind] at hc
        | ok e =>
          rw [hu] at hc
          simp only [Res.bind] at hc
          split at hc
          · exact hc
          · simp at hc
      obtain ⟨q, hq, hin⟩ := checkObject_ok ha hi hs hobj
      rcases raw_ok ha hi h with ⟨h1, h2⟩ | ⟨_, h2, _⟩
      · exact Or.inl ⟨h2, h1⟩
      · right
        have : q = p := by omega
        subst this
        exact hin
    · simp at h

theorem get_stack {env : Env} {a : Nat} {i : Int} {size p : Nat} {r : Nat × Nat} (he : env.enabled = true)
    (hr : env.region a = none) (ha : Addr a) (hi : Off i) (hs : Addr size) (h : checked env a i (some r) size = .ok p) :
    (p = 0 ∧ i = nullRep) ∨ Inside p size r := by
  unfold checked at h
  rw [if_pos he, hr] at h
  dsimp only at h
  cases hc : checkStack env a i (some r) size with
  | abort => rw [hc] at h; simp [Res.bind] at h
  | ub => rw [hc] at h; simp [Res.bind] at h
  | ok ok =>
    rw [hc] at h
    simp only [Res.bind] at h
    split at h
    · rename_i hok
      subst hok
      have hobj : checkObject a i r size = .ok true := by
        unfold checkStack at hc
        cases hu : addU a ptrSize with
        | abort => rw [hu] at hc; simp [Res.bind] at hc
        | ub => rw [hu] at hc; simp [Res.bind] at hc
        | ok e =>
          rw [hu] at hc
          simp only [Res.bind] at hc
          split at hc
          · simp at hc
          · exact hc
      obtain ⟨q, hq, hin⟩ := checkObject_ok ha hi hs hobj
      rcases raw_ok ha hi h with ⟨h1, h2⟩ | ⟨_, h2, _⟩
      · exact Or.inl ⟨h2, h1⟩
      · right
        have : q = p := by omega
        subst this
        exact hin
    · simp at h

theorem addU_placed {env : Env} {a : Nat} (h : Placed env a) : addU a ptrSize = .ok (a + ptrSize) := by
  have h1 := h.1
  rw [addU_eq (by unfold Addr; omega) (by decide), if_pos h1]

/-- In a region: the checks pass for an object inside. -/
theorem checked_shm_pass {env : Env} {a : Nat} {i : Int} {b : Option (Nat × Nat)} {r : Nat × Nat} {p size : Nat}
    (hr : env.region a = some r) (hpl : Placed env a) (hr2 : Addr r.2) (hi : Off i) (hp : (a : Int) + i = p)
    (hin : Inside p size r) : checked env a i b size = raw a i := by
  have ha : Addr a := by have := hpl.1; unfold Addr; omega
  have hpl' := hpl
  unfold Placed at hpl'
  rw [hr] at hpl'
  unfold checked
  split
  · rw [hr]
    dsimp only
    unfold checkShm
    rw [addU_placed hpl]
    simp only [Res.bind]
    rw [if_pos (by simp [within]; omega), checkObject_pass ha hi hr2 hp hin]
    rfl
  · rfl

/-- Outside of the regions: the checks pass for an object inside the bounds, or without bounds. -/
theorem checked_stack_pass {env : Env} {a : Nat} {i : Int} {b : Option (Nat × Nat)} {size : Nat}
    (hr : env.region a = none) (hpl : Placed env a) (hi : Off i)
    (hb : ∀ r, b = some r → Addr r.2 ∧ ∃ p : Nat, (a : Int) + i = p ∧ Inside p size r) : checked env a i b size = raw a i := by
  have ha : Addr a := by have := hpl.1; unfold Addr; omega
  have hpl' := hpl
  unfold Placed at hpl'
  rw [hr] at hpl'
  unfold checked
  split
  · rw [hr]
    dsimp only
    unfold checkStack
    rw [addU_placed hpl]
    simp only [Res.bind]
    rw [hpl'.2]
    dsimp only
    cases hbb : b with
    | none => rfl
    | some r =>
      obtain ⟨h1, p, h2, h3⟩ := hb r hbb
      dsimp only
      rw [checkObject_pass ha hi h1 h2 h3]
      rfl
  · rfl

theorem advance_ok {o o' : OP} {size : Nat} {k : Int} (hs : 0 < size) (ho : Off o.off) (hk : Off k)
    (h : advance o size k = .ok o') : Off o'.off ∧ o'.bnd = o.bnd ∧ o'.off = o.off + size * k := by
  unfold advance at h
  have hdiv : ∀ n, n ≤ (Arith.W - 1) / size → n * size < 2 ^ 64 := by
    intro n hn
    have := (Nat.le_div_iff_mul_le hs).mp hn
    simp only [Arith.W] at this
    omega
  split at h
  · rename_i hpos
    unfold increment at h
    split at h
    · rename_i hn
      rw [Props.C47.add_mixed_exact o.off _ ho (hdiv _ hn)] at h
      split at h
      · rename_i hI
        simp only [lift, Res.bind, Res.ok.injEq] at h
        subst h
        refine ⟨hI, rfl, ?_⟩
        dsimp only
        push_cast
        rw [Int.toNat_of_nonneg (by omega), Int.mul_comm]
      · simp [lift, Res.bind] at h
    · simp at h
  · split at h
    · rename_i hneg
      unfold decrement at h
      split at h
      · rename_i hn
        rw [Props.C47.sub_mixed_exact o.off _ ho (hdiv _ hn)] at h
        split at h
        · rename_i hI
          simp only [lift, Res.bind, Res.ok.injEq] at h
          subst h
          refine ⟨hI, rfl, ?_⟩
          dsimp only
          push_cast
          rw [Props.C47.absolute_exact k hk, if_pos hneg, Int.neg_mul, Int.sub_neg, Int.mul_comm]
        · simp [lift, Res.bind] at h
      · simp at h
    · simp only [Res.ok.injEq] at h
      subst h
      have : k = 0 := by omega
      subst this
      exact ⟨ho, rfl, by simp⟩

/-- The OffsetPtr comes from region `r`. -/
def Tainted (env : Env) (r : Nat × Nat) (a : Nat) (o : OP) : Prop :=
  env.region a = some r ∨ (env.region a = none ∧ (o.bnd = some r ∨ o.off = nullRep))

theorem uses_tainted {env : Env} {r : Nat × Nat} {size : Nat} (he : env.enabled = true) (hs : 0 < size) (us : List Use)
    {a a' : Nat} {o o' : OP} (ha : Addr a) (ho : Off o.off)
    (hus : ∀ u ∈ us, match u with | .copy d => Addr d ∧ env.region d = none | .advance k => Off k)
    (hn : NoNullArith env size a o us) (ht : Tainted env r a o) (h : uses env size a o us = .ok (a', o')) :
    Addr a' ∧ Off o'.off ∧ Tainted env r a' o' := by
  induction us generalizing a o with
  | nil =>
    simp only [uses, Res.ok.injEq, Prod.mk.injEq] at h
    obtain ⟨rfl, rfl⟩ := h
    exact ⟨ha, ho, ht⟩
  | cons u us ih =>
    have hus' := fun x hx => hus x (List.mem_cons_of_mem _ hx)
    have hu := hus u (by simp)
    cases u with
    | copy d =>
      simp only [uses] at h
      dsimp only at hu
      cases hc : copy env a o d with
      | abort => rw [hc] at h; simp [Res.bind] at h
      | ub => rw [hc] at h; simp [Res.bind] at h
      | ok o1 =>
        rw [hc] at h
        simp only [Res.bind] at h
        obtain ⟨h1, p, h2, h3, h4, h5⟩ := copy_ok ha hu.1 ho hc
        refine ih hu.1 h1 hus' (hn o1 hc) ?_ h
        right
        refine ⟨hu.2, ?_⟩
        rcases h5 with ⟨_, rfl⟩ | ⟨hp0, hb⟩
        · exact Or.inr rfl
        · left
          rw [hb]
          unfold copyBounds
          rw [if_pos he, hu.2]
          rcases ht with ht | ⟨ht, hb' | hb'⟩
          · rw [ht]
          · rw [ht]; exact hb'
          · rw [hb'] at h3
            simp only [raw, if_true, Res.ok.injEq] at h3
            exact absurd h3.symm hp0
    | advance k =>
      simp only [uses] at h
      dsimp only at hu
      cases hc : advance o size k with
      | abort => rw [hc] at h; simp [Res.bind] at h
      | ub => rw [hc] at h; simp [Res.bind] at h
      | ok o1 =>
        rw [hc] at h
        simp only [Res.bind] at h
        obtain ⟨h1, h2, h3⟩ := advance_ok hs ho hu hc
        refine ih ha h1 hus' (hn.2 o1 hc) ?_ h
        rcases ht with ht | ⟨ht, hb | hb⟩
        · exact Or.inl ht
        · exact Or.inr ⟨ht, Or.inl (by rw [h2]; exact hb)⟩
        · exact absurd hb hn.1

theorem get_tainted {env : Env} {r : Nat × Nat} {a : Nat} {o : OP} {size p : Nat} (he : env.enabled = true) (ha : Addr a)
    (ho : Off o.off) (hs : Addr size) (ht : Tainted env r a o) (h : get env a o size = .ok p) :
    (p = 0 ∧ o.off = nullRep) ∨ Inside p size r := by
  unfold get at h
  rcases ht with ht | ⟨ht, hb | hb⟩
  · exact get_shm he ht ha ho hs h
  · rw [hb] at h
    exact get_stack he ht ha ho hs h
  · left
    refine ⟨?_, hb⟩
    rw [hb] at h
    have hraw : ∀ b : Bool, (if b = true then raw a nullRep else Res.abort) = .ok p → p = 0 := by
      intro b hh
      cases b
      · simp at hh
      · simp only [raw, if_true, Res.ok.injEq] at hh
        exact hh.symm
    unfold checked at h
    rw [if_pos he, ht] at h
    dsimp only at h
    cases hc : checkStack env a nullRep o.bnd size with
    | abort => rw [hc] at h; simp [Res.bind] at h
    | ub => rw [hc] at h; simp [Res.bind] at h
    | ok b =>
      rw [hc] at h
      exact hraw b h

/-- Where copies go: within the regions that contain the object, or out of the regions. -/
theorem copies_good {env : Env} {p size : Nat} (hp : Addr p) (hp0 : p ≠ 0) (ds : List Nat) {a a' : Nat} {o o' : OP}
    (ha : Addr a) (ho : Off o.off) (hds : ∀ d ∈ ds, Addr d)
    (hreg : ∀ d ∈ a :: ds, ∀ r, env.region d = some r → Addr r.2 ∧ Inside p size r)
    (hdes : Designates a o p) (hb : ∀ r, o.bnd = some r → Addr r.2 ∧ Inside p size r)
    (h : copies env a o ds = .ok (a', o')) :
    Designates a' o' p ∧ Off o'.off ∧ (∀ r, o'.bnd = some r → Addr r.2 ∧ Inside p size r) ∧ a' ∈ a :: ds := by
  induction ds generalizing a o with
  | nil =>
    simp only [copies, Res.ok.injEq, Prod.mk.injEq] at h
    obtain ⟨rfl, rfl⟩ := h
    exact ⟨hdes, ho, hb, by simp⟩
  | cons d ds ih =>
    simp only [copies] at h
    cases hc : copy env a o d with
    | abort => rw [hc] at h; simp [Res.bind] at h
    | ub => rw [hc] at h; simp [Res.bind] at h
    | ok o1 =>
      rw [hc] at h
      simp only [Res.bind] at h
      have hd := hds d (by simp)
      obtain ⟨h1, h2⟩ := copy_designates ha hd ho hp hdes hc
      obtain ⟨_, p', _, h4, _, h6⟩ := copy_ok ha hd ho hc
      rw [designates_raw ha ho hp hdes] at h4
      simp only [Res.ok.injEq] at h4
      subst h4
      have hb1 : ∀ r, o1.bnd = some r → Addr r.2 ∧ Inside p size r := by
        intro r hr
        rcases h6 with ⟨h, _⟩ | ⟨_, h⟩
        · exact absurd h hp0
        · rw [h] at hr
          unfold copyBounds at hr
          split at hr
          · split at hr
            · rename_i r' hra _
              simp only [Option.some.injEq] at hr
              subst hr
              exact hreg a (by simp) _ hra
            · exact hb r hr
            · simp at hr
          · simp at hr
      obtain ⟨g1, g2, g3, g4⟩ := ih hd h1 (fun x hx => hds x (List.mem_cons_of_mem _ hx))
        (fun x hx => hreg x (List.mem_cons_of_mem _ hx)) h2 hb1 h
      exact ⟨g1, g2, g3, List.mem_cons_of_mem _ g4⟩

theorem copies_succeed {env : Env} {p : Nat} (ds : List Nat) {a : Nat} {o : OP} (ha : Addr a) (ho : Off o.off) (hp : p < 2 ^ 63)
    (hds : ∀ d ∈ ds, d < 2 ^ 63 ∧ p ≠ d + 1) (hdes : Designates a o p) : ∃ a' o', copies env a o ds = .ok (a', o') := by
  induction ds generalizing a o with
  | nil => exact ⟨a, o, rfl⟩
  | cons d ds ih =>
    have hap : Addr p := by unfold Addr; omega
    obtain ⟨h1, h2⟩ := hds d (by simp)
    have had : Addr d := by unfold Addr; omega
    have hc : ∃ o1, copy env a o d = .ok o1 := by
      unfold copy
      rw [designates_raw ha ho hap hdes]
      simp only [Res.bind]
      split
      · exact ⟨_, rfl⟩
      · rename_i hp0
        rw [offsetFrom_eq had hap hp0 h2 (by unfold Off; omega)]
        exact ⟨_, rfl⟩
    obtain ⟨o1, hc⟩ := hc
    obtain ⟨g1, g2⟩ := copy_designates ha had ho hap hdes hc
    obtain ⟨a', o', h⟩ := ih had g1 (fun x hx => hds x (List.mem_cons_of_mem _ hx)) g2
    exact ⟨a', o', by simp only [copies, hc, Res.bind]; exact h⟩

theorem bind_ne_ub {α β : Type} {x : Res α} {f : α → Res β} (h1 : x ≠ .ub) (h2 : ∀ a, f a ≠ .ub) : x.bind f ≠ .ub := by
  cases x with
  | ok a => exact h2 a
  | abort => simp [Res.bind]
  | ub => exact absurd rfl h1

theorem lift_ne_ub {α : Type} (x : Option α) : lift x ≠ .ub := by cases x <;> simp [lift]

theorem checkObject_ne_ub (a : Nat) (i : Int) (r : Nat × Nat) (size : Nat) : checkObject a i r size ≠ .ub := by
  refine bind_ne_ub (lift_ne_ub _) (fun p => ?_)
  split
  · exact bind_ne_ub (lift_ne_ub _) (fun e => by simp)
  · simp

/-- Nothing in the checked access is undefined. -/
theorem checked_ne_ub (env : Env) (a : Nat) (i : Int) (b : Option (Nat × Nat)) (size : Nat) : checked env a i b size ≠ .ub := by
  have hraw : raw a i ≠ .ub := by
    unfold raw
    split
    · simp
    · exact lift_ne_ub _
  unfold checked
  split
  · refine bind_ne_ub ?_ (fun b => ?_)
    · split
      · refine bind_ne_ub (lift_ne_ub _) (fun e => ?_)
        split
        · exact checkObject_ne_ub _ _ _ _
        · simp
      · refine bind_ne_ub (lift_ne_ub _) (fun e => ?_)
        split
        · simp
        · split
          · simp
          · exact checkObject_ne_ub _ _ _ _
    · split
      · exact hraw
      · simp
  · exact hraw

end Verif.OffsetPtr
