import Verif.Spec.Moving

/-! # Invariant of moving proxies and skeletons -/
namespace Verif.Moving

/-- The first elements of `v` have this flag, and so does the binding of the service. -/
def World.flags (w : World) (v s m : Nat) (b : Bool) : World :=
  { w with
    active := fun x y => if x = s ∧ y < m then b else w.active x y
    objs := fun x => if x = v then
        { w.objs v with elems := fun k => if k < m then { (w.objs v).elems k with flag := b } else (w.objs v).elems k }
      else w.objs x }

/-- A variable that stands for a service. -/
structure Owner (w : World) (v s : Nat) : Prop where
  service : (w.objs v).service = some s
  own : (w.objs v).owner = true
  lt : s < w.nsvc
  elem : ∀ k, k < (w.objs v).n → ∃ r, (w.objs v).map k = some r ∧ ((w.objs v).elems k).ref = some r ∧
    ((w.objs v).elems k).tracker = some r ∧ ((w.objs v).elems k).bind = some (s, k) ∧ w.refs r = some (v, k) ∧
    r < w.nref ∧ w.trks r = some (w.samples.count (some r)) ∧
    ((w.objs v).kind = .proxy → ((w.objs v).elems k).flag = false → w.samples.count (some r) = 0)
  act : ∀ k, k < (w.objs v).n → w.active s k = ((w.objs v).elems k).flag
  opn : w.opened s = ((w.objs v).kind == .proxy || (w.objs v).offered)
  skel : (w.objs v).kind = .skeleton → ∀ k, k < (w.objs v).n → ((w.objs v).elems k).flag = (w.objs v).offered
  prox : (w.objs v).kind = .proxy → (w.objs v).offered = false

/-- A variable that was moved from. -/
structure Blank (w : World) (v : Nat) : Prop where
  service : (w.objs v).service = none
  own : (w.objs v).owner = false
  offered : (w.objs v).offered = false
  elem : ∀ k, (w.objs v).map k = none ∧ (w.objs v).elems k = {}

structure Inv (w : World) : Prop where
  fault : w.fault = none
  lt : ∀ v, (w.objs v).alive = true → v < w.nobj
  obj : ∀ v, (w.objs v).alive = true → Blank w v ∨ ∃ s, Owner w v s
  uniq : ∀ v x s, (w.objs v).alive = true → (w.objs x).alive = true → (w.objs v).service = some s →
    (w.objs x).service = some s → v = x
  held : ∀ t, some t ∈ w.samples → ∃ v k, (w.objs v).alive = true ∧ k < (w.objs v).n ∧
    ((w.objs v).elems k).tracker = some t
  act : ∀ s k, w.active s k = true → ∃ v, (w.objs v).alive = true ∧ (w.objs v).service = some s ∧ k < (w.objs v).n
  opn : ∀ s, w.opened s = true → ∃ v, (w.objs v).alive = true ∧ (w.objs v).service = some s

theorem Inv.owner {w : World} (h : Inv w) {v s : Nat} (ha : (w.objs v).alive = true)
    (hs : (w.objs v).service = some s) : Owner w v s := by
  rcases h.obj v ha with hb | ⟨s', ho⟩
  · rw [hb.service] at hs; cases hs
  · rw [ho.service] at hs; injection hs with hs; subst hs; exact ho

theorem Inv.blank {w : World} (h : Inv w) {v : Nat} (ha : (w.objs v).alive = true)
    (hs : (w.objs v).service = none) : Blank w v := by
  rcases h.obj v ha with hb | ⟨s', ho⟩
  · exact hb
  · rw [ho.service] at hs; cases hs

theorem flags_zero (w : World) (v s : Nat) (b : Bool) : w.flags v s 0 b = w := by
  have : (fun x => if x = v then { w.objs v with } else w.objs x) = w.objs := by
    funext x; by_cases h : x = v <;> simp [h]
  simp only [World.flags, Nat.not_lt_zero, and_false, if_false]
  have h2 : (fun x => if x = v then
        { w.objs v with elems := fun k => (w.objs v).elems k }
      else w.objs x) = w.objs := by
    funext x; by_cases h : x = v <;> simp [h]
  rw [h2]

theorem flags_succ (w : World) (v s m : Nat) (b : Bool) :
    (w.flags v s m b).mark v m s m b = w.flags v s (m + 1) b := by
  simp only [World.flags, World.mark, World.setActive, World.setObj, Obj.setElem, World.mk.injEq, true_and, and_true, if_true]
  refine ⟨?_, ?_⟩
  · funext x
    by_cases h : x = v
    · simp only [h, if_true, Obj.mk.injEq, true_and]
      funext k
      by_cases hk : k = m
      · subst hk; simp
      · have : k < m + 1 ↔ k < m := by omega
        simp [hk, this]
    · simp [h]
  · funext x y
    by_cases h : x = s
    · by_cases hk : y = m
      · subst hk; simp [h]
      · have : y < m + 1 ↔ y < m := by omega
        simp [h, hk, this]
    · simp [h]

/-- An element that has the flag already. -/
theorem flags_same {w : World} {v s m : Nat} {b : Bool} (h1 : ((w.objs v).elems m).flag = b) (h2 : w.active s m = b) :
    w.flags v s m b = w.flags v s (m + 1) b := by
  simp only [World.flags, World.mk.injEq, true_and, and_true]
  refine ⟨?_, ?_⟩
  · funext x
    by_cases h : x = v
    · simp only [h, if_true, Obj.mk.injEq, true_and]
      funext k
      by_cases hk : k = m
      · subst hk
        simp only [Nat.lt_irrefl, if_false, Nat.lt_succ_self, if_true]
        rw [← h1]
      · have : k < m + 1 ↔ k < m := by omega
        simp [this]
    · simp [h]
  · funext x y
    by_cases h : x = s
    · by_cases hk : y = m
      · subst hk; simp [h, h2]
      · have : y < m + 1 ↔ y < m := by omega
        simp [h, this]
    · simp [h]

@[simp] theorem flags_fault (w : World) (v s m : Nat) (b : Bool) : (w.flags v s m b).fault = w.fault := rfl
@[simp] theorem flags_refs (w : World) (v s m : Nat) (b : Bool) : (w.flags v s m b).refs = w.refs := rfl
@[simp] theorem flags_trks (w : World) (v s m : Nat) (b : Bool) : (w.flags v s m b).trks = w.trks := rfl
@[simp] theorem flags_samples (w : World) (v s m : Nat) (b : Bool) : (w.flags v s m b).samples = w.samples := rfl
@[simp] theorem flags_opened (w : World) (v s m : Nat) (b : Bool) : (w.flags v s m b).opened = w.opened := rfl
theorem flags_obj (w : World) (v s m : Nat) (b : Bool) : (w.flags v s m b).objs v =
    { w.objs v with elems := fun k => if k < m then { (w.objs v).elems k with flag := b } else (w.objs v).elems k } := by
  simp [World.flags]
theorem flags_other {w : World} {v s m x : Nat} {b : Bool} (h : x ≠ v) : (w.flags v s m b).objs x = w.objs x := by
  simp [World.flags, h]

/-- The loop that stops the elements. -/
theorem stop_loop {w : World} {v s : Nat} (hf : w.fault = none) (ha : (w.objs v).alive = true) (h : Owner w v s) :
    ∀ m, m ≤ (w.objs v).n →
      (forAll stopElem (w.objs v).map m w = w.flags v s m false ∧ ((w.objs v).kind = .proxy →
        ∀ k, k < m → ∀ r, (w.objs v).map k = some r → w.samples.count (some r) = 0)) ∨
      ((forAll stopElem (w.objs v).map m w).fault = some .assertion ∧ (w.objs v).kind = .proxy ∧
        ∃ k, k < m ∧ ∃ r, (w.objs v).map k = some r ∧ w.samples.count (some r) ≠ 0) := by
  intro m
  induction m with
  | zero => intro _; left; exact ⟨by rw [flags_zero]; rfl, fun _ k hk => by omega⟩
  | succ m ih =>
    intro hm
    obtain ⟨r, h1, h2, h3, h4, h5, h6, h7, h8⟩ := h.elem m (by omega)
    rcases ih (by omega) with ⟨e, c⟩ | ⟨e, hk, k, hlt, q⟩
    · have hstep : forAll stopElem (w.objs v).map (m + 1) w = stopElem (w.flags v s m false) v m := by
        simp only [forAll, e, World.andThen, flags_fault, hf, Option.isSome_none, Bool.false_eq_true, if_false, h1, viaRef,
          flags_refs, h5]
      have hel : ((w.flags v s m false).objs v).elems m = (w.objs v).elems m := by simp [flags_obj]
      have hal : ((w.flags v s m false).objs v).alive = true := by simp [flags_obj, ha]
      have hn : ¬ ((w.flags v s m false).objs v).n ≤ m := by simp [flags_obj]; omega
      have hkd : ((w.flags v s m false).objs v).kind = (w.objs v).kind := by simp [flags_obj]
      rw [hstep]
      have hun : stopElem (w.flags v s m false) v m =
          if !((w.objs v).elems m).flag then w.flags v s m false
          else match (w.objs v).kind with
            | .skeleton => (w.flags v s m false).mark v m s m false
            | .proxy => match w.samples.count (some r) with
              | 0 => (w.flags v s m false).mark v m s m false
              | _ => (w.flags v s m false).fail .assertion := by
        unfold stopElem
        simp only [hal, hn, hel, hkd, h4, h3, flags_trks, h7, Option.bind_some, Bool.not_true, decide_false, Bool.or_self,
          Bool.false_eq_true, if_false]
        cases (w.objs v).kind <;> cases w.samples.count (some r) <;> rfl
      rw [hun]
      by_cases hfl : ((w.objs v).elems m).flag = true
      · simp only [hfl, Bool.not_true, Bool.false_eq_true, if_false]
        cases hkind : (w.objs v).kind with
        | skeleton => left; exact ⟨flags_succ .., by simp⟩
        | proxy =>
          cases hc : w.samples.count (some r) with
          | zero =>
            left
            refine ⟨flags_succ .., fun _ k hk q hq => ?_⟩
            by_cases hkm : k = m
            · subst hkm; rw [h1] at hq; injection hq with hq; subst hq; exact hc
            · exact c hkind k (by omega) q hq
          | succ u => right; exact ⟨rfl, rfl, m, by omega, r, h1, by omega⟩
      · simp only [Bool.not_eq_true] at hfl
        simp only [hfl, Bool.not_false, if_true]
        left
        refine ⟨flags_same hfl ((h.act m (by omega)).trans hfl), fun hp k hk q hq => ?_⟩
        by_cases hkm : k = m
        · subst hkm; rw [h1] at hq; injection hq with hq; subst hq; exact h8 hp hfl
        · exact c hp k (by omega) q hq
    · right
      refine ⟨?_, hk, k, by omega, q⟩
      simp [forAll, World.andThen, e]

/-- The loop that starts the elements. -/
theorem start_loop {w w0 : World} {v s : Nat} (hf : w.fault = none) (ha : (w.objs v).alive = true) (h : Owner w v s)
    (h0 : w0 = w.setOpened s true) : ∀ m, m ≤ (w.objs v).n → forAll startElem (w.objs v).map m w0 = w0.flags v s m true := by
  have ho : w0.objs = w.objs := by rw [h0]; rfl
  have hr : w0.refs = w.refs := by rw [h0]; rfl
  have hf0 : w0.fault = none := by rw [h0]; exact hf
  intro m
  induction m with
  | zero => intro _; rw [flags_zero]; rfl
  | succ m ih =>
    intro hm
    obtain ⟨r, h1, h2, h3, h4, h5, h6, h7, h8⟩ := h.elem m (by omega)
    simp only [forAll, ih (by omega), World.andThen, flags_fault, hf0, Option.isSome_none, Bool.false_eq_true, if_false, h1,
      viaRef, flags_refs, hr, h5, startElem]
    have hel : ((w0.flags v s m true).objs v).elems m = (w.objs v).elems m := by simp [flags_obj, ho]
    have hal : ((w0.flags v s m true).objs v).alive = true := by simp [flags_obj, ha, ho]
    have hn : ¬ ((w0.flags v s m true).objs v).n ≤ m := by simp [flags_obj, ho]; omega
    simp only [hal, hn, hel, h4, Bool.not_true, decide_false, Bool.or_self, Bool.false_eq_true, if_false]
    exact flags_succ ..

theorem flags_all {w : World} {v s : Nat} {b : Bool} : ∀ m, (∀ k, k < m → ((w.objs v).elems k).flag = b ∧ w.active s k = b) →
    w.flags v s m b = w
  | 0, _ => flags_zero ..
  | m + 1, h => by
    rw [← flags_same (h m (by omega)).1 (h m (by omega)).2]
    exact flags_all m fun k hk => h k (by omega)

theorem setObj_self (w : World) (v : Nat) : w.setObj v (w.objs v) = w := by
  have : (fun x => if x = v then w.objs v else w.objs x) = w.objs := by
    funext x; by_cases h : x = v <;> simp [h]
  simp only [World.setObj, this]

theorem setOpened_self {w : World} {s : Nat} {b : Bool} (h : w.opened s = b) : w.setOpened s b = w := by
  have : (fun x => if x = s then b else w.opened x) = w.opened := by
    funext x; by_cases hx : x = s <;> simp [hx, h]
  simp only [World.setOpened, this]

/-- The variable has stopped what it did. -/
def World.retired (w : World) (v s : Nat) : World :=
  ((w.flags v s (w.objs v).n false).setOpened s false).setObj v
    { (w.flags v s (w.objs v).n false).objs v with offered := false }

theorem retire_eq {w : World} {v s : Nat} (hf : w.fault = none) (ha : (w.objs v).alive = true) (h : Owner w v s) :
    (retire w v = w.retired v s ∧ ((w.objs v).kind = .proxy →
        ∀ k, k < (w.objs v).n → ∀ r, (w.objs v).map k = some r → w.samples.count (some r) = 0)) ∨
      ((retire w v).fault = some .assertion ∧ (w.objs v).kind = .proxy ∧
        ∃ k, k < (w.objs v).n ∧ ∃ r, (w.objs v).map k = some r ∧ w.samples.count (some r) ≠ 0) := by
  have hl := stop_loop hf ha h (w.objs v).n (Nat.le_refl _)
  have hoff : ∀ o : Obj, o.offered = false → { o with offered := false } = o := by
    intro o ho; rw [← ho]
  cases hk : (w.objs v).kind with
  | proxy =>
    have hop : w.opened s = true := by rw [h.opn, hk]; rfl
    have hr : retire w v = (forAll stopElem (w.objs v).map (w.objs v).n w).andThen fun w => w.setOpened s false := by
      simp [retire, h.own, hk, deinitialize, h.service, hop]
    rw [hr]
    rcases hl with ⟨e, c⟩ | ⟨e, c⟩
    · left
      refine ⟨?_, fun _ => c hk⟩
      rw [e]
      simp only [World.andThen, flags_fault, hf, Option.isSome_none, Bool.false_eq_true, if_false, World.retired]
      rw [hoff _ (by simp [flags_obj, h.prox hk])]
      exact (setObj_self ((w.flags v s (w.objs v).n false).setOpened s false) v).symm
    · right
      rw [hk] at c
      exact ⟨by simp [World.andThen, e], c⟩
  | skeleton =>
    have hr : retire w v = stopOffer w v := by simp [retire, h.own, hk]
    rw [hr]
    left
    refine ⟨?_, by simp⟩
    rcases hl with ⟨e, c⟩ | ⟨e, c, _⟩
    · by_cases ho : (w.objs v).offered = true
      · simp only [stopOffer, ho, if_true, e, World.andThen, flags_fault, hf, Option.isSome_none, Bool.false_eq_true, if_false,
          endOffer, World.retired]
        have : ((w.flags v s (w.objs v).n false).objs v).service = some s := by simp [flags_obj, h.service]
        simp only [this]
      · simp only [Bool.not_eq_true] at ho
        simp only [stopOffer, ho, Bool.false_eq_true, if_false, World.retired]
        have hfl : w.flags v s (w.objs v).n false = w := flags_all _ fun k hlt => by
          have := h.skel hk k hlt
          exact ⟨this.trans ho, (h.act k hlt).trans (this.trans ho)⟩
        rw [hfl, setOpened_self (by rw [h.opn, hk, ho]; rfl), hoff _ ho]
        exact (setObj_self w v).symm
    · rw [hk] at c; cases c

/-- What is left when elements have given up what they have on the heap. -/
structure Freed (w w' : World) (elems : Nat → Elem) (m : Nat) : Prop where
  objs : w'.objs = w.objs
  nobj : w'.nobj = w.nobj
  nref : w'.nref = w.nref
  samples : w'.samples = w.samples
  active : w'.active = w.active
  opened : w'.opened = w.opened
  nsvc : w'.nsvc = w.nsvc
  fault : w'.fault = w.fault
  refs : ∀ x, (∀ k, k < m → (elems k).ref ≠ some x) → w'.refs x = w.refs x
  trks : ∀ x, (∀ k, k < m → (elems k).tracker ≠ some x) → w'.trks x = w.trks x

theorem freeElems_eq {w : World} {check : Bool} {elems : Nat → Elem} (hf : w.fault = none) : ∀ m,
    (∀ j k t, j < m → k < m → (elems j).tracker = some t → (elems k).tracker = some t → j = k) →
    (Freed w (freeElems check elems m w) elems m ∧
      (check = true → ∀ k, k < m → ∀ t, (elems k).tracker = some t → ∀ u, w.trks t ≠ some (u + 1))) ∨
    ((freeElems check elems m w).fault = some .assertion ∧ check = true ∧
      ∃ k, k < m ∧ ∃ t u, (elems k).tracker = some t ∧ w.trks t = some (u + 1)) := by
  intro m
  induction m with
  | zero => intro _; left; exact ⟨⟨rfl, rfl, rfl, rfl, rfl, rfl, rfl, rfl, fun _ _ => rfl, fun _ _ => rfl⟩, fun _ k hk => by omega⟩
  | succ m ih =>
    intro hinj
    rcases ih fun j k t hj hk => hinj j k t (by omega) (by omega) with ⟨F, c⟩ | ⟨e, hc, k, hk, q⟩
    · have hstep : freeElems check elems (m + 1) w =
          freeTracker check (freeRef (freeElems check elems m w) (elems m).ref) (elems m).tracker := by
        simp [freeElems, World.andThen, F.fault, hf]
      rw [hstep]
      generalize freeElems check elems m w = w1 at F
      have F2 : Freed w (freeRef w1 (elems m).ref) elems (m + 1) ∧ (freeRef w1 (elems m).ref).trks = w1.trks := by
        cases hr : (elems m).ref with
        | none =>
          exact ⟨⟨F.objs, F.nobj, F.nref, F.samples, F.active, F.opened, F.nsvc, F.fault,
            fun x hx => F.refs x fun k hk => hx k (by omega), fun x hx => F.trks x fun k hk => hx k (by omega)⟩, rfl⟩
        | some r =>
          refine ⟨⟨F.objs, F.nobj, F.nref, F.samples, F.active, F.opened, F.nsvc, F.fault,
            fun x hx => ?_, fun x hx => F.trks x fun k hk => hx k (by omega)⟩, rfl⟩
          have hne : x ≠ r := fun e => hx m (by omega) (by rw [hr, e])
          show (if x = r then none else w1.refs x) = w.refs x
          rw [if_neg hne]
          exact F.refs x fun k hk => hx k (by omega)
      obtain ⟨F2, ht⟩ := F2
      generalize freeRef w1 (elems m).ref = w2 at F2 ht
      cases htr : (elems m).tracker with
      | none =>
        left
        refine ⟨F2, fun hc k hk t hkt => ?_⟩
        by_cases hkm : k = m
        · subst hkm; rw [htr] at hkt; cases hkt
        · exact c hc k (by omega) t hkt
      | some t =>
        have htw : w2.trks t = w.trks t := by
          rw [ht]
          exact F.trks t fun k hk he => by
            have := hinj k m t (by omega) (by omega) he htr
            omega
        have F3 : Freed w (w2.setTrk t none) elems (m + 1) := by
          refine ⟨F2.objs, F2.nobj, F2.nref, F2.samples, F2.active, F2.opened, F2.nsvc, F2.fault, F2.refs, fun x hx => ?_⟩
          have hne : x ≠ t := fun e => hx m (by omega) (by rw [htr, e])
          show (if x = t then none else w2.trks x) = w.trks x
          rw [if_neg hne]
          exact F2.trks x hx
        simp only [freeTracker, htw]
        cases check with
        | false => left; exact ⟨F3, by simp⟩
        | true =>
          cases hu : w.trks t with
          | none =>
            left
            refine ⟨F3, fun hc k hk t' hkt u => ?_⟩
            by_cases hkm : k = m
            · subst hkm; rw [htr] at hkt; injection hkt with hkt; subst hkt; rw [hu]; simp
            · exact c hc k (by omega) t' hkt u
          | some u0 =>
            cases u0 with
            | zero =>
              left
              refine ⟨F3, fun hc k hk t' hkt u => ?_⟩
              by_cases hkm : k = m
              · subst hkm; rw [htr] at hkt; injection hkt with hkt; subst hkt; rw [hu]; simp
              · exact c hc k (by omega) t' hkt u
            | succ u0 => right; exact ⟨rfl, rfl, m, by omega, t, u0, htr, hu⟩
    · right
      exact ⟨by simp [freeElems, World.andThen, e], hc, k, by omega, q⟩

theorem Owner.frame {w w' : World} {x s : Nat} (h : Owner w x s) (ho : w'.objs x = w.objs x) (hn : w.nsvc ≤ w'.nsvc)
    (hr : w.nref ≤ w'.nref)
    (hrefs : ∀ r k, w.refs r = some (x, k) → r < w.nref → w'.refs r = w.refs r ∧ w'.trks r = w.trks r ∧
      w'.samples.count (some r) = w.samples.count (some r))
    (ha : ∀ k, w'.active s k = w.active s k) (hop : w'.opened s = w.opened s) : Owner w' x s := by
  refine ⟨by rw [ho]; exact h.service, by rw [ho]; exact h.own, Nat.lt_of_lt_of_le h.lt hn, ?_, ?_, ?_, ?_, ?_⟩
  · rw [ho]
    intro k hk
    obtain ⟨r, h1, h2, h3, h4, h5, h6, h7, h8⟩ := h.elem k hk
    obtain ⟨e1, e2, e3⟩ := hrefs r k h5 h6
    exact ⟨r, h1, h2, h3, h4, by rw [e1, h5], by omega, by rw [e2, e3, h7], by rw [e3]; exact h8⟩
  · rw [ho]; intro k hk; rw [ha]; exact h.act k hk
  · rw [ho, hop]; exact h.opn
  · rw [ho]; exact h.skel
  · rw [ho]; exact h.prox

theorem Blank.frame {w w' : World} {x : Nat} (h : Blank w x) (ho : w'.objs x = w.objs x) : Blank w' x := by
  refine ⟨?_, ?_, ?_, ?_⟩ <;> rw [ho]
  · exact h.service
  · exact h.own
  · exact h.offered
  · exact h.elem

/-- A variable has ended, and what it had is gone. -/
theorem Inv.gone {w w' : World} (h : Inv w) {v : Nat} (ha : (w.objs v).alive = true) (hf : w'.fault = none)
    (hobj : ∀ x, x ≠ v → w'.objs x = w.objs x) (hdead : (w'.objs v).alive = false) (hnobj : w.nobj ≤ w'.nobj)
    (hnref : w.nref ≤ w'.nref) (hnsvc : w.nsvc ≤ w'.nsvc)
    (hs : w'.samples = w.samples)
    (hact : ∀ x, (w.objs v).service ≠ some x → (∀ k, w'.active x k = w.active x k) ∧ w'.opened x = w.opened x)
    (hact2 : ∀ x, (w.objs v).service = some x → (∀ k, w'.active x k = false) ∧ w'.opened x = false)
    (hrefs : ∀ r, (∀ k, k < (w.objs v).n → ((w.objs v).elems k).ref ≠ some r) → w'.refs r = w.refs r)
    (htrks : ∀ r, (∀ k, k < (w.objs v).n → ((w.objs v).elems k).tracker ≠ some r) → w'.trks r = w.trks r)
    (hnone : ∀ k, k < (w.objs v).n → ∀ r, ((w.objs v).elems k).tracker = some r → w.samples.count (some r) = 0) : Inv w' := by
  have hav : ∀ x, (w'.objs x).alive = true → x ≠ v ∧ w'.objs x = w.objs x := by
    intro x hx
    by_cases he : x = v
    · subst he; rw [hdead] at hx; cases hx
    · exact ⟨he, hobj x he⟩
  refine ⟨hf, ?_, ?_, ?_, ?_, ?_, ?_⟩
  · intro x hx
    obtain ⟨he, ho⟩ := hav x hx
    rw [ho] at hx
    exact Nat.lt_of_lt_of_le (h.lt x hx) hnobj
  · intro x hx
    obtain ⟨he, ho⟩ := hav x hx
    rw [ho] at hx
    rcases h.obj x hx with hb | ⟨s, hb⟩
    · exact Or.inl (hb.frame ho)
    · right
      refine ⟨s, hb.frame ho hnsvc hnref (fun r k hr _ => ?_) ?_ ?_⟩
      · have key : ∀ k, k < (w.objs v).n → ((w.objs v).elems k).ref ≠ some r ∧ ((w.objs v).elems k).tracker ≠ some r := by
          intro j hj
          rcases h.obj v ha with hbl | ⟨s', hov⟩
          · rw [(hbl.elem j).2]; simp
          · obtain ⟨q, _, h2, h3, _, h5, _⟩ := hov.elem j hj
            have : q ≠ r := by
              intro e; subst e; rw [h5] at hr; injection hr with hr; injection hr with hr _; exact he hr.symm
            rw [h2, h3]; simp [this]
        exact ⟨hrefs r fun j hj => (key j hj).1, htrks r fun j hj => (key j hj).2, by rw [hs]⟩
      · exact (hact s fun e => he (h.uniq x v s hx ha hb.service e)).1
      · exact (hact s fun e => he (h.uniq x v s hx ha hb.service e)).2
  · intro x y s hx hy h1 h2
    obtain ⟨_, ho⟩ := hav x hx
    obtain ⟨_, ho'⟩ := hav y hy
    rw [ho] at hx h1
    rw [ho'] at hy h2
    exact h.uniq x y s hx hy h1 h2
  · intro t ht
    rw [hs] at ht
    obtain ⟨x, k, hx, hk, hkt⟩ := h.held t ht
    have he : x ≠ v := by
      intro e; subst e
      have h0 := hnone k hk t hkt
      have : 0 < w.samples.count (some t) := List.count_pos_iff.mpr ht
      omega
    exact ⟨x, k, by rw [hobj x he]; exact hx, by rw [hobj x he]; exact hk, by rw [hobj x he]; exact hkt⟩
  · intro s k hsk
    by_cases hsv : (w.objs v).service = some s
    · rw [(hact2 s hsv).1] at hsk; cases hsk
    · rw [(hact s hsv).1] at hsk
      obtain ⟨x, hx, hx2, hx3⟩ := h.act s k hsk
      have he : x ≠ v := fun e => hsv (e ▸ hx2)
      exact ⟨x, by rw [hobj x he]; exact hx, by rw [hobj x he]; exact hx2, by rw [hobj x he]; exact hx3⟩
  · intro s hs'
    by_cases hsv : (w.objs v).service = some s
    · rw [(hact2 s hsv).2] at hs'; cases hs'
    · rw [(hact s hsv).2] at hs'
      obtain ⟨x, hx, hx2⟩ := h.opn s hs'
      have he : x ≠ v := fun e => hsv (e ▸ hx2)
      exact ⟨x, by rw [hobj x he]; exact hx, by rw [hobj x he]; exact hx2⟩

/-- What the variable had is gone; the variable itself is still there. -/
structure Cleared (w c : World) (v : Nat) : Prop where
  fault : c.fault = none
  objs : ∀ x, x ≠ v → c.objs x = w.objs x
  alive : (c.objs v).alive = (w.objs v).alive
  nobj : c.nobj = w.nobj
  nref : c.nref = w.nref
  nsvc : c.nsvc = w.nsvc
  samples : c.samples = w.samples
  act : ∀ x, (w.objs v).service ≠ some x → (∀ k, c.active x k = w.active x k) ∧ c.opened x = w.opened x
  act2 : ∀ x, (w.objs v).service = some x → (∀ k, c.active x k = false) ∧ c.opened x = false
  refs : ∀ r, (∀ k, k < (w.objs v).n → ((w.objs v).elems k).ref ≠ some r) → c.refs r = w.refs r
  trks : ∀ r, (∀ k, k < (w.objs v).n → ((w.objs v).elems k).tracker ≠ some r) → c.trks r = w.trks r
  none : ∀ k, k < (w.objs v).n → ∀ r, ((w.objs v).elems k).tracker = some r → w.samples.count (some r) = 0

theorem Cleared.inv {w c : World} {v : Nat} (h : Inv w) (ha : (w.objs v).alive = true) (hc : Cleared w c v) (o : Obj)
    (ho : o.alive = false) : Inv (c.setObj v o) :=
  h.gone ha hc.fault (fun x hx => by simp [World.setObj, hx, hc.objs x hx]) (by simp [World.setObj, ho])
    (by show w.nobj ≤ c.nobj; rw [hc.nobj]; exact Nat.le_refl _) (by show w.nref ≤ c.nref; rw [hc.nref]; exact Nat.le_refl _) (by show w.nsvc ≤ c.nsvc; rw [hc.nsvc]; exact Nat.le_refl _) hc.samples hc.act hc.act2 hc.refs hc.trks hc.none

/-- What a variable does before it ends or gets other content. -/
def clear (check : Bool) (w : World) (v : Nat) : World := (retire w v).andThen fun w => free check w v

theorem retired_act {w : World} (h : Inv w) {v s : Nat} (ha : (w.objs v).alive = true) (hs : (w.objs v).service = some s)
    (k : Nat) : (w.retired v s).active s k = false := by
  show (if s = s ∧ k < (w.objs v).n then false else w.active s k) = false
  by_cases hk : k < (w.objs v).n
  · simp [hk]
  · simp only [hk, and_false, if_false]
    cases hb : w.active s k with
    | false => rfl
    | true =>
      obtain ⟨x, hx, hx2, hx3⟩ := h.act s k hb
      have := h.uniq v x s ha hx hs hx2
      subst this
      exact absurd hx3 hk

theorem clear_eq {w : World} (h : Inv w) {v : Nat} (ha : (w.objs v).alive = true) {check : Bool}
    (hc : check = true ∨ (w.objs v).kind = .proxy) :
    Cleared w (clear check w v) v ∨
      ((clear check w v).fault = some .assertion ∧
        ∃ k, k < (w.objs v).n ∧ ∃ r, ((w.objs v).elems k).tracker = some r ∧ w.samples.count (some r) ≠ 0) := by
  cases hs : (w.objs v).service with
  | none =>
    have hb := h.blank ha hs
    left
    have hr : retire w v = w := by simp [retire, hb.own]
    have h1 : clear check w v = freeElems check (w.objs v).elems (w.objs v).n w := by
      simp [clear, hr, World.andThen, h.fault, free, hs, freeBinding]
    rw [h1]
    have hbe : ∀ k, ((w.objs v).elems k) = {} := fun k => (hb.elem k).2
    rcases freeElems_eq (w := w) (check := check) (elems := (w.objs v).elems) h.fault (w.objs v).n
      (fun j k t _ _ hj => by rw [hbe] at hj; cases hj) with ⟨F, _⟩ | ⟨_, _, k, _, t, u, hk, _⟩
    · exact ⟨by rw [F.fault, h.fault], fun x _ => by rw [F.objs], by rw [F.objs], F.nobj, F.nref, F.nsvc, F.samples,
        fun x _ => ⟨fun k => by rw [F.active], by rw [F.opened]⟩, fun x hx => (by rw [hs] at hx; cases hx),
        F.refs, F.trks, fun k _ r hr => (by rw [hbe] at hr; cases hr)⟩
    · rw [hbe] at hk; cases hk
  | some s =>
    have ho := h.owner ha hs
    have hmt : ∀ k, k < (w.objs v).n → ∀ r, (w.objs v).map k = some r ↔ ((w.objs v).elems k).tracker = some r := by
      intro k hk r
      obtain ⟨q, h1, _, h3, _⟩ := ho.elem k hk
      rw [h1, h3]
    rcases retire_eq h.fault ha ho with ⟨e, c⟩ | ⟨e, hk, k, hlt, r, hr, hcount⟩
    · have hfr : (w.retired v s).fault = none := h.fault
      have hov : (w.retired v s).objs v = { (w.flags v s (w.objs v).n false).objs v with offered := false } := by
        simp [World.retired, World.setObj]
      have hsv : ((w.retired v s).objs v).service = some s := by rw [hov]; simp [flags_obj, hs]
      have hop : (w.retired v s).opened s = false := by simp [World.retired, World.setObj, World.setOpened]
      have hn : ((w.retired v s).objs v).n = (w.objs v).n := by rw [hov]; simp [flags_obj]
      have hel : ∀ k, (((w.retired v s).objs v).elems k).ref = ((w.objs v).elems k).ref ∧
          (((w.retired v s).objs v).elems k).tracker = ((w.objs v).elems k).tracker := by
        intro k; rw [hov]; simp only [flags_obj]; by_cases hk : k < (w.objs v).n <;> simp [hk]
      have h1 : clear check w v =
          freeElems check ((w.retired v s).objs v).elems (w.objs v).n (w.retired v s) := by
        simp [clear, e, World.andThen, hfr, free, hsv, freeBinding, hop, hn]
      have hinj : ∀ j k t, j < (w.objs v).n → k < (w.objs v).n → (((w.retired v s).objs v).elems j).tracker = some t →
          (((w.retired v s).objs v).elems k).tracker = some t → j = k := by
        intro j k t hj hk h1 h2
        rw [(hel j).2] at h1
        rw [(hel k).2] at h2
        obtain ⟨q, _, _, h3, _, h5, _⟩ := ho.elem j hj
        obtain ⟨q', _, _, h3', _, h5', _⟩ := ho.elem k hk
        rw [h3] at h1; rw [h3'] at h2
        injection h1 with h1; injection h2 with h2
        subst h1; subst h2
        rw [h5] at h5'
        injection h5' with h5'; injection h5'
      rw [h1]
      rcases freeElems_eq (w := w.retired v s) (check := check) (elems := ((w.retired v s).objs v).elems) hfr (w.objs v).n hinj
        with ⟨F, d⟩ | ⟨f, _, k, hk, t, u, hkt, hu⟩
      · left
        refine ⟨by rw [F.fault, hfr], fun x hx => ?_, ?_, F.nobj, F.nref, F.nsvc, F.samples, fun x hx => ⟨fun k => ?_, ?_⟩,
          fun x hx => ⟨fun k => ?_, ?_⟩, fun r hr => ?_, fun r hr => ?_, fun k hk r hr => ?_⟩
        · rw [F.objs]; simp [World.retired, World.setObj, World.setOpened, hx, flags_other hx]
        · rw [F.objs, hov]; simp [flags_obj]
        · rw [F.active]
          have : x ≠ s := fun e => hx (by rw [hs, e])
          show (if x = s ∧ k < (w.objs v).n then false else w.active x k) = w.active x k
          simp [this]
        · rw [F.opened]
          have : x ≠ s := fun e => hx (by rw [hs, e])
          simp [World.retired, World.setObj, World.setOpened, this]
        · rw [hs] at hx; injection hx with hx; subst hx
          rw [F.active]; exact retired_act h ha hs k
        · rw [hs] at hx; injection hx with hx; subst hx
          rw [F.opened]; exact hop
        · exact F.refs r fun k hk => by rw [(hel k).1]; exact hr k hk
        · exact F.trks r fun k hk => by rw [(hel k).2]; exact hr k hk
        · rcases hc with hc | hc
          · have hd := d hc k hk r (by rw [(hel k).2]; exact hr)
            obtain ⟨q, _, _, h3, _, _, _, h7, _⟩ := ho.elem k hk
            rw [hr] at h3; injection h3 with h3; subst h3
            cases hcount : w.samples.count (some r) with
            | zero => rfl
            | succ u => exact absurd (h7.trans (by rw [hcount])) (hd u)
          · exact c hc k hk r ((hmt k hk r).mpr hr)
      · right
        refine ⟨f, k, hk, t, by rw [← (hel k).2]; exact hkt, ?_⟩
        obtain ⟨q, _, _, h3, _, _, _, h7, _⟩ := ho.elem k hk
        rw [(hel k).2, h3] at hkt; injection hkt with hkt; subst hkt
        have hu' : w.trks q = some (u + 1) := hu
        rw [h7] at hu'; injection hu' with hu'; omega
    · right
      refine ⟨by simp [clear, World.andThen, e], k, hlt, r, (hmt k hlt r).mp hr, hcount⟩

theorem retarget_some {v i : Nat} {elems : Nat → Elem} {refs : Nat → Option (Nat × Nat)} : ∀ m,
    (∀ k, k < m → ∃ r, (elems k).ref = some r ∧ refs r = some (i, k)) →
    ∃ refs', retarget v elems m refs = some refs' ∧
      (∀ k, k < m → ∀ r, (elems k).ref = some r → refs' r = some (v, k)) ∧
      ∀ r, (∀ k, k < m → (elems k).ref ≠ some r) → refs' r = refs r := by
  intro m
  induction m with
  | zero => intro _; exact ⟨refs, rfl, fun k hk => by omega, fun _ _ => rfl⟩
  | succ m ih =>
    intro h
    obtain ⟨refs', h1, h2, h3⟩ := ih fun k hk => h k (by omega)
    obtain ⟨r, hr, hr2⟩ := h m (by omega)
    refine ⟨fun x => if x = r then some (v, m) else refs' x, by simp [retarget, h1, hr], fun k hk q hq => ?_, fun q hq => ?_⟩
    · by_cases hkm : k = m
      · subst hkm; rw [hr] at hq; injection hq with hq; simp [hq]
      · have hne : q ≠ r := by
          intro e; subst e
          obtain ⟨q', hq', hq2⟩ := h k hk
          rw [hq] at hq'; injection hq' with hq'; subst hq'
          rw [hr2] at hq2; injection hq2 with hq2; injection hq2 with _ hq2; exact hkm hq2.symm
        show (if q = r then some (v, m) else refs' q) = some (v, k)
        rw [if_neg hne]
        exact h2 k (by omega) q hq
    · have hne : q ≠ r := fun e => hq m (by omega) (by rw [e]; exact hr)
      show (if q = r then some (v, m) else refs' q) = refs q
      rw [if_neg hne]
      exact h3 q fun k hk => hq k (by omega)

theorem retarget_none {v : Nat} {elems : Nat → Elem} {refs : Nat → Option (Nat × Nat)} {m : Nat} (hm : m ≠ 0)
    (h : ∀ k, (elems k).ref = none) : retarget v elems m refs = none := by
  cases m with
  | zero => exact absurd rfl hm
  | succ m => simp [retarget, h]

/-- A dead variable takes over from one that lives. -/
theorem takeOver_inv {w : World} (h : Inv w) {v i N : Nat} (hv : (w.objs v).alive = false)
    (hi : (w.objs i).alive = true) (hN : w.nobj ≤ N) (hvN : v < N) :
    Inv { takeOver w v i with nobj := N } ∨ ((takeOver w v i).fault = some .undefined ∧ (w.objs i).service = none) := by
  have hne : i ≠ v := by intro e; subst e; rw [hi] at hv; cases hv
  have main : ∀ refs', retarget v (w.objs i).elems (w.objs i).n w.refs = some refs' →
      (∀ k, k < (w.objs i).n → ∀ r, ((w.objs i).elems k).ref = some r → refs' r = some (v, k)) →
      (∀ r, (∀ k, k < (w.objs i).n → ((w.objs i).elems k).ref ≠ some r) → refs' r = w.refs r) →
      Inv { takeOver w v i with nobj := N } := by
    intro refs' hr h1 h2
    simp only [takeOver, hr]
    generalize hw' : ({ (w.setObj v (w.objs i)).setObj i (w.objs i).moved with refs := refs', nobj := N } : World) = w'
    have oi : w'.objs i = (w.objs i).moved := by subst hw'; simp [World.setObj]
    have ov : w'.objs v = w.objs i := by subst hw'; simp [World.setObj, Ne.symm hne]
    have ox : ∀ x, x ≠ i → x ≠ v → w'.objs x = w.objs x := by intro x h1 h2; subst hw'; simp [World.setObj, h1, h2]
    have e1 : w'.nobj = N := by subst hw'; rfl
    have e2 : w'.nsvc = w.nsvc := by subst hw'; rfl
    have e3 : w'.nref = w.nref := by subst hw'; rfl
    have e4 : w'.samples = w.samples := by subst hw'; rfl
    have e5 : w'.active = w.active := by subst hw'; rfl
    have e6 : w'.opened = w.opened := by subst hw'; rfl
    have e7 : w'.trks = w.trks := by subst hw'; rfl
    have e8 : w'.refs = refs' := by subst hw'; rfl
    have e9 : w'.fault = none := by subst hw'; exact h.fault
    have back : ∀ x s, (w'.objs x).alive = true → (w'.objs x).service = some s →
        ∃ y, (w.objs y).alive = true ∧ (w.objs y).service = some s ∧ w'.objs x = w.objs y ∧
          (if y = i then x = v else x = y) := by
      intro x s ha hs
      by_cases hxi : x = i
      · subst hxi; rw [oi] at hs; cases hs
      · by_cases hxv : x = v
        · subst hxv; rw [ov] at hs; exact ⟨i, hi, hs, ov, by simp⟩
        · rw [ox x hxi hxv] at ha hs
          exact ⟨x, ha, hs, ox x hxi hxv, by simp [hxi]⟩
    have forth : ∀ y s, (w.objs y).alive = true → (w.objs y).service = some s →
        ∃ x, (w'.objs x).alive = true ∧ (w'.objs x).service = some s ∧ w'.objs x = w.objs y := by
      intro y s ha hs
      by_cases hyi : y = i
      · subst hyi; exact ⟨v, by rw [ov]; exact ha, by rw [ov]; exact hs, ov⟩
      · have hyv : y ≠ v := by intro e; subst e; rw [hv] at ha; cases ha
        exact ⟨y, by rw [ox y hyi hyv]; exact ha, by rw [ox y hyi hyv]; exact hs, ox y hyi hyv⟩
    refine ⟨e9, ?_, ?_, ?_, ?_, ?_, ?_⟩
    · intro x hx
      rw [e1]
      by_cases hxv : x = v
      · rw [hxv]; exact hvN
      · by_cases hxi : x = i
        · rw [hxi]; exact Nat.lt_of_lt_of_le (h.lt i hi) hN
        · rw [ox x hxi hxv] at hx; exact Nat.lt_of_lt_of_le (h.lt x hx) hN
    · intro x hx
      by_cases hxi : x = i
      · subst hxi
        left
        exact ⟨by rw [oi]; rfl, by rw [oi]; rfl, by rw [oi]; rfl, fun k => by rw [oi]; exact ⟨rfl, rfl⟩⟩
      · by_cases hxv : x = v
        · subst hxv
          rcases h.obj i hi with hb | ⟨s, ho⟩
          · left
            exact ⟨by rw [ov]; exact hb.service, by rw [ov]; exact hb.own, by rw [ov]; exact hb.offered,
              fun k => by rw [ov]; exact hb.elem k⟩
          · right
            refine ⟨s, by rw [ov]; exact ho.service, by rw [ov]; exact ho.own, by rw [e2]; exact ho.lt, ?_, ?_, ?_, ?_, ?_⟩
            · rw [ov]
              intro k hk
              obtain ⟨r, a1, a2, a3, a4, a5, a6, a7, a8⟩ := ho.elem k hk
              exact ⟨r, a1, a2, a3, a4, by rw [e8]; exact h1 k hk r a2, by rw [e3]; exact a6, by rw [e7, e4]; exact a7,
                by rw [e4]; exact a8⟩
            · rw [ov, e5]; exact ho.act
            · rw [ov, e6]; exact ho.opn
            · rw [ov]; exact ho.skel
            · rw [ov]; exact ho.prox
        · have hox := ox x hxi hxv
          rw [hox] at hx
          rcases h.obj x hx with hb | ⟨s, ho⟩
          · exact Or.inl (hb.frame hox)
          · right
            refine ⟨s, ho.frame hox (by rw [e2]; exact Nat.le_refl _) (by rw [e3]; exact Nat.le_refl _) (fun r k hr _ => ?_)
              (fun k => by rw [e5]) (by rw [e6])⟩
            refine ⟨?_, by rw [e7], by rw [e4]⟩
            rw [e8]
            refine h2 r fun j hj hjr => ?_
            rcases h.obj i hi with hb | ⟨s', ho'⟩
            · rw [(hb.elem j).2] at hjr; cases hjr
            · obtain ⟨q, _, a2, _, _, a5, _⟩ := ho'.elem j hj
              rw [a2] at hjr; injection hjr with hjr; subst hjr
              rw [a5] at hr; injection hr with hr; injection hr with hr _; exact hxi hr.symm
    · intro x y s hx hy hsx hsy
      obtain ⟨a, a1, a2, _, a4⟩ := back x s hx hsx
      obtain ⟨b, b1, b2, _, b4⟩ := back y s hy hsy
      have := h.uniq a b s a1 b1 a2 b2
      subst this
      by_cases hai : a = i
      · simp only [hai, if_true] at a4 b4; rw [a4, b4]
      · simp only [hai, if_false] at a4 b4; rw [a4, b4]
    · intro t ht
      rw [e4] at ht
      obtain ⟨x, k, hx, hk, hkt⟩ := h.held t ht
      cases hs : (w.objs x).service with
      | none => rw [((h.blank hx hs).elem k).2] at hkt; cases hkt
      | some s =>
        obtain ⟨y, y1, _, y3⟩ := forth x s hx hs
        exact ⟨y, k, y1, by rw [y3]; exact hk, by rw [y3]; exact hkt⟩
    · intro s k hsk
      rw [e5] at hsk
      obtain ⟨x, hx, hx2, hx3⟩ := h.act s k hsk
      obtain ⟨y, y1, y2, y3⟩ := forth x s hx hx2
      exact ⟨y, y1, y2, by rw [y3]; exact hx3⟩
    · intro s hs
      rw [e6] at hs
      obtain ⟨x, hx, hx2⟩ := h.opn s hs
      obtain ⟨y, y1, y2, y3⟩ := forth x s hx hx2
      exact ⟨y, y1, y2⟩
  rcases h.obj i hi with hb | ⟨s, ho⟩
  · by_cases hn : (w.objs i).n = 0
    · left
      refine main w.refs (by rw [hn]; rfl) (fun k hk => by omega) (fun _ _ => rfl)
    · right
      have := retarget_none (v := v) (refs := w.refs) (elems := (w.objs i).elems) hn fun k => by rw [(hb.elem k).2]
      exact ⟨by simp [takeOver, this, World.fail], hb.service⟩
  · left
    obtain ⟨refs', r1, r2, r3⟩ := retarget_some (v := v) (i := i) (elems := (w.objs i).elems) (refs := w.refs) (w.objs i).n
      fun k hk => by obtain ⟨r, _, a2, _, _, a5, _⟩ := ho.elem k hk; exact ⟨r, a2, a5⟩
    exact main refs' r1 r2 r3

end Verif.Moving
