import Verif.Proofs.Moving

/-! # Each step of a program keeps the invariant, or ends the process -/
namespace Verif.Moving
open Verif.Spec.Moving

theorem takeOver_nobj (w : World) (v i : Nat) : (takeOver w v i).nobj = w.nobj := by
  unfold takeOver; split <;> rfl

theorem takeOver_fault {w : World} {v i : Nat} (h : w.fault = none) :
    (takeOver w v i).fault = none ∨ (takeOver w v i).fault = some .undefined := by
  unfold takeOver; split
  · right; rfl
  · left; exact h

theorem takeOver_dead {w : World} {v i : Nat} (h : v ≠ i) (o : Obj) :
    takeOver (w.setObj v o) v i = takeOver w v i ∨
      ((takeOver (w.setObj v o) v i).fault = some .undefined ∧ (takeOver w v i).fault = some .undefined) := by
  have h1 : (w.setObj v o).objs i = w.objs i := by simp [World.setObj, Ne.symm h]
  have h2 : (w.setObj v o).refs = w.refs := rfl
  simp only [takeOver, h1, h2]
  cases hr : retarget v (w.objs i).elems (w.objs i).n w.refs with
  | none => right; exact ⟨rfl, rfl⟩
  | some refs =>
    left
    simp only [World.setObj, World.mk.injEq, and_true, true_and]
    funext x
    by_cases hxi : x = i
    · simp [hxi]
    · by_cases hxv : x = v <;> simp [hxi, hxv]

/-- One variable has changed, and it stands for the same service. -/
theorem Inv.change {w w' : World} (h : Inv w) {v s : Nat} (hs : (w.objs v).service = some s)
    (ha : (w.objs v).alive = true) (hf : w'.fault = none) (hobj : ∀ x, x ≠ v → w'.objs x = w.objs x)
    (ha' : (w'.objs v).alive = true) (hn : (w'.objs v).n = (w.objs v).n)
    (htr : ∀ k, ((w'.objs v).elems k).tracker = ((w.objs v).elems k).tracker)
    (e1 : w'.nobj = w.nobj) (e2 : w'.nref = w.nref) (e3 : w'.nsvc = w.nsvc) (e4 : w'.refs = w.refs)
    (hact : ∀ x, x ≠ s → (∀ k, w'.active x k = w.active x k) ∧ w'.opened x = w.opened x)
    (hact2 : ∀ k, w'.active s k = true → k < (w.objs v).n)
    (htrks : ∀ x r k, x ≠ v → w.refs r = some (x, k) → w'.trks r = w.trks r ∧
      w'.samples.count (some r) = w.samples.count (some r))
    (hsam : ∀ t, some t ∈ w'.samples → some t ∈ w.samples ∨ ∃ k, k < (w.objs v).n ∧ ((w.objs v).elems k).tracker = some t)
    (ho : Owner w' v s) : Inv w' := by
  have back : ∀ x, (w'.objs x).alive = true → (w.objs x).alive = true ∧
      ∀ t, (w'.objs x).service = some t → (w.objs x).service = some t := by
    intro x hx
    by_cases he : x = v
    · subst he; refine ⟨ha, fun t ht => ?_⟩; rw [ho.service] at ht; rw [hs]; exact ht
    · rw [hobj x he] at hx ⊢; exact ⟨hx, fun t ht => ht⟩
  have forth : ∀ x, (w.objs x).alive = true → (w'.objs x).alive = true ∧ (w'.objs x).service = (w.objs x).service ∧
      (w'.objs x).n = (w.objs x).n ∧ ∀ k, ((w'.objs x).elems k).tracker = ((w.objs x).elems k).tracker := by
    intro x hx
    by_cases he : x = v
    · subst he; exact ⟨ha', by rw [ho.service, hs], hn, htr⟩
    · rw [hobj x he]; exact ⟨hx, rfl, rfl, fun _ => rfl⟩
  refine ⟨hf, ?_, ?_, ?_, ?_, ?_, ?_⟩
  · intro x hx; rw [e1]; exact h.lt x (back x hx).1
  · intro x hx
    by_cases he : x = v
    · subst he; exact Or.inr ⟨s, ho⟩
    · have hx' := (back x hx).1
      rcases h.obj x hx' with hb | ⟨t, hb⟩
      · exact Or.inl (hb.frame (hobj x he))
      · right
        have hts : t ≠ s := fun e => he (h.uniq x v s hx' ha (e ▸ hb.service) hs)
        exact ⟨t, hb.frame (hobj x he) (by rw [e3]; exact Nat.le_refl _) (by rw [e2]; exact Nat.le_refl _)
          (fun r k hr _ => ⟨by rw [e4], htrks x r k he hr⟩) (hact t hts).1 (hact t hts).2⟩
  · intro x y t hx hy h1 h2
    exact h.uniq x y t (back x hx).1 (back y hy).1 ((back x hx).2 t h1) ((back y hy).2 t h2)
  · intro t ht
    rcases hsam t ht with h1 | ⟨k, hk, hkt⟩
    · obtain ⟨x, k, hx, hk, hkt⟩ := h.held t h1
      obtain ⟨f1, _, f3, f4⟩ := forth x hx
      exact ⟨x, k, f1, by rw [f3]; exact hk, by rw [f4]; exact hkt⟩
    · exact ⟨v, k, ha', by rw [hn]; exact hk, by rw [htr]; exact hkt⟩
  · intro t k htk
    by_cases hts : t = s
    · subst hts
      exact ⟨v, ha', ho.service, by rw [hn]; exact hact2 k htk⟩
    · rw [(hact t hts).1] at htk
      obtain ⟨x, hx, hx2, hx3⟩ := h.act t k htk
      obtain ⟨f1, f2, f3, _⟩ := forth x hx
      exact ⟨x, f1, by rw [f2]; exact hx2, by rw [f3]; exact hx3⟩
  · intro t htk
    by_cases hts : t = s
    · subst hts; exact ⟨v, ha', ho.service⟩
    · rw [(hact t hts).2] at htk
      obtain ⟨x, hx, hx2⟩ := h.opn t htk
      obtain ⟨f1, f2, _⟩ := forth x hx
      exact ⟨x, f1, by rw [f2]; exact hx2⟩

theorem Inv.act_lt {w : World} (h : Inv w) {v s k : Nat} (ha : (w.objs v).alive = true) (hs : (w.objs v).service = some s)
    (hk : w.active s k = true) : k < (w.objs v).n := by
  obtain ⟨x, hx, hx2, hx3⟩ := h.act s k hk
  have := h.uniq v x s ha hx hs hx2
  subst this
  exact hx3

/-- The flag of one element of a proxy. -/
theorem mark_inv {w : World} (h : Inv w) {v s k : Nat} (ha : (w.objs v).alive = true) (hs : (w.objs v).service = some s)
    (hk : k < (w.objs v).n) (hp : (w.objs v).kind = .proxy) (b : Bool)
    (hb : b = false → ∀ r, (w.objs v).map k = some r → w.samples.count (some r) = 0) : Inv (w.mark v k s k b) := by
  have ho := h.owner ha hs
  have hov : (w.mark v k s k b).objs v = (w.objs v).setElem k { (w.objs v).elems k with flag := b } := by
    simp [World.mark, World.setObj]
  have hel : ∀ j, ((w.mark v k s k b).objs v).elems j =
      if j = k then { (w.objs v).elems k with flag := b } else (w.objs v).elems j := by
    intro j; rw [hov]; rfl
  have hact : ∀ x y, (w.mark v k s k b).active x y = if x = s ∧ y = k then b else w.active x y := fun x y => rfl
  refine h.change hs ha h.fault (fun x hx => by simp [World.mark, World.setObj, World.setActive, hx]) (by rw [hov]; exact ha)
    (by rw [hov]; rfl) (fun j => by rw [hel]; by_cases hj : j = k <;> simp [hj]) rfl rfl rfl rfl
    (fun x hx => ⟨fun j => by rw [hact]; simp [hx], rfl⟩) (fun j hj => ?_) (fun x r j _ _ => ⟨rfl, rfl⟩)
    (fun t ht => Or.inl ht) ⟨?_, ?_, ho.lt, ?_, ?_, ?_, ?_, ?_⟩
  · rw [hact] at hj
    by_cases hjk : j = k
    · rw [hjk]; exact hk
    · simp only [hjk, and_false, if_false] at hj; exact h.act_lt ha hs hj
  · rw [hov]; exact hs
  · rw [hov]; exact ho.own
  · intro j hj
    have hj' : j < (w.objs v).n := by rw [hov] at hj; exact hj
    obtain ⟨r, a1, a2, a3, a4, a5, a6, a7, a8⟩ := ho.elem j hj'
    refine ⟨r, by rw [hov]; exact a1, ?_, ?_, ?_, a5, a6, a7, fun _ hfl => ?_⟩
    · rw [hel]; by_cases hjk : j = k
      · subst hjk; simpa using a2
      · simpa [hjk] using a2
    · rw [hel]; by_cases hjk : j = k
      · subst hjk; simpa using a3
      · simpa [hjk] using a3
    · rw [hel]; by_cases hjk : j = k
      · subst hjk; simpa using a4
      · simpa [hjk] using a4
    · rw [hel] at hfl
      by_cases hjk : j = k
      · subst hjk; simp only [if_true] at hfl; exact hb hfl r a1
      · simp only [hjk, if_false] at hfl; exact a8 hp hfl
  · intro j hj
    have hj' : j < (w.objs v).n := by rw [hov] at hj; exact hj
    rw [hact, hel]
    by_cases hjk : j = k
    · simp [hjk]
    · simp [hjk, ho.act j hj']
  · rw [hov]; exact ho.opn
  · rw [hov]; intro hsk; have : (w.objs v).kind = .skeleton := hsk; rw [hp] at this; cases this
  · rw [hov]; exact ho.prox

theorem subscribe_inv {w : World} (h : Inv w) {v k : Nat} (ha : (w.objs v).alive = true) (hp : (w.objs v).kind = .proxy)
    (hk : k < (w.objs v).n) :
    (∃ s, (w.objs v).service = some s ∧ startElem w v k = w.mark v k s k true ∧ Inv (startElem w v k)) ∨
      ((startElem w v k).fault = some .undefined ∧ (w.objs v).service = none) := by
  have hn : ¬ (w.objs v).n ≤ k := by omega
  cases hs : (w.objs v).service with
  | none =>
    right
    have hb := (h.blank ha hs).elem k
    exact ⟨by simp [startElem, ha, hn, hb, World.fail], rfl⟩
  | some s =>
    left
    obtain ⟨r, a1, a2, a3, a4, _⟩ := (h.owner ha hs).elem k hk
    have : startElem w v k = w.mark v k s k true := by simp [startElem, ha, hn, a4]
    exact ⟨s, rfl, this, by rw [this]; exact mark_inv h ha hs hk hp true (by simp)⟩

theorem unsubscribe_inv {w : World} (h : Inv w) {v k : Nat} (ha : (w.objs v).alive = true) (hp : (w.objs v).kind = .proxy)
    (hk : k < (w.objs v).n) :
    (Inv (stopElem w v k) ∧ (∀ r, ((w.objs v).elems k).tracker = some r → w.samples.count (some r) = 0) ∧
      ((stopElem w v k = w ∧ ((w.objs v).elems k).flag = false) ∨
        ∃ s, (w.objs v).service = some s ∧ stopElem w v k = w.mark v k s k false)) ∨
      ((stopElem w v k).fault = some .assertion ∧ ∃ r, ((w.objs v).elems k).tracker = some r ∧ w.samples.count (some r) ≠ 0) := by
  have hn : ¬ (w.objs v).n ≤ k := by omega
  cases hs : (w.objs v).service with
  | none =>
    left
    have hb := (h.blank ha hs).elem k
    have : stopElem w v k = w := by simp [stopElem, ha, hn, hb]
    rw [this]
    exact ⟨h, by simp [hb], Or.inl ⟨rfl, by simp [hb]⟩⟩
  | some s =>
    obtain ⟨r, a1, a2, a3, a4, a5, a6, a7, a8⟩ := (h.owner ha hs).elem k hk
    by_cases hfl : ((w.objs v).elems k).flag = true
    · cases hc : w.samples.count (some r) with
      | zero =>
        left
        have : stopElem w v k = w.mark v k s k false := by simp [stopElem, ha, hn, hfl, a4, hp, a3, a7, hc]
        refine ⟨?_, fun q hq => ?_, Or.inr ⟨s, rfl, this⟩⟩
        · rw [this]
          exact mark_inv h ha hs hk hp false fun _ q hq => by rw [a1] at hq; injection hq with hq; subst hq; exact hc
        · rw [a3] at hq; injection hq with hq; subst hq; exact hc
      | succ u =>
        right
        exact ⟨by simp [stopElem, ha, hn, hfl, a4, hp, a3, a7, hc, World.fail], r, a3, by omega⟩
    · simp only [Bool.not_eq_true] at hfl
      left
      have : stopElem w v k = w := by simp [stopElem, ha, hn, hfl]
      refine ⟨by rw [this]; exact h, fun q hq => ?_, Or.inl ⟨this, hfl⟩⟩
      rw [a3] at hq; injection hq with hq; subst hq; exact a8 hp hfl

/-- All elements of a skeleton are offered, or none of them is. -/
theorem offered_inv {w w' : World} (h : Inv w) {v s : Nat} (ha : (w.objs v).alive = true)
    (hs : (w.objs v).service = some s) (hk : (w.objs v).kind = .skeleton) (b : Bool)
    (hw : w' = ((w.flags v s (w.objs v).n b).setOpened s b).setObj v
      { (w.flags v s (w.objs v).n b).objs v with offered := b }) : Inv w' := by
  have ho := h.owner ha hs
  have hov : w'.objs v = { (w.flags v s (w.objs v).n b).objs v with offered := b } := by subst hw; simp [World.setObj]
  have hel : ∀ j, (w'.objs v).elems j =
      if j < (w.objs v).n then { (w.objs v).elems j with flag := b } else (w.objs v).elems j := by
    intro j; rw [hov]; simp [flags_obj]
  have hact : ∀ x y, w'.active x y = if x = s ∧ y < (w.objs v).n then b else w.active x y := fun x y => by subst hw; rfl
  have hop : ∀ x, w'.opened x = if x = s then b else w.opened x := fun x => by subst hw; rfl
  have hn : (w'.objs v).n = (w.objs v).n := by rw [hov]; simp [flags_obj]
  have hkd : (w'.objs v).kind = .skeleton := by rw [hov]; simp [flags_obj, hk]
  have hoff : (w'.objs v).offered = b := by rw [hov]
  refine h.change hs ha (by subst hw; exact h.fault)
    (fun x hx => by subst hw; simp [World.setObj, World.setOpened, hx, flags_other hx])
    (by rw [hov]; simpa [flags_obj] using ha) hn (fun j => by rw [hel]; by_cases hj : j < (w.objs v).n <;> simp [hj])
    (by subst hw; rfl) (by subst hw; rfl) (by subst hw; rfl) (by subst hw; rfl)
    (fun x hx => ⟨fun j => by rw [hact]; simp [hx], by rw [hop]; simp [hx]⟩) (fun j hj => ?_)
    (fun x r j _ _ => ⟨by subst hw; rfl, by subst hw; rfl⟩) (fun t ht => Or.inl (by subst hw; exact ht))
    ⟨?_, ?_, (by subst hw; exact ho.lt), ?_, ?_, ?_, ?_, ?_⟩
  · rw [hact] at hj
    by_cases hjk : j < (w.objs v).n
    · exact hjk
    · simp only [hjk, and_false, if_false] at hj; exact h.act_lt ha hs hj
  · rw [hov]; simpa [flags_obj] using hs
  · rw [hov]; simpa [flags_obj] using ho.own
  · intro j hj
    rw [hn] at hj
    obtain ⟨r, a1, a2, a3, a4, a5, a6, a7, a8⟩ := ho.elem j hj
    refine ⟨r, by rw [hov]; simpa [flags_obj] using a1, ?_, ?_, ?_, by subst hw; exact a5, by subst hw; exact a6,
      by subst hw; exact a7, fun hc => ?_⟩
    · rw [hel]; simpa [hj] using a2
    · rw [hel]; simpa [hj] using a3
    · rw [hel]; simpa [hj] using a4
    · rw [hkd] at hc; cases hc
  · intro j hj
    rw [hn] at hj
    rw [hact, hel]; simp [hj]
  · rw [hop, hkd, hoff]; simp
  · intro _ j hj; rw [hn] at hj; rw [hel, hoff]; simp [hj]
  · rw [hkd]; intro hc; cases hc

theorem offer_inv {w : World} (h : Inv w) {v : Nat} (ha : (w.objs v).alive = true) (hk : (w.objs v).kind = .skeleton) :
    (∃ s, (w.objs v).service = some s ∧ Inv (offer w v) ∧
      offer w v = ((w.flags v s (w.objs v).n true).setOpened s true).setObj v
        { (w.flags v s (w.objs v).n true).objs v with offered := true }) ∨
      ((offer w v).fault = some .undefined ∧ (w.objs v).service = none) := by
  cases hs : (w.objs v).service with
  | none => right; exact ⟨by simp [offer, hs, World.fail], rfl⟩
  | some s =>
    left
    have ho := h.owner ha hs
    have h1 := start_loop h.fault ha ho rfl (w.objs v).n (Nat.le_refl _)
    have h2 : offer w v = ((w.flags v s (w.objs v).n true).setOpened s true).setObj v
        { (w.flags v s (w.objs v).n true).objs v with offered := true } := by
      have hf : ((w.setOpened s true).flags v s (w.objs v).n true).fault = none := h.fault
      simp only [offer, hs, h1, World.andThen, hf, Option.isSome_none, Bool.false_eq_true, if_false]
      rfl
    exact ⟨s, rfl, offered_inv h ha hs hk true h2, h2⟩

theorem stopOffer_inv {w : World} (h : Inv w) {v : Nat} (ha : (w.objs v).alive = true) (hk : (w.objs v).kind = .skeleton) :
    Inv (stopOffer w v) ∧
      ((stopOffer w v = w ∧ (w.objs v).service = none) ∨ ∃ s, (w.objs v).service = some s ∧ stopOffer w v = w.retired v s) := by
  cases hs : (w.objs v).service with
  | none =>
    have : stopOffer w v = w := by simp [stopOffer, (h.blank ha hs).offered]
    rw [this]; exact ⟨h, Or.inl ⟨rfl, rfl⟩⟩
  | some s =>
    have ho := h.owner ha hs
    have h1 : retire w v = stopOffer w v := by simp [retire, ho.own, hk]
    rcases retire_eq h.fault ha ho with ⟨e, _⟩ | ⟨_, e, _⟩
    · rw [← h1]
      exact ⟨offered_inv h ha hs hk false e, Or.inr ⟨s, rfl, e⟩⟩
    · rw [hk] at e; cases e

/-- The count of samples of one tracker has changed. -/
theorem samples_inv {w w' : World} (h : Inv w) {v k r : Nat} (ha : (w.objs v).alive = true) (hk : k < (w.objs v).n)
    (hr : ((w.objs v).elems k).tracker = some r) {L : List (Option Nat)}
    (hw : w' = { w.setTrk r (some (L.count (some r))) with samples := L })
    (hL : ∀ t, t ≠ r → L.count (some t) = w.samples.count (some t))
    (hfl : ((w.objs v).elems k).flag = false → (w.objs v).kind = .proxy → L.count (some r) = 0) : Inv w' := by
  cases hs : (w.objs v).service with
  | none => rw [((h.blank ha hs).elem k).2] at hr; cases hr
  | some s =>
    have ho := h.owner ha hs
    obtain ⟨q, a1, a2, a3, a4, a5, a6, a7, a8⟩ := ho.elem k hk
    rw [hr] at a3; injection a3 with a3; subst a3
    have hobj : w'.objs = w.objs := by subst hw; rfl
    have htr : ∀ x, w'.trks x = if x = r then some (L.count (some r)) else w.trks x := fun x => by subst hw; rfl
    have hsam : w'.samples = L := by subst hw; rfl
    refine h.change hs ha (by subst hw; exact h.fault) (fun x _ => by rw [hobj]) (by rw [hobj]; exact ha) (by rw [hobj])
      (fun j => by rw [hobj]) (by subst hw; rfl) (by subst hw; rfl) (by subst hw; rfl) (by subst hw; rfl)
      (fun x _ => ⟨fun j => by subst hw; rfl, by subst hw; rfl⟩) (fun j hj => h.act_lt ha hs (by subst hw; exact hj))
      (fun x q j hx hq => ?_) (fun t ht => ?_) ⟨?_, ?_, (by subst hw; exact ho.lt), ?_, ?_, ?_, ?_, ?_⟩
    · have hne : q ≠ r := by
        intro e; subst e; rw [a5] at hq; injection hq with hq; injection hq with hq _; exact hx hq.symm
      exact ⟨by rw [htr]; simp [hne], by rw [hsam]; exact hL q hne⟩
    · rw [hsam] at ht
      by_cases hne : t = r
      · subst hne; exact Or.inr ⟨k, hk, hr⟩
      · left
        have : 0 < L.count (some t) := List.count_pos_iff.mpr ht
        rw [hL t hne] at this
        exact List.count_pos_iff.mp this
    · rw [hobj]; exact hs
    · rw [hobj]; exact ho.own
    · rw [hobj]
      intro j hj
      obtain ⟨q, b1, b2, b3, b4, b5, b6, b7, b8⟩ := ho.elem j hj
      by_cases hjk : j = k
      · subst hjk
        rw [hr] at b3; injection b3 with b3; subst b3
        exact ⟨r, b1, b2, hr, b4, by subst hw; exact b5, by subst hw; exact b6, by rw [htr, hsam]; simp,
          by rw [hsam]; exact fun x y => hfl y x⟩
      · have hne : q ≠ r := by
          intro e; subst e; rw [a5] at b5; injection b5 with b5; injection b5 with _ b5; exact hjk b5.symm
        exact ⟨q, b1, b2, b3, b4, by subst hw; exact b5, by subst hw; exact b6,
          by rw [htr, hsam, hL q hne]; simpa [hne] using b7, by rw [hsam, hL q hne]; exact b8⟩
    · rw [hobj]; subst hw; exact ho.act
    · rw [hobj]; subst hw; exact ho.opn
    · rw [hobj]; exact ho.skel
    · rw [hobj]; exact ho.prox

theorem hold_inv {w : World} (h : Inv w) {v k : Nat} (ha : (w.objs v).alive = true) (hk : k < (w.objs v).n) :
    Inv (hold w v k) := by
  by_cases hfl : ((w.objs v).elems k).flag = true
  · cases hs : (w.objs v).service with
    | none => rw [((h.blank ha hs).elem k).2] at hfl; cases hfl
    | some s =>
      obtain ⟨r, a1, a2, a3, a4, a5, a6, a7, a8⟩ := (h.owner ha hs).elem k hk
      refine samples_inv h ha hk a3 (L := w.samples ++ [some r]) ?_ (fun t ht => ?_) (fun hf => by rw [hfl] at hf; cases hf)
      · have : (w.samples ++ [some r]).count (some r) = w.samples.count (some r) + 1 := by simp
        rw [this]
        simp only [hold, hfl, a3, a7, if_true]
      · have : some r ≠ some t := by intro e; injection e with e; exact ht e.symm
        simp [List.count_append, this]
  · simpa [hold, hfl] using h

theorem release_inv {w : World} (h : Inv w) (m : Nat) : Inv (release w m) := by
  unfold release
  cases hm : w.samples[m]? with
  | none => exact h
  | some o =>
    cases o with
    | none => exact h
    | some t =>
      have hlt := (List.getElem?_eq_some_iff.mp hm).1
      have hget := (List.getElem?_eq_some_iff.mp hm).2
      have hmem : some t ∈ w.samples := List.mem_of_getElem? hm
      obtain ⟨v, k, ha, hk, hkt⟩ := h.held t hmem
      have hpos : 0 < w.samples.count (some t) := List.count_pos_iff.mpr hmem
      cases hs : (w.objs v).service with
      | none => rw [((h.blank ha hs).elem k).2] at hkt; cases hkt
      | some s =>
        obtain ⟨r, a1, a2, a3, a4, a5, a6, a7, a8⟩ := (h.owner ha hs).elem k hk
        rw [hkt] at a3; injection a3 with a3; subst a3
        have hc1 : (w.samples.set m none).count (some t) = w.samples.count (some t) - 1 := by
          rw [List.count_set hlt, hget]; simp
        have hc2 : ∀ u, u ≠ t → (w.samples.set m none).count (some u) = w.samples.count (some u) := by
          intro u hu
          have : ¬ (some t = some u) := by intro e; injection e with e; exact hu e.symm
          rw [List.count_set hlt, hget]; simp [Ne.symm hu]
        dsimp only
        rw [a7]
        obtain ⟨u, hu⟩ : ∃ u, w.samples.count (some t) = u + 1 := ⟨w.samples.count (some t) - 1, by omega⟩
        rw [hu]
        refine samples_inv h ha hk hkt (L := w.samples.set m none) ?_ hc2 (fun hf hp => ?_)
        · rw [hc1, hu]; rfl
        · have := a8 hp hf
          omega

theorem Inv.count_zero {w : World} (h : Inv w) {r : Nat} (hr : w.nref ≤ r) : w.samples.count (some r) = 0 := by
  rcases Nat.eq_zero_or_pos (w.samples.count (some r)) with h0 | h0
  · exact h0
  · obtain ⟨v, k, ha, hk, hkt⟩ := h.held r (List.count_pos_iff.mp h0)
    cases hs : (w.objs v).service with
    | none => rw [((h.blank ha hs).elem k).2] at hkt; cases hkt
    | some s =>
      obtain ⟨q, a1, a2, a3, a4, a5, a6, a7, a8⟩ := (h.owner ha hs).elem k hk
      rw [hkt] at a3; injection a3 with a3; subst a3; omega

theorem create_inv {w : World} (h : Inv w) (kind : Kind) (n : Nat) : Inv (create w kind n) := by
  have hdead : (w.objs w.nobj).alive = false := by
    cases hb : (w.objs w.nobj).alive with
    | false => rfl
    | true => exact absurd (h.lt _ hb) (Nat.lt_irrefl _)
  have hox : ∀ x, x ≠ w.nobj → (create w kind n).objs x = w.objs x := fun x hx => by simp [create, hx]
  have hov : (create w kind n).objs w.nobj =
      { alive := true, kind, n, owner := true, service := some w.nsvc
        map := fun k => if k < n then some (w.nref + k) else none
        elems := fun k => if k < n then { ref := some (w.nref + k), bind := some (w.nsvc, k), tracker := some (w.nref + k) }
          else {} } := by simp [create]
  have hsv : ∀ x t, (w.objs x).alive = true → (w.objs x).service = some t → t < w.nsvc := fun x t hx ht => (h.owner hx ht).lt
  have hact : (create w kind n).active = w.active := rfl
  have hopn : ∀ x, (create w kind n).opened x = if x = w.nsvc then kind == .proxy else w.opened x := fun x => rfl
  have hal : ∀ x, (w.objs x).alive = true → x ≠ w.nobj := by
    intro x hx e; subst e; rw [hdead] at hx; cases hx
  refine ⟨h.fault, ?_, ?_, ?_, ?_, ?_, ?_⟩
  · intro x hx
    show x < w.nobj + 1
    by_cases he : x = w.nobj
    · omega
    · rw [hox x he] at hx; have := h.lt x hx; omega
  · intro x hx
    by_cases he : x = w.nobj
    · subst he
      right
      refine ⟨w.nsvc, by rw [hov], by rw [hov], Nat.lt_succ_self _, ?_, ?_, ?_, ?_, ?_⟩
      · rw [hov]
        intro k hk
        have hk' : k < n := hk
        refine ⟨w.nref + k, by simp [hk'], by simp [hk'], by simp [hk'], by simp [hk'], ?_, ?_, ?_, ?_⟩
        · show (if w.nref ≤ w.nref + k ∧ w.nref + k < w.nref + n then some (w.nobj, w.nref + k - w.nref) else _) = _
          have : w.nref ≤ w.nref + k ∧ w.nref + k < w.nref + n := by omega
          rw [if_pos this]; simp
        · show w.nref + k < w.nref + n; omega
        · show (if w.nref ≤ w.nref + k ∧ w.nref + k < w.nref + n then some 0 else _) = some (w.samples.count _)
          have : w.nref ≤ w.nref + k ∧ w.nref + k < w.nref + n := by omega
          rw [if_pos this, h.count_zero (by omega)]
        · intro _ _; exact h.count_zero (by omega)
      · rw [hov]
        intro k hk
        have hk' : k < n := hk
        rw [hact]
        simp only [hk', if_true]
        cases hb : w.active w.nsvc k with
        | false => rfl
        | true =>
          obtain ⟨y, y1, y2, _⟩ := h.act _ _ hb
          exact absurd (hsv y _ y1 y2) (Nat.lt_irrefl _)
      · rw [hov, hopn]; simp
      · rw [hov]; intro _ k hk; have hk' : k < n := hk; simp [hk']
      · rw [hov]; intro _; rfl
    · have ho := hox x he
      rw [ho] at hx
      rcases h.obj x hx with hb | ⟨t, hb⟩
      · exact Or.inl (hb.frame ho)
      · right
        refine ⟨t, hb.frame ho (Nat.le_succ _) (Nat.le_add_right _ _) (fun r k hr hlt => ⟨?_, ?_, rfl⟩) (fun _ => rfl) ?_⟩
        · show (if w.nref ≤ r ∧ r < w.nref + n then _ else w.refs r) = w.refs r
          rw [if_neg (by omega)]
        · show (if w.nref ≤ r ∧ r < w.nref + n then _ else w.trks r) = w.trks r
          rw [if_neg (by omega)]
        · rw [hopn]; have := hb.lt; rw [if_neg (by omega)]
  · intro x y t hx hy hsx hsy
    by_cases hex : x = w.nobj
    · by_cases hey : y = w.nobj
      · rw [hex, hey]
      · subst hex
        rw [hov] at hsx; injection hsx with hsx; subst hsx
        rw [hox y hey] at hy hsy
        exact absurd (hsv y _ hy hsy) (Nat.lt_irrefl _)
    · rw [hox x hex] at hx hsx
      by_cases hey : y = w.nobj
      · subst hey
        rw [hov] at hsy; injection hsy with hsy; subst hsy
        exact absurd (hsv x _ hx hsx) (Nat.lt_irrefl _)
      · rw [hox y hey] at hy hsy
        exact h.uniq x y t hx hy hsx hsy
  · intro t ht
    obtain ⟨x, k, hx, hk, hkt⟩ := h.held t ht
    have ho := hox x (hal x hx)
    exact ⟨x, k, by rw [ho]; exact hx, by rw [ho]; exact hk, by rw [ho]; exact hkt⟩
  · intro t k ht
    rw [hact] at ht
    obtain ⟨x, hx, hx2, hx3⟩ := h.act t k ht
    have ho := hox x (hal x hx)
    exact ⟨x, by rw [ho]; exact hx, by rw [ho]; exact hx2, by rw [ho]; exact hx3⟩
  · intro t ht
    rw [hopn] at ht
    by_cases he : t = w.nsvc
    · subst he; exact ⟨w.nobj, by rw [hov], by rw [hov]⟩
    · rw [if_neg he] at ht
      obtain ⟨x, hx, hx2⟩ := h.opn t ht
      have ho := hox x (hal x hx)
      exact ⟨x, by rw [ho]; exact hx, by rw [ho]; exact hx2⟩

theorem count_held {w : World} {v k r : Nat} (hk : k < (w.objs v).n) (hr : ((w.objs v).elems k).tracker = some r)
    (hc : w.samples.count (some r) ≠ 0) : ∃ m, HeldFrom w v k m := by
  have : some r ∈ w.samples := List.count_pos_iff.mp (by omega)
  obtain ⟨m, hm⟩ := List.mem_iff_getElem?.mp this
  exact ⟨m, hk, r, hm, hr⟩

theorem held_count {w : World} {v k m : Nat} (h : HeldFrom w v k m) :
    k < (w.objs v).n ∧ ∃ r, ((w.objs v).elems k).tracker = some r ∧ w.samples.count (some r) ≠ 0 := by
  obtain ⟨hk, t, hm, ht⟩ := h
  refine ⟨hk, t, ht, ?_⟩
  have : 0 < w.samples.count (some t) := List.count_pos_iff.mpr (List.mem_of_getElem? hm)
  omega

theorem destroy_eq (w : World) (i : Nat) : destroy w i = (clear true w i).andThen fun c => c.setObj i {} := by
  simp only [destroy, clear, World.andThen]
  by_cases h : (retire w i).fault.isSome <;> simp [h]

theorem destroy_inv {w : World} (h : Inv w) {i : Nat} (ha : (w.objs i).alive = true) :
    (Cleared w (clear true w i) i ∧ destroy w i = (clear true w i).setObj i {} ∧ Inv (destroy w i)) ∨
      ((destroy w i).fault = some .assertion ∧ ∃ k m, HeldFrom w i k m) := by
  rw [destroy_eq]
  rcases clear_eq h ha (Or.inl rfl) with hc | ⟨e, k, hk, r, hr, hcount⟩
  · left
    have : ((clear true w i).andThen fun c => c.setObj i {}) = (clear true w i).setObj i {} := by
      simp [World.andThen, hc.fault]
    rw [this]
    exact ⟨hc, rfl, hc.inv h ha {} rfl⟩
  · right
    obtain ⟨m, hm⟩ := count_held hk hr hcount
    exact ⟨by simp [World.andThen, e], k, m, hm⟩

theorem retire_kind {w : World} (h : Inv w) {v : Nat} (ha : (w.objs v).alive = true) (hf : (retire w v).fault = none) :
    ((retire w v).objs v).kind = (w.objs v).kind := by
  cases hs : (w.objs v).service with
  | none => simp [retire, (h.blank ha hs).own]
  | some s =>
    rcases retire_eq h.fault ha (h.owner ha hs) with ⟨e, _⟩ | ⟨e, _⟩
    · rw [e]; simp [World.retired, World.setObj, flags_obj]
    · rw [hf] at e; cases e

theorem assign_eq {w : World} (h : Inv w) {i j : Nat} (ha : (w.objs i).alive = true) (hne : i ≠ j) :
    assign w i j = (clear ((w.objs i).kind == .skeleton) w i).andThen fun c => takeOver c i j := by
  simp only [assign, hne, if_false, clear]
  cases hf : (retire w i).fault with
  | some f => simp [World.andThen, hf]
  | none =>
    have hk := retire_kind h ha hf
    simp only [World.andThen, hf, Option.isSome_none, Bool.false_eq_true, if_false, hk]

theorem assign_inv {w : World} (h : Inv w) {i j : Nat} (ha : (w.objs i).alive = true) (hj : (w.objs j).alive = true)
    (hne : i ≠ j) :
    (∃ c, Cleared w c i ∧ assign w i j = takeOver (c.setObj i {}) i j ∧ Inv (c.setObj i {}) ∧ Inv (assign w i j)) ∨
      ((assign w i j).fault = some .assertion ∧ ∃ k m, HeldFrom w i k m) ∨
      ((assign w i j).fault = some .undefined ∧ (w.objs j).service = none) := by
  rw [assign_eq h ha hne]
  have hck : ((w.objs i).kind == .skeleton) = true ∨ (w.objs i).kind = .proxy := by
    cases (w.objs i).kind <;> simp
  rcases clear_eq h ha hck with hc | ⟨e, k, hk, r, hr, hcount⟩
  · generalize clear ((w.objs i).kind == .skeleton) w i = c at hc
    have h1 : (c.andThen fun c => takeOver c i j) = takeOver c i j := by simp [World.andThen, hc.fault]
    rw [h1]
    have hi := hc.inv h ha {} rfl
    have hj' : (c.setObj i {}).objs j = w.objs j := by simp [World.setObj, Ne.symm hne, hc.objs j (Ne.symm hne)]
    have hi' : ((c.setObj i {}).objs i).alive = false := by simp [World.setObj]
    have hlt : i < (c.setObj i {}).nobj := by show i < c.nobj; rw [hc.nobj]; exact h.lt i ha
    rcases takeOver_inv hi hi' (by rw [hj']; exact hj) (Nat.le_refl _) hlt with h2 | ⟨h2, h3⟩
    · have h4 : takeOver (c.setObj i {}) i j = takeOver c i j := by
        rcases takeOver_dead (w := c) hne {} with h5 | ⟨h5, _⟩
        · exact h5
        · have h6 : (takeOver (c.setObj i {}) i j).fault = none := h2.fault
          rw [h6] at h5; cases h5
      left
      refine ⟨c, hc, h4.symm, hi, ?_⟩
      rw [← h4]
      have h5 : ({ takeOver (c.setObj i {}) i j with nobj := (c.setObj i {}).nobj } : World) =
          takeOver (c.setObj i {}) i j := by
        rw [← takeOver_nobj (c.setObj i {}) i j]
      rw [h5] at h2
      exact h2
    · right; right
      rw [hj'] at h3
      refine ⟨?_, h3⟩
      rcases takeOver_dead (w := c) hne {} with h5 | ⟨_, h5⟩
      · rw [← h5]; exact h2
      · exact h5
  · right; left
    obtain ⟨m, hm⟩ := count_held hk hr hcount
    exact ⟨by simp [World.andThen, e], k, m, hm⟩

theorem move_inv {w : World} (h : Inv w) {i : Nat} (ha : (w.objs i).alive = true) :
    (move w i = { takeOver w w.nobj i with nobj := w.nobj + 1 } ∧ Inv (move w i)) ∨
      ((move w i).fault = some .undefined ∧ (w.objs i).service = none) := by
  have hdead : (w.objs w.nobj).alive = false := by
    cases hb : (w.objs w.nobj).alive with
    | false => rfl
    | true => exact absurd (h.lt _ hb) (Nat.lt_irrefl _)
  rcases takeOver_inv h hdead ha (Nat.le_succ _) (Nat.lt_succ_self _) with h1 | ⟨h1, h2⟩
  · left
    have h3 : (takeOver w w.nobj i).fault = none := h1.fault
    have h4 : move w i = { takeOver w w.nobj i with nobj := w.nobj + 1 } := by
      simp [move, World.andThen, h3, takeOver_nobj]
    exact ⟨h4, by rw [h4]; exact h1⟩
  · right
    exact ⟨by simp [move, World.andThen, h1], h2⟩

/-- Each step keeps the invariant, or the process ends and the step was not tidy. -/
theorem step_inv {w : World} (h : Inv w) (x : Step) : Inv (step w x) ∨ ((step w x).fault ≠ none ∧ ¬ Tidy w x) := by
  have hf : w.fault.isSome = false := by rw [h.fault]; rfl
  cases x with
  | create kind n => left; simpa [step, hf] using create_inv h kind n
  | move i =>
    by_cases ha : (w.objs i).alive = true
    · have : step w (.move i) = move w i := by simp [step, hf, ha]
      rw [this]
      rcases move_inv h ha with ⟨_, h1⟩ | ⟨h1, h2⟩
      · exact Or.inl h1
      · right; exact ⟨by rw [h1]; simp, fun ht => ht ⟨ha, h2⟩⟩
    · left; simpa [step, hf, ha] using h
  | assign i j =>
    by_cases hc : ((w.objs i).alive && (w.objs j).alive && sameType (w.objs i) (w.objs j)) = true
    · have : step w (.assign i j) = assign w i j := by simp only [step, hf, Bool.false_eq_true, if_false, hc, if_true]
      rw [this]
      simp only [Bool.and_eq_true] at hc
      by_cases hne : i = j
      · left; simpa [assign, hne] using h
      · rcases assign_inv h hc.1.1 hc.1.2 hne with ⟨c, _, _, _, h1⟩ | ⟨h1, k, m, hm⟩ | ⟨h1, h2⟩
        · exact Or.inl h1
        · right; exact ⟨by rw [h1]; simp, fun ht => ht.elim hne fun ht => ht.2 k m hm⟩
        · right; exact ⟨by rw [h1]; simp, fun ht => ht.elim hne fun ht => ht.1 ⟨hc.1.2, h2⟩⟩
    · left
      have : step w (.assign i j) = w := by simp only [step, hf, Bool.false_eq_true, if_false, hc]
      rw [this]; exact h
  | destroy i =>
    by_cases ha : (w.objs i).alive = true
    · have : step w (.destroy i) = destroy w i := by simp [step, hf, ha]
      rw [this]
      rcases destroy_inv h ha with ⟨_, _, h1⟩ | ⟨h1, k, m, hm⟩
      · exact Or.inl h1
      · right; exact ⟨by rw [h1]; simp, fun ht => ht k m hm⟩
    · left; simpa [step, hf, ha] using h
  | subscribe i k =>
    by_cases hc : ((w.objs i).alive && (w.objs i).kind == .proxy && k < (w.objs i).n) = true
    · have : step w (.subscribe i k) = startElem w i k := by simp only [step, hf, Bool.false_eq_true, if_false, hc, if_true]
      rw [this]
      simp only [Bool.and_eq_true, beq_iff_eq, decide_eq_true_eq] at hc
      rcases subscribe_inv h hc.1.1 hc.1.2 hc.2 with ⟨_, _, _, h1⟩ | ⟨h1, h2⟩
      · exact Or.inl h1
      · right; exact ⟨by rw [h1]; simp, fun ht => ht ⟨hc.1.1, h2⟩⟩
    · left
      have : step w (.subscribe i k) = w := by simp only [step, hf, Bool.false_eq_true, if_false, hc]
      rw [this]; exact h
  | unsubscribe i k =>
    by_cases hc : ((w.objs i).alive && (w.objs i).kind == .proxy && k < (w.objs i).n) = true
    · have : step w (.unsubscribe i k) = stopElem w i k := by simp only [step, hf, Bool.false_eq_true, if_false, hc, if_true]
      rw [this]
      simp only [Bool.and_eq_true, beq_iff_eq, decide_eq_true_eq] at hc
      rcases unsubscribe_inv h hc.1.1 hc.1.2 hc.2 with ⟨h1, _⟩ | ⟨h1, r, hr, hcount⟩
      · exact Or.inl h1
      · right
        obtain ⟨m, hm⟩ := count_held hc.2 hr hcount
        exact ⟨by rw [h1]; simp, fun ht => ht m hm⟩
    · left
      have : step w (.unsubscribe i k) = w := by simp only [step, hf, Bool.false_eq_true, if_false, hc]
      rw [this]; exact h
  | offer i =>
    by_cases hc : ((w.objs i).alive && (w.objs i).kind == .skeleton && !(w.objs i).offered) = true
    · have : step w (.offer i) = offer w i := by simp only [step, hf, Bool.false_eq_true, if_false, hc, if_true]
      rw [this]
      simp only [Bool.and_eq_true, beq_iff_eq] at hc
      rcases offer_inv h hc.1.1 hc.1.2 with ⟨_, _, h1, _⟩ | ⟨h1, h2⟩
      · exact Or.inl h1
      · right; exact ⟨by rw [h1]; simp, fun ht => ht ⟨hc.1.1, h2⟩⟩
    · left
      have : step w (.offer i) = w := by simp only [step, hf, Bool.false_eq_true, if_false, hc]
      rw [this]; exact h
  | stopOffer i =>
    by_cases hc : ((w.objs i).alive && (w.objs i).kind == .skeleton) = true
    · have : step w (.stopOffer i) = stopOffer w i := by simp only [step, hf, Bool.false_eq_true, if_false, hc, if_true]
      rw [this]
      simp only [Bool.and_eq_true, beq_iff_eq] at hc
      exact Or.inl (stopOffer_inv h hc.1 hc.2).1
    · left
      have : step w (.stopOffer i) = w := by simp only [step, hf, Bool.false_eq_true, if_false, hc]
      rw [this]; exact h
  | hold i k =>
    by_cases hc : ((w.objs i).alive && k < (w.objs i).n) = true
    · have : step w (.hold i k) = hold w i k := by simp only [step, hf, Bool.false_eq_true, if_false, hc, if_true]
      rw [this]
      simp only [Bool.and_eq_true, decide_eq_true_eq] at hc
      exact Or.inl (hold_inv h hc.1 hc.2)
    · left
      have : step w (.hold i k) = w := by simp only [step, hf, Bool.false_eq_true, if_false, hc]
      rw [this]; exact h
  | release m => left; simpa [step, hf] using release_inv h m

theorem init_inv : Inv {} := by
  refine ⟨rfl, ?_, ?_, ?_, ?_, ?_, ?_⟩ <;> intros <;> rename_i h <;> first | cases h | skip
  all_goals simp_all

theorem run_snoc (l : List Step) (x : Step) : run (l ++ [x]) = step (run l) x := by
  simp [run, List.foldl_append]

theorem step_fault {w : World} {f : Fault} (h : w.fault = some f) (x : Step) : step w x = w := by
  simp [step, h]

/-- As long as the process runs the invariant holds. -/
theorem run_inv : ∀ (n : Nat) (l : List Step), l.length = n → (run l).fault = none → Inv (run l) := by
  intro n
  induction n with
  | zero => intro l hl _; rw [List.length_eq_zero_iff.mp hl]; exact init_inv
  | succ n ih =>
    intro l hl hf
    have hne : l ≠ [] := by intro e; subst e; cases hl
    obtain ⟨a, x, rfl⟩ : ∃ a x, l = a ++ [x] := ⟨l.dropLast, l.getLast hne, (List.dropLast_concat_getLast hne).symm⟩
    rw [run_snoc] at hf ⊢
    have ha : (run a).fault = none := by
      cases hfa : (run a).fault with
      | none => rfl
      | some f => rw [step_fault hfa, hfa] at hf; cases hf
    rcases step_inv (ih a (by simpa using hl) ha) x with h1 | ⟨h1, _⟩
    · exact h1
    · exact absurd hf h1

theorem inv_of {l : List Step} (h : (run l).fault = none) : Inv (run l) := run_inv _ l rfl h

theorem tidy_inv : ∀ (n : Nat) (l : List Step), l.length = n → AllTidy l → Inv (run l) := by
  intro n
  induction n with
  | zero => intro l hl _; rw [List.length_eq_zero_iff.mp hl]; exact init_inv
  | succ n ih =>
    intro l hl ht
    have hne : l ≠ [] := by intro e; subst e; cases hl
    obtain ⟨a, x, rfl⟩ : ∃ a x, l = a ++ [x] := ⟨l.dropLast, l.getLast hne, (List.dropLast_concat_getLast hne).symm⟩
    have ha := ih a (by simpa using hl) fun b y c hb => ht b y (c ++ [x]) (by rw [hb]; simp)
    rw [run_snoc]
    rcases step_inv ha x with h1 | ⟨_, h1⟩
    · exact h1
    · exact absurd (ht a x [] rfl) h1

end Verif.Moving
