import Verif.Proofs.ShmLifeTidy
namespace Verif.ShmLife

/-! ### Offering, step by step -/

theorem run_append (c : Cfg) (s : St) (a b : List Op) : run c s (a ++ b) = run c (run c s a) b := List.foldl_append

theorem clean_not_cached {c : Cfg} {s : St} {p : Part} (hk : s.sk.held p = none)
    (hp : ∀ x, c.proc x = s.sk.proc → (s.px x).held p = none) : cached c s s.sk.proc p = none := by
  cases e : cached c s s.sk.proc p with
  | none => rfl
  | some o =>
    exfalso
    obtain ⟨_, ⟨_, h2⟩ | ⟨y, -, h3, h4⟩⟩ := cached_some.mp e
    · rw [hk] at h2; cases h2
    · rw [hp y h3] at h4; cases h4

/-- What does not change while an unused service is offered. -/
structure Same (s t : St) : Prop where
  px : t.px = s.px
  proc : t.sk.proc = s.sk.proc
  ended : t.ended = s.ended
  fresh : s.fresh ≤ t.fresh

theorem Same.nc {c : Cfg} {s t : St} (b : Same s t) (hc : ∀ x p, c.proc x = s.sk.proc → (s.px x).held p = none) {p : Part}
    (h : t.sk.held p = none) : cached c t t.sk.proc p = none :=
  clean_not_cached h (fun x e => by rw [b.px]; exact hc x p (e.trans b.proc))

section
variable {c : Cfg} {s t : St}

theorem o_open (b : Same s t) (h1 : t.sk.pc = .oOpen) (h2 : ∀ p, t.sk.held p = none) :
    let t' := step c t (.skNext true)
    Same s t' ∧ t'.sk.pc = .oTry ∧ ∀ p, t'.sk.held p = none := by
  have ⟨b1, b2, b3, b4⟩ := b
  simp only [step, skNext, h1, if_true]
  split
  · exact ⟨⟨b1, b2, b3, b4⟩, rfl, h2⟩
  · exact ⟨⟨b1, b2, b3, Nat.le_succ_of_le b4⟩, rfl, h2⟩

theorem o_try (b : Same s t) (hu : ∀ x, (s.px x).lk = false) (h1 : t.sk.pc = .oTry) (h2 : ∀ p, t.sk.held p = none) :
    let t' := step c t (.skNext true)
    Same s t' ∧ t'.sk.pc = .oStaleL .ctl ∧ ∀ p, t'.sk.held p = none := by
  have ⟨b1, b2, b3, b4⟩ := b
  have : inUse c t = false := inUse_false.mpr (fun x _ hl => by rw [b1, hu x] at hl; cases hl)
  simp only [step, skNext, h1, this]
  exact ⟨⟨b1, b2, b3, b4⟩, rfl, h2⟩

theorem o_staleL (b : Same s t) (hc : ∀ x p, c.proc x = s.sk.proc → (s.px x).held p = none) {p : Part} (h1 : t.sk.pc = .oStaleL p)
    (h2 : ∀ p, t.sk.held p = none) :
    let t' := step c t (.skNext true)
    Same s t' ∧ t'.sk.pc = .oStaleS p ∧ (∀ p, t'.sk.held p = none) ∧ t'.lockf = setP t.lockf p false ∧ t'.shm = t.shm := by
  have ⟨b1, b2, b3, b4⟩ := b
  simp only [step, skNext, h1, b.nc hc (h2 p), Option.isSome_none]
  exact ⟨⟨b1, b2, b3, b4⟩, rfl, h2, rfl, rfl⟩

theorem o_staleS (b : Same s t) {p : Part} (h1 : t.sk.pc = .oStaleS p) (h2 : ∀ p, t.sk.held p = none) :
    let t' := step c t (.skNext true)
    Same s t' ∧ t'.sk.pc = (match p with | .ctl => .oStaleL .dat | .dat => .oMk .ctl) ∧ (∀ p, t'.sk.held p = none) ∧
      t'.lockf = t.lockf ∧ t'.shm = setP t.shm p none := by
  have ⟨b1, b2, b3, b4⟩ := b
  cases p <;> simp only [step, skNext, h1] <;> exact ⟨⟨b1, b2, b3, b4⟩, trivial, h2, trivial, trivial⟩

theorem o_mk (b : Same s t) (hc : ∀ x p, c.proc x = s.sk.proc → (s.px x).held p = none) {p : Part} (h1 : t.sk.pc = .oMk p)
    (h2 : t.sk.held p = none) (h3 : t.lockf p = false) :
    let t' := step c t (.skNext true)
    Same s t' ∧ t'.sk.pc = .oShm p ∧ t'.sk.held = t.sk.held ∧ t'.lockf = setP t.lockf p true ∧ t'.shm = t.shm ∧ t'.ready = t.ready := by
  have ⟨b1, b2, b3, b4⟩ := b
  simp only [step, skNext, h1, b.nc hc h2, Option.isSome_none, h3, Bool.or_self, Bool.not_true]
  exact ⟨⟨b1, b2, b3, b4⟩, rfl, rfl, rfl, rfl, rfl⟩

theorem o_shm (b : Same s t) {p : Part} (h1 : t.sk.pc = .oShm p) (h3 : t.shm p = none) :
    let t' := step c t (.skNext true)
    Same s t' ∧ t'.sk.pc = .oInit p t.fresh ∧ t'.sk.held = t.sk.held ∧ t'.lockf = t.lockf ∧ t'.shm = setP t.shm p (some t.fresh) ∧
      t'.ready = t.ready := by
  have ⟨b1, b2, b3, b4⟩ := b
  simp only [step, skNext, h1, h3, Option.isSome_none, Bool.or_self, Bool.not_true]
  exact ⟨⟨b1, b2, b3, Nat.le_succ_of_le b4⟩, rfl, rfl, rfl, rfl, rfl⟩

theorem o_init (b : Same s t) {p : Part} {o : Nat} (h1 : t.sk.pc = .oInit p o) :
    let t' := step c t (.skNext true)
    Same s t' ∧ t'.sk.pc = (match p with | .ctl => .oMk .dat | .dat => .oEnd) ∧ t'.sk.held = setP t.sk.held p (some o) ∧
      t'.lockf = setP t.lockf p false ∧ t'.shm = t.shm ∧ t'.ready = upd t.ready o true := by
  have ⟨b1, b2, b3, b4⟩ := b
  simp only [step, skNext, h1]
  cases p <;> exact ⟨⟨b1, b2, b3, b4⟩, rfl, trivial, trivial, trivial, trivial⟩

theorem o_end (b : Same s t) (h1 : t.sk.pc = .oEnd) :
    let t' := step c t (.skNext true)
    Same s t' ∧ t'.sk.pc = .offered ∧ t'.sk.held = t.sk.held ∧ t'.shm = t.shm ∧ t'.ready = t.ready := by
  have ⟨b1, b2, b3, b4⟩ := b
  simp only [step, skNext, h1, if_true]
  exact ⟨⟨b1, b2, b3, b4⟩, trivial, trivial, trivial, trivial⟩
end

/-- An unused service. -/
theorem offer_fresh {c : Cfg} {s : St} (hu : ∀ x, (s.px x).lk = false)
    (hc : ∀ x p, c.proc x = s.sk.proc → (s.px x).held p = none) (hp : s.sk.pc = .idle) (hh : ∀ p, s.sk.held p = none) :
    let s' := run c s (.skOffer :: List.replicate 13 (.skNext true))
    Offered s' ∧ (∀ p, ∃ o, s.fresh ≤ o ∧ s'.sk.held p = some o ∧ s'.shm p = some o ∧ s'.ready o = true) ∧ Same s s' := by
  have e0 : Same s (step c s .skOffer) ∧ (step c s .skOffer).sk.pc = .oOpen ∧ ∀ p, (step c s .skOffer).sk.held p = none := by
    simp only [step, hp, if_true]
    exact ⟨⟨rfl, rfl, rfl, Nat.le_refl _⟩, trivial, hh⟩
  simp only [run, List.replicate, List.foldl_cons, List.foldl_nil]
  obtain ⟨b, h1, h2⟩ := e0
  generalize step c s .skOffer = t at *
  obtain ⟨b, h1, h2⟩ := o_open (c := c) b h1 h2
  generalize step c t (.skNext true) = t at *
  obtain ⟨b, h1, h2⟩ := o_try (c := c) b hu h1 h2
  generalize step c t (.skNext true) = t at *
  obtain ⟨b, h1, h2, h3, h4⟩ := o_staleL (c := c) b hc h1 h2
  have l : (step c t (.skNext true)).lockf .ctl = false := by rw [h3]; simp
  clear h3 h4
  generalize step c t (.skNext true) = t at *
  obtain ⟨b, h1, h2, h3, h4⟩ := o_staleS (c := c) b h1 h2
  have m : (step c t (.skNext true)).shm .ctl = none := by rw [h4]; simp
  rw [← h3] at l
  clear h3 h4
  generalize step c t (.skNext true) = t at *
  obtain ⟨b, h1, h2, h3, h4⟩ := o_staleL (c := c) b hc h1 h2
  have l : ∀ p, (step c t (.skNext true)).lockf p = false := by intro p; rw [h3]; cases p <;> simp [setP_apply, l]
  rw [← h4] at m
  clear h3 h4
  generalize step c t (.skNext true) = t at *
  obtain ⟨b, h1, h2, h3, h4⟩ := o_staleS (c := c) b h1 h2
  have m : ∀ p, (step c t (.skNext true)).shm p = none := by intro p; rw [h4]; cases p <;> simp [setP_apply, m]
  rw [← h3] at l
  clear h3 h4
  generalize step c t (.skNext true) = t at *
  obtain ⟨b, h1, h2', h3, h4, h5⟩ := o_mk (c := c) b hc h1 (h2 _) (l _)
  rw [← h4] at m
  have l : (step c t (.skNext true)).lockf .dat = false := by rw [h3]; simp [setP_apply, l]
  rw [← h2'] at h2
  clear h2' h3 h4 h5
  generalize step c t (.skNext true) = t at *
  obtain ⟨b', h1, h2', h3, h4, h5⟩ := o_shm (c := c) b h1 (m _)
  have fo := b.fresh
  have m1 : (step c t (.skNext true)).shm .dat = none := by rw [h4]; simp [setP_apply, m]
  have m2 : (step c t (.skNext true)).shm .ctl = some t.fresh := by rw [h4]; simp
  rw [← h3] at l
  rw [← h2'] at h2
  clear h2' h3 h4 h5 m b
  generalize t.fresh = o at *
  generalize step c t (.skNext true) = t at *
  obtain ⟨b, h1, h2', h3, h4, h5⟩ := o_init (c := c) b' h1
  have k1 : (step c t (.skNext true)).sk.held .ctl = some o := by rw [h2']; simp
  have k2 : (step c t (.skNext true)).sk.held .dat = none := by rw [h2']; simp [setP_apply, h2]
  have r : (step c t (.skNext true)).ready o = true := by rw [h5]; simp
  have l : (step c t (.skNext true)).lockf .dat = false := by rw [h3]; simp [setP_apply, l]
  rw [← h4] at m1 m2
  clear h2' h3 h4 h5 h2
  generalize step c t (.skNext true) = t at *
  obtain ⟨b, h1, h2', h3, h4, h5⟩ := o_mk (c := c) b hc h1 k2 l
  rw [← h4] at m1 m2
  rw [← h2'] at k1
  rw [← h5] at r
  clear h2' h3 h4 h5 k2 l b'
  generalize step c t (.skNext true) = t at *
  obtain ⟨b', h1, h2', h3, h4, h5⟩ := o_shm (c := c) b h1 m1
  have fd := b.fresh
  have m1 : (step c t (.skNext true)).shm .dat = some t.fresh := by rw [h4]; simp
  have m2 : (step c t (.skNext true)).shm .ctl = some o := by rw [h4]; simp [setP_apply, m2]
  rw [← h2'] at k1
  rw [← h5] at r
  clear h2' h3 h4 h5 b
  generalize t.fresh = d at *
  generalize step c t (.skNext true) = t at *
  obtain ⟨b, h1, h2', h3, h4, h5⟩ := o_init (c := c) b' h1
  have k1 : (step c t (.skNext true)).sk.held .ctl = some o := by rw [h2']; simp [setP_apply, k1]
  have k2 : (step c t (.skNext true)).sk.held .dat = some d := by rw [h2']; simp
  have r : (step c t (.skNext true)).ready o = true := by rw [h5, upd_apply, r]; simp
  have r2 : (step c t (.skNext true)).ready d = true := by rw [h5]; simp
  rw [← h4] at m1 m2
  clear h2' h3 h4 h5 b'
  generalize step c t (.skNext true) = t at *
  obtain ⟨b', h1, h2', h4, h5⟩ := o_end (c := c) b h1
  refine ⟨h1, fun p => ?_, b'⟩
  cases p
  · exact ⟨o, fo, by rw [h2', k1], by rw [h4, m2], by rw [h5, r]⟩
  · exact ⟨d, fd, by rw [h2', k2], by rw [h4, m1], by rw [h5, r2]⟩

/-! ### Offering a service that is in use -/

/-- The provider opens part `p`, which its process has not opened. -/
theorem r_open {c : Cfg} {s t : St} (b : Same s t) (hc : ∀ x p, c.proc x = s.sk.proc → (s.px x).held p = none) {p : Part}
    (h1 : t.sk.pc = .rLk p) (h2 : t.sk.held p = none) (h3 : t.lockf p = false) {o : Nat} (h4 : t.shm p = some o) :
    let t' := step c (step c t (.skNext true)) (.skNext true)
    Same s t' ∧ t'.sk.pc = (match p with | .ctl => .rLk .dat | .dat => .oEnd) ∧ t'.sk.held = setP t.sk.held p (some o) ∧
      (∀ q, t.lockf q = false → t'.lockf q = false) ∧ t'.shm = t.shm ∧ t'.ready = t.ready := by
  have ⟨b1, b2, b3, b4⟩ := b
  have e : step c t (.skNext true) = { t with lockf := setP t.lockf p true, sk := { t.sk with pc := .rShm p } } := by
    simp only [step, skNext, h1, b.nc hc h2, h3]; rfl
  rw [e]
  simp only [step, skNext, h4]
  cases p <;> refine ⟨⟨b1, b2, b3, b4⟩, rfl, trivial, fun q hq => ?_, trivial, trivial⟩ <;> simp [setP_apply, hq]

theorem offer_reuse {c : Cfg} {s : St} {i x : Nat} (hu : s.usage = some i) (hx : x < c.n) (hl : (s.px x).lk = true)
    (hi : (s.px x).u = some i) (hc : ∀ x p, c.proc x = s.sk.proc → (s.px x).held p = none) (hp : s.sk.pc = .idle)
    (hh : ∀ p, s.sk.held p = none) (hf : ∀ p, s.lockf p = false) (hs : ∀ p, s.shm p ≠ none) :
    let s' := run c s (.skOffer :: List.replicate 7 (.skNext true))
    Offered s' ∧ s'.sk.held = s.shm ∧ s'.shm = s.shm ∧ s'.ready = s.ready ∧ Same s s' := by
  have e2 : step c (step c (step c s .skOffer) (.skNext true)) (.skNext true) =
      { s with sk := { s.sk with pc := .rLk .ctl, u := some i } } := by
    have : inUse c { s with sk := { s.sk with pc := .oTry, u := some i } } = true :=
      inUse_true.mpr ⟨x, hx, hl, hi⟩
    have e0 : step c (step c s .skOffer) (.skNext true) = { s with sk := { s.sk with pc := .oTry, u := some i } } := by
      simp only [step, hp, if_true, skNext]
      split
      · rename_i j hj; rw [hu] at hj; cases hj; rfl
      · rename_i hj; rw [hu] at hj; cases hj
    rw [e0]
    simp only [step, skNext]
    rw [if_pos this]
  simp only [run, List.replicate, List.foldl_cons, List.foldl_nil, e2]
  have b : Same s { s with sk := { s.sk with pc := .rLk .ctl, u := some i } } := ⟨rfl, rfl, rfl, Nat.le_refl _⟩
  obtain ⟨o, ho⟩ : ∃ o, s.shm .ctl = some o := by cases e : s.shm .ctl with | none => exact absurd e (hs _) | some o => exact ⟨o, rfl⟩
  obtain ⟨d, hd⟩ : ∃ o, s.shm .dat = some o := by cases e : s.shm .dat with | none => exact absurd e (hs _) | some o => exact ⟨o, rfl⟩
  obtain ⟨b, h1, h2, h3, h4, h5⟩ := r_open b hc (p := .ctl) rfl (hh .ctl) (hf .ctl) ho
  generalize step c (step c { s with sk := { s.sk with pc := .rLk .ctl, u := some i } } (.skNext true)) (.skNext true) = t at *
  dsimp only at h2 h3 h4 h5
  obtain ⟨b, g1, g2, g3, g4, g5⟩ := r_open b hc (p := .dat) h1 (by rw [h2]; simp [setP_apply, hh]) (h3 _ (hf .dat)) (by rw [h4]; exact hd)
  generalize step c (step c t (.skNext true)) (.skNext true) = t' at *
  obtain ⟨b, k1, k2, k3, k4⟩ := o_end (c := c) b g1
  refine ⟨k1, ?_, by rw [k3, g4, h4], by rw [k4, g5, h5], b⟩
  rw [k2, g2, h2]
  funext p
  cases p <;> simp [setP_apply, ho, hd]

/-! ### Stopping -/

theorem stop_unused {c : Cfg} {s : St} (h : Inv c s) (hp : s.sk.pc = .offered) (hu : ∀ x, (s.px x).lk = false) :
    let s' := run c s (.skStop :: List.replicate 5 (.skNext true))
    s'.sk.pc = .idle ∧ s'.usage = none ∧ (∀ p, s'.shm p = none) ∧ (∀ p, s'.sk.held p = none) ∧ s'.px = s.px := by
  obtain ⟨o, ho⟩ : ∃ o, s.sk.held .ctl = some o := by
    cases e : s.sk.held .ctl with | none => exact absurd e (h.sk.ctl (by rw [hp]; rfl)) | some o => exact ⟨o, rfl⟩
  obtain ⟨d, hd⟩ : ∃ o, s.sk.held .dat = some o := by
    cases e : s.sk.held .dat with | none => exact absurd e (h.sk.dat (by rw [hp]; rfl)) | some o => exact ⟨o, rfl⟩
  have ho' := h.sk.held .ctl o (Or.inl (by rw [hp]; simp)) ho
  have hd' := h.sk.held .dat d (Or.inl (by rw [hp]; simp)) hd
  have e2 : step c (step c s .skStop) (.skNext true) = { s with sk := { s.sk with pc := .sRm .ctl, lk := true } } := by
    have : inUse c { s with sk := { s.sk with pc := .sTry } } = false :=
      inUse_false.mpr (fun x _ hl => by dsimp only at hl; rw [hu x] at hl; cases hl)
    simp only [step, hp, if_true, skNext, this]; rfl
  have e3 : step c { s with sk := { s.sk with pc := .sRm .ctl, lk := true } } (.skNext true) =
      { s with cache := setCache s s.sk.proc .ctl none, shm := setP s.shm .ctl none, sk := { s.sk with pc := .sRm .dat, lk := true } } := by
    have : cached c { s with sk := { s.sk with pc := .sRm .ctl, lk := true } } s.sk.proc .ctl = some o :=
      cached_some.mpr ⟨ho'.2, Or.inl ⟨rfl, ho⟩⟩
    simp only [step, skNext, this, Option.isSome_some, if_true]
    rfl
  simp only [run, List.replicate, List.foldl_cons, List.foldl_nil, e2, e3]
  have e4 : cached c { s with cache := setCache s s.sk.proc .ctl none, shm := setP s.shm .ctl none, sk := { s.sk with pc := .sRm .dat, lk := true } } s.sk.proc .dat = some d :=
    cached_some.mpr ⟨by dsimp only; rw [setCache, upd_setP]; simp [hd'.2], Or.inl ⟨rfl, hd⟩⟩
  simp only [step, skNext, e4, Option.isSome_some, if_true]
  refine ⟨trivial, trivial, fun p => ?_, fun p => trivial, trivial⟩
  cases p <;> simp [setP_apply]

/-! ### A connection keeps its memory -/

theorem pxNext_px (c : Cfg) (s : St) (y x : Nat) (e : x ≠ y) (ok : Bool) :
    (pxNext c s y ok).px x = s.px x ∨ pxNext c s y ok = terminate c s (c.proc y) := by
  unfold pxNext
  dsimp only
  (repeat' split) <;> first
    | exact Or.inl rfl
    | exact Or.inr rfl
    | exact Or.inl (upd_ne _ _ e)

theorem held_step {c : Cfg} {s : St} (o : Op) (x : Nat) (h : (s.px x).pc = .conn) (h' : ((step c s o).px x).pc = .conn) :
    ((step c s o).px x).held = (s.px x).held := by
  have hcr : ∀ (t : St) q, t.px = s.px → ((crash c t q).px x).pc = .conn → ((crash c t q).px x).held = (s.px x).held := by
    intro t q ht hq
    simp only [crash] at *
    split at hq
    · simp [noPx] at hq
    · rename_i e; rw [if_neg e, ht]
  cases o with
  | skNext ok =>
    simp only [step] at *
    rcases skNext_px c s ok with e | e
    · rw [e]
    · rw [e] at h' ⊢; exact hcr _ _ rfl h'
  | crash q => exact hcr s q rfl h'
  | pxNext y ok =>
    by_cases e : y = x
    · subst e
      simp only [step, pxNext, h]
    · simp only [step] at *
      rcases pxNext_px c s y x (Ne.symm e) ok with e | e
      · rw [e]
      · rw [e] at h' ⊢; exact hcr _ _ rfl h'
  | pxStart y ok =>
    simp only [step] at *
    split
    · split
      · rename_i e
        by_cases eq : x = y
        · subst eq; rw [h] at e; cases e.2
        · simp only [upd_ne _ _ eq]
      · rfl
    · rfl
  | pxDestroy y =>
    simp only [step] at *
    split
    · rename_i e
      rw [if_pos e] at h'
      by_cases eq : x = y
      · subst eq; simp at h'
      · simp only [upd_ne _ _ eq]
    · rfl
  | _ =>
    simp only [step]
    split <;> rfl

theorem held_run {c : Cfg} (x : Nat) (ops : List Op) : ∀ s, (∀ pre, pre <+: ops → ((run c s pre).px x).pc = .conn) →
    ((run c s ops).px x).held = (s.px x).held := by
  induction ops with
  | nil => intro s _; rfl
  | cons o os ih =>
    intro s h
    have h0 := h [] (List.nil_prefix)
    have h1 := h [o] (by simp)
    have := ih (step c s o) (fun pre hp => h (o :: pre) (by simpa using hp))
    rw [run, List.foldl_cons]
    rw [run] at this
    rw [this]
    exact held_step o x h0 h1

end Verif.ShmLife
