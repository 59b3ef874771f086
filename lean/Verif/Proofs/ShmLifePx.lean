import Verif.Proofs.ShmLifeSk
namespace Verif.ShmLife

/-- A step of a consumer. -/
theorem Inv.step {c : Cfg} {s : St} (h : Inv c s) {x : Nat} (hx : x < c.n) {a : Px} (l : Part → Bool)
    (ca : Nat → Part → Option Nat) (hok : POk s.usage s.shm s.ready a)
    (hlk : a.lk = true → s.sk.lk = false ∧ s.sk.pc ≠ .sUnlink)
    (hsk : SOk s.usage s.shm l s.ready ca s.sk)
    (hu : ∀ o, s.shm .dat = some o → s.ready o = false →
      (l .dat = true ∧ (∀ y, y ≠ x → (s.px y).pc ≠ .pShm .dat) ∧ a.pc ≠ .pShm .dat ∧ s.sk.pc ≠ .rShm .dat ∧
        s.sk.pc ≠ .oShm .dat) ∨ s.shm .ctl = none) :
    Inv c { s with lockf := l, cache := ca, px := upd s.px x a } := by
  refine ⟨fun y hy => ?_, fun y => ?_, hsk, fun hl y => ?_, h.unr.ctl, fun o h1 h2 => ?_⟩
  · dsimp only; rw [upd_ne _ _ (by omega)]; exact h.out y hy
  · dsimp only
    by_cases e : y = x
    · rw [e, upd_self]; exact hok
    · rw [upd_ne _ _ e]; exact h.px y
  · dsimp only at *
    by_cases e : y = x
    · rw [e, upd_self]
      cases e' : a.lk with
      | false => rfl
      | true => have := hlk e'; simp_all
    · rw [upd_ne _ _ e]; exact h.excl hl y
  · rcases hu o h1 h2 with ⟨u1, u2, u3, u4⟩ | u
    · refine Or.inl ⟨u1, fun y => ?_, u4⟩
      dsimp only
      by_cases e : y = x
      · rw [e, upd_self]; exact u3
      · rw [upd_ne _ _ e]; exact u2 y e
    · exact Or.inr u

theorem Inv.inN {c : Cfg} {s : St} (h : Inv c s) {x : Nat} (hp : (s.px x).pc ≠ .none) : x < c.n := by
  rcases Nat.lt_or_ge x c.n with hx | hx
  · exact hx
  · rw [h.out x hx] at hp; exact absurd rfl hp

/-- The provider does not hold the lock while a consumer does. -/
theorem Inv.skFree {c : Cfg} {s : St} (h : Inv c s) {x : Nat} (hl : (s.px x).lk = true) :
    s.sk.lk = false ∧ s.sk.pc ≠ .sUnlink ∧ s.sk.pc.locked = false := by
  have h1 : s.sk.lk = false := by
    cases e : s.sk.lk with
    | false => rfl
    | true => rw [h.excl (Or.inl e) x] at hl; cases hl
  refine ⟨h1, fun e => ?_, ?_⟩
  · rw [h.excl (Or.inr e) x] at hl; cases hl
  · cases e : s.sk.pc.locked with
    | false => rfl
    | true => rw [h.sk.locked e] at h1; cases h1

theorem SPc.free_or (p : SPc) : p.free = true ∨ p.fileOk = true := by
  cases p <;> simp [SPc.free, SPc.fileOk]

macro "pok" : tactic => `(tactic| (constructor <;> (try dsimp only) <;> intros <;>
  first
  | (simp_all [PPc.act, PPc.hasCtl, PPc.hasDat, setP_apply]; done)
  | grind [PPc.act, PPc.hasCtl, PPc.hasDat, setP_apply]))

theorem Inv.leave {c : Cfg} {s : St} (h : Inv c s) {x : Nat} (hx : x < c.n) : Inv c { s with px := upd s.px x noPx } := by
  refine h.step hx s.lockf s.cache POk.noPx (by simp [noPx]) h.sk (fun o h1 h2 => ?_)
  rcases h.unr.dat o h1 h2 with ⟨u1, u2, u3⟩ | u
  · exact Or.inl ⟨u1, fun y _ => u2 y, by simp [noPx], u3⟩
  · exact Or.inr u

set_option maxHeartbeats 2000000 in
theorem inv_pxNext {c : Cfg} {s : St} (h : Inv c s) (hs : Settled c s) (ha : Apart s) (x : Nat) (ok : Bool) :
    Inv c (pxNext c s x ok) := by
  have ⟨k1, k2, k3, k4, k5, k6, k7, k8, k9, k10, k11, k12, k13, k14, k15⟩ := h.sk
  have ⟨j1, j2, j3, j4, j5, j6, j7, j8⟩ := h.px x
  have ⟨hu1, hun⟩ := h.unr
  unfold pxNext
  dsimp only
  cases e : (s.px x).pc with
  | none => exact h
  | conn => exact h
  | gone => exact h.leave (h.inN (by rw [e]; simp))
  | pTry k =>
    have hx := h.inN (x := x) (by rw [e]; simp)
    have ht := j2 k e
    dsimp only
    split
    · split
      · exact h.leave hx
      · refine h.step hx s.lockf s.cache ?_ ?_ h.sk ?_
        · pok
        · simp [ht.1]
        · intro o h1 h2; have := hun o h1 h2; grind
    · rename_i hn
      have hfree : s.sk.lk = false := by
        cases el : s.sk.lk with
        | false => rfl
        | true =>
          rcases SPc.free_or s.sk.pc with e1 | e1
          · rw [k3 e1] at el; cases el
          · have := k4 e1
            rw [el, this.1, ht.2.2.1] at hn
            simp at hn
      refine h.step hx s.lockf s.cache ?_ ?_ h.sk ?_
      · pok
      · intro _; exact ⟨hfree, fun e1 => ha (by rw [e1]; trivial) x ⟨k, e⟩⟩
      · intro o h1 h2; have := hun o h1 h2; grind
  | pLk p =>
    have hx := h.inN (x := x) (by rw [e]; simp)
    have hl := (j3 (by rw [e]; rfl)).1
    have hf := h.skFree hl
    dsimp only
    split
    · rename_i o hc
      have hit := h.hit hc (fun y hy hq => (hs y hy).1 x p hq.symm e) (fun e1 => by rw [e1] at hf; simp [SPc.locked] at hf)
      refine h.step hx s.lockf s.cache ?_ (fun _ => ⟨hf.1, hf.2.1⟩) h.sk ?_
      · cases p <;> pok
      · intro o h1 h2; have := hun o h1 h2; cases p <;> grind
    · split
      · split
        · exact h
        · exact inv_terminate h _
      · rename_i hlf
        refine h.step hx _ s.cache ?_ (fun _ => ⟨hf.1, hf.2.1⟩) ?_ ?_
        · cases p <;> pok
        · refine ⟨k1, k2, k3, k4, k5, k6, k7, k8, k9, k10, fun q o e1 => ?_, fun q e1 => ?_, k13, k14, k15⟩
          · rw [e1] at hf; simp [SPc.locked] at hf
          · rw [e1] at hf; simp [SPc.locked] at hf
        · intro o h1 h2; have := hun o h1 h2; simp only [setP_apply]; grind
  | pShm p =>
    have hx := h.inN (x := x) (by rw [e]; simp)
    have hl := (j3 (by rw [e]; rfl)).1
    have hf := h.skFree hl
    have hno : ∀ q o, s.sk.pc ≠ .oInit q o ∧ s.sk.pc ≠ .oShm q ∧ s.sk.pc ≠ .oStaleS q := by
      intro q o
      refine ⟨fun e1 => ?_, fun e1 => ?_, fun e1 => ?_⟩ <;> · rw [e1] at hf; simp [SPc.locked] at hf
    dsimp only
    split
    · rename_i o hc
      have hr : p = .dat → s.ready o = true := by
        intro ep; subst ep
        cases er : s.ready o with
        | true => rfl
        | false =>
          exfalso
          rcases hun o hc er with u | u
          · exact u.2.1 x e
          · cases eh : (s.px x).held .ctl with
            | none => exact j7 (by rw [e]; rfl) eh
            | some o1 => have := j5 hl .ctl o1 eh; rw [u] at this; cases this
      refine h.step hx _ _ ?_ (fun _ => ⟨hf.1, hf.2.1⟩) ?_ ?_
      · cases p <;> pok
      · refine ⟨k1, k2, k3, k4, fun q o' e1 e2 => ?_, k6, k7, k8, k9, k10, fun q o e1 => absurd e1 (hno q o).1,
          fun q e1 => absurd e1 (hno q 0).2.1, k13, k14, k15⟩
        have := k5 q o' e1 e2
        refine ⟨this.1, ?_⟩
        rw [setCache, upd_setP]
        grind
      · intro o h1 h2; have := hun o h1 h2; simp only [setP_apply]; cases p <;> grind
    · refine h.step hx _ s.cache POk.noPx (by simp [noPx]) ?_ ?_
      · exact ⟨k1, k2, k3, k4, k5, k6, k7, k8, k9, k10, fun q o e1 => absurd e1 (hno q o).1,
          fun q e1 => absurd e1 (hno q 0).2.1, k13, k14, k15⟩
      · intro o h1 h2; have := hun o h1 h2; simp only [setP_apply, noPx]; grind
  | pEnd =>
    have hx := h.inN (x := x) (by rw [e]; simp)
    have hl := (j3 (by rw [e]; rfl)).1
    have hf := h.skFree hl
    dsimp only
    split
    · refine h.step hx s.lockf s.cache ?_ (fun _ => ⟨hf.1, hf.2.1⟩) h.sk ?_
      · pok
      · intro o h1 h2; have := hun o h1 h2; grind
    · exact h.leave hx

theorem inv_step {c : Cfg} {s : St} (h : Inv c s) (hs : Settled c s) (ha : Apart s) (o : Op) :
    Inv c (step c s o) := by
  have ⟨k1, k2, k3, k4, k5, k6, k7, k8, k9, k10, k11, k12, k13, k14, k15⟩ := h.sk
  have ⟨hu1, hun⟩ := h.unr
  have hex := h.excl
  cases o with
  | skNext ok => exact inv_skNext h hs ha ok
  | pxNext x ok => exact inv_pxNext h hs ha x ok
  | crash q => exact inv_crash h q
  | skCreate q =>
    simp only [step]; split
    · rename_i e
      refine ⟨h.out, h.px, ?_, ?_, ?_⟩
      · constructor <;> simp [noSk, SPc.locked, SPc.fileOk, SPc.noCtl, SPc.noDat, SPc.hasCtl, SPc.hasDat, SPc.gapC, SPc.gapD]
      · simp [noSk]
      · un
    · exact h
  | skDestroy =>
    simp only [step]; split
    · rename_i e
      refine ⟨h.out, h.px, ?_, ?_, ?_⟩
      · constructor <;> simp [noSk, SPc.locked, SPc.fileOk, SPc.noCtl, SPc.noDat, SPc.hasCtl, SPc.hasDat, SPc.gapC, SPc.gapD]
      · simp [noSk]
      · simp only [noSk]; un
    · exact h
  | skOffer =>
    simp only [step]; split
    · rename_i e
      refine ⟨h.out, h.px, ?_, ?_, ?_⟩
      · dsimp only; sok
      · have := k3 (by rw [e]; rfl)
        simp [this]
      · un
    · exact h
  | skStop =>
    simp only [step]; split
    · rename_i e
      refine ⟨h.out, h.px, ?_, ?_, ?_⟩
      · dsimp only; sok
      · have := k3 (by rw [e]; rfl)
        simp [this]
      · un
    · exact h
  | pxStart x ok =>
    simp only [step]; split
    · rename_i i hi
      split
      · rename_i hx
        refine h.step hx.1 s.lockf s.cache ?_ (by simp [noPx]) h.sk ?_
        · rw [hi]
          constructor <;> simp [noPx, PPc.act, PPc.hasCtl, PPc.hasDat]
        · intro o h1 h2; have := hun o h1 h2; grind
      · exact h
    · exact h
  | pxDestroy x =>
    simp only [step]; split
    · rename_i e
      have ⟨j1, j2, j3, j4, j5, j6, j7, j8⟩ := h.px x
      refine h.step (h.inN (by rw [e]; simp)) s.lockf s.cache ?_ (by simp) h.sk ?_
      · pok
      · intro o h1 h2; have := hun o h1 h2; grind
    · exact h

theorem inv_run {c : Cfg} (ops : List Op) : ∀ s, Inv c s → OrderlyFrom c s ops → Inv c (run c s ops) := by
  induction ops with
  | nil => intro s h _; exact h
  | cons o os ih =>
    intro s h ho
    exact ih _ (inv_step h ho.2.1 ho.1 o) ho.2.2

theorem inv_orderly {c : Cfg} {ops : List Op} (h : Orderly c ops) : Inv c (run c init ops) := inv_run ops _ (inv_init c) h

end Verif.ShmLife
