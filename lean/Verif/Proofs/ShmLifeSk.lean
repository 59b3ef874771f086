import Verif.Proofs.ShmLife
namespace Verif.ShmLife

theorem Part.cases_ne {p q : Part} (h : p ≠ q) : (p = .ctl ∧ q = .dat) ∨ (p = .dat ∧ q = .ctl) := by
  cases p <;> cases q <;> simp_all

macro "sok" : tactic => `(tactic| (constructor <;> (try dsimp only) <;> intros <;>
  first
  | (simp_all [SPc.locked, SPc.free, SPc.fileOk, SPc.noCtl, SPc.noDat, SPc.hasCtl, SPc.hasDat, SPc.gapC, SPc.gapD, setP_apply]; done)
  | grind [SPc.locked, SPc.free, SPc.fileOk, SPc.noCtl, SPc.noDat, SPc.hasCtl, SPc.hasDat, SPc.gapC, SPc.gapD, setP_apply]))

macro "un" : tactic => `(tactic| (constructor <;> (try dsimp only) <;> intros <;>
  first
  | (simp_all [SPc.gapC, SPc.gapD, setP_apply]; done)
  | grind [SPc.gapC, SPc.gapD, setP_apply, upd_apply]))

theorem Inv.notHeld {c : Cfg} {s : St} (h : Inv c s) {p : Part} (hs : s.sk.pc ≠ .sRm .dat ∨ p = .dat)
    (hc : ¬(cached c s s.sk.proc p).isSome = true) : s.sk.held p = none := by
  cases e : s.sk.held p with
  | none => rfl
  | some o =>
    exfalso
    apply hc
    rw [cached_some.mpr ⟨(h.sk.held p o hs e).2, Or.inl ⟨rfl, e⟩⟩]
    rfl

theorem upd_setP (f : Nat → Part → Option Nat) (i : Nat) (p : Part) (v : Option Nat) (j : Nat) (q : Part) :
    upd f i (setP (f i) p v) j q = if j = i ∧ q = p then v else f j q := by
  by_cases hj : j = i
  · subst hj; simp [setP_apply]
  · simp [upd_apply, hj]

/-- The provider gives up, leaving part `p`. -/
theorem inv_failOffer {c : Cfg} {s : St} (h : Inv c s) (p : Part) (l : Part → Bool) (hs : s.sk.pc ≠ .sRm .dat)
    (hu : ∀ o, s.shm .dat = some o → s.ready o = false →
      (l .dat = true ∧ (∀ x, (s.px x).pc ≠ .pShm .dat)) ∨ s.shm .ctl = none) :
    Inv c (failOffer { s with lockf := l } p) := by
  have ⟨k1, k2, k3, k4, k5, k6, k7, k8, k9, k10, k11, k12, k13, k14, k15⟩ := h.sk
  refine ⟨h.out, h.px, ?_, ?_, ?_⟩
  · simp only [failOffer]; sok
  · simp [failOffer]
  · refine ⟨h.unr.ctl, fun o h1 h2 => ?_⟩
    rcases hu o h1 h2 with ⟨u1, u2⟩ | u
    · exact Or.inl ⟨u1, u2, by simp [failOffer], by simp [failOffer]⟩
    · exact Or.inr u

set_option maxHeartbeats 2000000 in
theorem inv_skNext {c : Cfg} {s : St} (h : Inv c s) (hs : Settled c s) (ha : Apart s) (ok : Bool) : Inv c (skNext c s ok) := by
  have ⟨k1, k2, k3, k4, k5, k6, k7, k8, k9, k10, k11, k12, k13, k14, k15⟩ := h.sk
  have hex := h.excl
  have ⟨hu1, hu2⟩ := h.unr
  unfold skNext
  dsimp only
  cases e : s.sk.pc with
  | none => simpa only [e] using h
  | idle => simpa only [e] using h
  | offered => simpa only [e] using h
  | oOpen =>
    dsimp only
    split
    · split
      · rename_i i hu
        refine ⟨h.out, h.px, ?_, ?_, ?_⟩
        · dsimp only; sok
        · dsimp only; simp_all [SPc.free]
        · un
      · rename_i hu
        refine ⟨h.out, fun x => ?_, ?_, ?_, ?_⟩
        · have := h.px x
          rw [hu] at this
          exact this.away (noMark this).1 (noMark this).2
        · dsimp only; sok
        · dsimp only; simp_all [SPc.free]
        · un
    · refine ⟨h.out, h.px, ?_, ?_, ?_⟩
      · dsimp only; sok
      · dsimp only; simp_all [SPc.free]
      · un
  | oTry =>
    dsimp only
    split
    · refine ⟨h.out, h.px, ?_, ?_, ?_⟩
      · dsimp only; sok
      · dsimp only; simp_all [SPc.free]
      · un
    · rename_i hu
      have hf := k4 (by rw [e]; rfl)
      refine ⟨h.out, h.px, ?_, fun _ => h.excl_of_notInUse hf.1 (by simpa using hu), ?_⟩
      · dsimp only; sok
      · un
  | oStaleL p =>
    dsimp only
    split
    · exact inv_terminate h _
    · rename_i hc
      have hn := h.notHeld (Or.inl (by rw [e]; simp)) hc
      refine ⟨h.out, h.px, ?_, ?_, ?_⟩
      · dsimp only; cases p <;> sok
      · dsimp only; simp_all [SPc.locked]
      · un
  | oStaleS p =>
    have hl := k2 (by rw [e]; rfl)
    cases p <;> dsimp only
    · refine ⟨h.out, fun x => (h.px x).unlocked (hex (Or.inl hl) x), ?_, ?_, ?_⟩
      · dsimp only; sok
      · dsimp only; simp_all
      · un
    · refine ⟨h.out, fun x => (h.px x).unlocked (hex (Or.inl hl) x), ?_, ?_, ?_⟩
      · dsimp only; sok
      · dsimp only; simp_all
      · un
  | oMk p =>
    have hl := k2 (by rw [e]; rfl)
    dsimp only
    split
    · refine inv_failOffer h p s.lockf (by rw [e]; simp) ?_
      intro o h1 h2; have := hu2 o h1 h2; (try simp only [setP_apply]); grind
    · rename_i hc
      simp only [Bool.or_eq_true, not_or] at hc
      refine ⟨h.out, h.px, ?_, ?_, ?_⟩
      · dsimp only; cases p <;> sok
      · dsimp only; simp_all
      · un
  | oShm p =>
    have hl := k2 (by rw [e]; rfl)
    have hx := hex (Or.inl hl)
    dsimp only
    split
    · refine inv_failOffer h p _ (by rw [e]; simp) ?_
      intro o h1 h2; have := hu2 o h1 h2; (try simp only [setP_apply]); grind
    · rename_i hc
      simp only [Bool.or_eq_true, not_or] at hc
      refine ⟨h.out, fun x => (h.px x).unlocked (hx x), ?_, fun _ => hx, ?_⟩
      · dsimp only; cases p <;> sok
      · have hp : ∀ x, (s.px x).pc ≠ .pShm .dat := by
          intro x hx'
          have := (h.px x).act (by rw [hx']; rfl)
          rw [hx x] at this
          cases this.1
        have hk := k12 p e
        have hd := k14
        have hcc := k13
        rw [e] at hd hcc
        cases p
        · refine ⟨fun o _ _ => ?_, fun o h1 h2 => ?_⟩
          · simpa [setP_apply] using hd rfl
          · simp [setP_apply, hd rfl] at h1
        · refine ⟨fun o h1 h2 => ?_, fun o h1 h2 => ?_⟩
          · have := k15 (Or.inr e) o (by simpa [setP_apply] using h1)
            rw [this] at h2; cases h2
          · exact Or.inl ⟨hk, hp, by simp, by simp⟩
  | oInit p o =>
    have hl := k2 (by rw [e]; rfl)
    have hx := hex (Or.inl hl)
    have hi := k11 p o e
    dsimp only
    refine ⟨h.out, fun x => (h.px x).unlocked (hx x), ?_, fun _ => hx, ?_⟩
    · cases p <;> dsimp only [setCache] <;> constructor <;> dsimp only <;> intros <;>
        first
        | (simp_all [SPc.locked, SPc.free, SPc.fileOk, SPc.noCtl, SPc.noDat, SPc.hasCtl, SPc.hasDat, SPc.gapC, SPc.gapD, setP_apply]; done)
        | grind [SPc.locked, SPc.free, SPc.fileOk, SPc.noCtl, SPc.noDat, SPc.hasCtl, SPc.hasDat, SPc.gapC, SPc.gapD, setP_apply, upd_apply, upd_setP]
    · un
  | rLk p =>
    dsimp only
    split
    · rename_i o hc
      have hit := h.hit hc (fun x hx hq => (hs x hx).2 hq.symm p e) (by rw [e]; simp)
      have hca := (cached_some.mp hc).1
      refine ⟨h.out, h.px, ?_, ?_, ?_⟩
      · cases p <;> dsimp only <;> sok
      · have := k3 (by rw [e]; rfl)
        dsimp only; rw [this]; cases p <;> simp
      · un
    · rename_i hc
      split
      · split
        · exact h
        · exact inv_terminate h _
      · rename_i hlf
        refine ⟨h.out, h.px, ?_, ?_, ?_⟩
        · cases p <;> dsimp only <;> sok
        · have := k3 (by rw [e]; rfl)
          dsimp only; rw [this]; simp
        · un
  | rShm p =>
    dsimp only
    split
    · rename_i o hc
      have hr : p = .dat → s.ready o = true := by
        intro ep; subst ep
        cases er : s.ready o with
        | true => rfl
        | false =>
          exfalso
          have h2 := k9 (by rw [e]; rfl)
          cases eh : s.sk.held .ctl with
          | none => exact h2 eh
          | some o1 =>
            have h3 := (k5 .ctl o1 (Or.inl (by rw [e]; simp)) eh).1
            rcases hu2 o hc er with u | u
            · exact u.2.2.1 e
            · rw [u] at h3; cases h3
      refine ⟨h.out, h.px, ?_, ?_, ?_⟩
      · cases p <;> dsimp only [setCache] <;> constructor <;> dsimp only <;> intros <;>
          first
          | (simp_all [SPc.locked, SPc.free, SPc.fileOk, SPc.noCtl, SPc.noDat, SPc.hasCtl, SPc.hasDat, SPc.gapC, SPc.gapD, setP_apply]; done)
          | grind [SPc.locked, SPc.free, SPc.fileOk, SPc.noCtl, SPc.noDat, SPc.hasCtl, SPc.hasDat, SPc.gapC, SPc.gapD, setP_apply, upd_apply, upd_setP]
      · have := k3 (by rw [e]; rfl)
        dsimp only; rw [this]; cases p <;> simp
      · un
    · refine inv_failOffer h p _ (by rw [e]; simp) ?_
      intro o h1 h2; have := hu2 o h1 h2; (try simp only [setP_apply]); grind
  | oEnd =>
    dsimp only
    refine ⟨h.out, h.px, ?_, ?_, ?_⟩
    · cases ok <;> dsimp only <;> sok
    · cases ok <;> simp
    · un
  | sTry =>
    dsimp only
    have hf := k4 (by rw [e]; rfl)
    split
    · refine ⟨h.out, h.px, ?_, ?_, ?_⟩
      · dsimp only; sok
      · have := k3 (by rw [e]; rfl)
        dsimp only; rw [this]; simp
      · un
    · rename_i hn
      have hx := h.excl_of_notInUse hf.1 (by simpa using hn)
      refine ⟨h.out, h.px, ?_, fun _ => hx, ?_⟩
      · dsimp only; sok
      · un
  | sRm p =>
    have hl := k2 (by rw [e]; rfl)
    have hx := hex (Or.inl hl)
    cases p with
    | ctl =>
      dsimp only
      split
      · refine ⟨h.out, fun x => (h.px x).unlocked (hx x), ?_, fun _ => hx, ?_⟩
        · dsimp only [setCache]
          constructor <;> dsimp only <;> intros <;>
            first
            | (simp_all [SPc.locked, SPc.free, SPc.fileOk, SPc.noCtl, SPc.noDat, SPc.hasCtl, SPc.hasDat, SPc.gapC, SPc.gapD, setP_apply]; done)
            | grind [SPc.locked, SPc.free, SPc.fileOk, SPc.noCtl, SPc.noDat, SPc.hasCtl, SPc.hasDat, SPc.gapC, SPc.gapD, setP_apply, upd_apply, upd_setP]
        · un
      · rename_i hc
        exact absurd (h.notHeld (Or.inl (by rw [e]; simp)) hc) (k9 (by rw [e]; rfl))
    | dat =>
      dsimp only
      split
      · refine ⟨h.out, fun x => (h.px x).unlocked (hx x), ?_, fun _ => hx, ?_⟩
        · dsimp only [setCache]; sok
        · un
      · rename_i hc
        exact absurd (h.notHeld (Or.inr rfl) hc) (k10 (by rw [e]; rfl))
  | sUnlock =>
    have hl := k2 (by rw [e]; rfl)
    have hx := hex (Or.inl hl)
    dsimp only
    refine ⟨h.out, h.px, ?_, fun _ => hx, ?_⟩
    · dsimp only; sok
    · un
  | sUnlink =>
    have hx := hex (Or.inr e)
    have ha' := ha (by rw [e]; trivial)
    dsimp only
    refine ⟨h.out, fun x => (h.px x).away (hx x) (fun k hk => ha' x ⟨k, hk⟩), ?_, fun _ => hx, ?_⟩
    · dsimp only; sok
    · un

end Verif.ShmLife
