import Verif.Proofs.ShmLifeCheck
namespace Verif.ShmLife

/-! ### No process is ended -/

def SPc.fresh : SPc → Bool
  | .oOpen | .oTry | .oStaleL _ | .oStaleS _ => true
  | _ => false

structure TInv (s : St) : Prop where
  own : ∀ p, s.lockf p = true → Owns s p
  none : s.sk.pc.fresh = true → ∀ p, s.sk.held p = Option.none
  ended : Survived s

theorem tinv_init : TInv init := by
  refine ⟨?_, ?_, fun _ => rfl⟩ <;> simp [init, noSk, SPc.fresh]

theorem Owns.sk {s s' : St} {p : Part} (h : Owns s p) (hp : s'.px = s.px) (hs : SkOwns s p → SkOwns s' p) : Owns s' p := by
  rcases h with h | ⟨x, h⟩
  · exact Or.inl (hs h)
  · exact Or.inr ⟨x, by rw [hp]; exact h⟩

theorem not_cached {c : Cfg} {s : St} (h : Inv c s) (hl : s.sk.lk = true) {p : Part} (hn : s.sk.held p = none)
    (hg : ∀ x, (s.px x).pc = .gone → s.sk.proc ≠ c.proc x) : cached c s s.sk.proc p = none := by
  cases e : cached c s s.sk.proc p with
  | none => rfl
  | some o =>
    exfalso
    obtain ⟨_, ⟨_, h2⟩ | ⟨y, -, h3, h4⟩⟩ := cached_some.mp e
    · rw [hn] at h2; cases h2
    · have hy := h.px y
      have hu := h.excl (Or.inl hl) y
      cases e : (s.px y).pc with
      | none => rw [hy.none e] at h4; cases h4
      | pTry k => rw [(hy.try_ k e).2.1] at h4; cases h4
      | gone => exact hg y e h3.symm
      | _ => have := (hy.act (by rw [e]; rfl)).1; rw [hu] at this; cases this

set_option linter.unusedSimpArgs false in
theorem tinv_skNext {c : Cfg} {s : St} (h : Inv c s) (t : TInv s) (hq : Quiet c s) (ok : Bool) (hc : Careful c s (.skNext ok)) :
    TInv (skNext c s ok) := by
  have ⟨t1, t2, t3⟩ := t
  unfold skNext
  dsimp only
  cases e : s.sk.pc with
  | none => exact t
  | idle => exact t
  | offered => exact t
  | oStaleL p =>
    have hl := h.sk.locked (by rw [e]; rfl)
    have := not_cached h hl (t2 (by rw [e]; rfl) p) (fun x hx e1 => hq x hx e1 p e)
    dsimp only
    rw [if_neg (by rw [this]; simp)]
    refine ⟨fun q hl => ?_, fun _ => t2 (by rw [e]; rfl), t3⟩
    have : q ≠ p ∧ s.lockf q = true := by dsimp only [setP] at hl; grind
    exact (t1 q this.2).sk rfl (by simp [SkOwns, e])
  | rLk p =>
    dsimp only
    split
    · refine ⟨fun q hl => (t1 q hl).sk rfl (by simp [SkOwns, e]), ?_, t3⟩
      cases p <;> simp [SPc.fresh]
    · split
      · rename_i hl
        split
        · exact t
        · rename_i hok
          cases ok with
          | true => exact absurd rfl hok
          | false => exact absurd (t1 p hl) (hc p e)
      · refine ⟨fun q hl => ?_, by simp [SPc.fresh], t3⟩
        by_cases eq : q = p
        · subst eq; exact Or.inl (Or.inr (Or.inr rfl))
        · simp only [setP_apply, if_neg eq] at hl
          exact (t1 q hl).sk rfl (by simp [SkOwns, e])
  | oStaleS p =>
    cases p <;> dsimp only <;> (try split) <;> (try split) <;> (try split) <;> (try cases ok) <;>
    · refine ⟨fun q hl => ?_, ?_, t3⟩
      · (try simp only [failOffer, setP_apply] at *)
        grind [Owns, SkOwns]
      · (try simp only [failOffer, SPc.fresh] at *)
        grind
  | sRm p =>
    cases p <;> dsimp only <;> (try split) <;> (try split) <;> (try split) <;> (try cases ok) <;>
    · refine ⟨fun q hl => ?_, ?_, t3⟩
      · (try simp only [failOffer, setP_apply] at *)
        grind [Owns, SkOwns]
      · (try simp only [failOffer, SPc.fresh] at *)
        grind
  | _ =>
    (try dsimp only)
    (try split) <;> (try split) <;> (try split) <;> (try cases ok) <;>
    · refine ⟨fun q hl => ?_, ?_, t3⟩
      · (try simp only [failOffer, setP_apply] at *)
        grind [Owns, SkOwns]
      · (try simp only [failOffer, SPc.fresh] at *)
        grind

theorem Owns.px {s : St} {l : Part → Bool} {ca : Nat → Part → Option Nat} {p : Part} (h : Owns s p) {x : Nat} {a : Px}
    (hx : (s.px x).pc = .pShm p → a.pc = .pShm p) : Owns { s with lockf := l, cache := ca, px := upd s.px x a } p := by
  rcases h with h | ⟨y, h⟩
  · exact Or.inl h
  · by_cases e : y = x
    · exact Or.inr ⟨x, by dsimp only; rw [upd_self]; exact hx (e ▸ h)⟩
    · exact Or.inr ⟨y, by dsimp only; rw [upd_ne _ _ e]; exact h⟩

theorem tinv_pxNext {c : Cfg} {s : St} (t : TInv s) (x : Nat) (ok : Bool) (hc : Careful c s (.pxNext x ok)) :
    TInv (pxNext c s x ok) := by
  have ⟨t1, t2, t3⟩ := t
  unfold pxNext
  dsimp only
  cases e : (s.px x).pc with
  | none => exact t
  | conn => exact t
  | gone => exact ⟨fun q hl => (t1 q hl).px (by rw [e]; simp), t2, t3⟩
  | pTry k =>
    dsimp only
    split
    · split <;> exact ⟨fun q hl => (t1 q hl).px (by rw [e]; simp), t2, t3⟩
    · exact ⟨fun q hl => (t1 q hl).px (by rw [e]; simp), t2, t3⟩
  | pLk p =>
    dsimp only
    split
    · exact ⟨fun q hl => (t1 q hl).px (by rw [e]; simp), t2, t3⟩
    · split
      · rename_i hl
        split
        · exact t
        · rename_i hok
          cases ok with
          | true => exact absurd rfl hok
          | false => exact absurd (t1 p hl) (hc p e)
      · refine ⟨fun q hl => ?_, t2, t3⟩
        by_cases eq : q = p
        · subst eq; exact Or.inr ⟨x, by dsimp only; rw [upd_self]⟩
        · simp only [setP_apply, if_neg eq] at hl
          exact (t1 q hl).px (by rw [e]; simp)
  | pShm p =>
    dsimp only
    split
    all_goals
      refine ⟨fun q hl => ?_, t2, t3⟩
      dsimp only at hl
      rw [setP_apply] at hl
      have hqp : q ≠ p := fun e => by rw [if_pos e] at hl; cases hl
      rw [if_neg hqp] at hl
      exact (t1 q hl).px (by rw [e]; intro e1; cases e1; exact absurd rfl hqp)
  | pEnd =>
    dsimp only
    split <;> exact ⟨fun q hl => (t1 q hl).px (by rw [e]; simp), t2, t3⟩

theorem tinv_step {c : Cfg} {s : St} (h : Inv c s) (t : TInv s) (hq : Quiet c s) (o : Op) (hc : Careful c s o) :
    TInv (step c s o) := by
  have ⟨t1, t2, t3⟩ := t
  cases o with
  | skNext ok => exact tinv_skNext h t hq ok hc
  | pxNext x ok => exact tinv_pxNext t x ok hc
  | skCreate q =>
    simp only [step]; split
    · rename_i e
      exact ⟨fun q hl => (t1 q hl).sk rfl (by simp [SkOwns, e]), by simp [SPc.fresh], t3⟩
    · exact t
  | skDestroy =>
    simp only [step]; split
    · rename_i e
      exact ⟨fun q hl => (t1 q hl).sk rfl (by simp [SkOwns, e]), by simp [SPc.fresh, noSk], t3⟩
    · exact t
  | skStop =>
    simp only [step]; split
    · rename_i e
      exact ⟨fun q hl => (t1 q hl).sk rfl (by simp [SkOwns, e]), by simp [SPc.fresh], t3⟩
    · exact t
  | skOffer =>
    simp only [step]; split
    · rename_i e
      exact ⟨fun q hl => (t1 q hl).sk rfl (by simp [SkOwns, e]), fun _ => hc, t3⟩
    · exact t
  | pxStart x ok =>
    simp only [step]; split
    · split
      · rename_i e
        exact ⟨fun q hl => (t1 q hl).px (by rw [e.2]; simp), t2, t3⟩
      · exact t
    · exact t
  | pxDestroy x =>
    simp only [step]; split
    · rename_i e
      exact ⟨fun q hl => (t1 q hl).px (by rw [e]; simp), t2, t3⟩
    · exact t
  | crash q =>
    refine ⟨fun p hl => ?_, fun hf => ?_, t3⟩
    · rcases t1 p hl with h1 | ⟨x, h1⟩
      · refine Or.inl ?_
        by_cases e : s.sk.proc = q
        · exact absurd h1 (hc.1 e p)
        · simp only [SkOwns, step, crash, if_neg e]; exact h1
      · refine Or.inr ⟨x, ?_⟩
        by_cases e : c.proc x = q
        · exact absurd h1 (hc.2 x e p)
        · simp only [step, crash, if_neg e]; exact h1
    · simp only [step, crash] at *
      split at hf
      · simp [noSk, SPc.fresh] at hf
      · rename_i e; rw [if_neg e]; exact t2 hf

theorem tinv_run {c : Cfg} (ops : List Op) : ∀ s, Inv c s → TInv s → OrderlyFrom c s ops → TidyFrom c s ops → TInv (run c s ops) := by
  induction ops with
  | nil => intro s _ t _ _; exact t
  | cons o os ih =>
    intro s h t ho ht
    exact ih _ (inv_step h ho.2.1 ho.1 o) (tinv_step h t ht.1 o ht.2.1) ho.2.2 ht.2.2

theorem tinv_tidy {c : Cfg} {ops : List Op} (ho : Orderly c ops) (ht : Tidy c ops) : TInv (run c init ops) :=
  tinv_run ops _ (inv_init c) tinv_init ho ht

/-! ### What is removed -/

structure RInv (s : St) : Prop where
  ctl : s.sk.pc = .sRm .dat ∨ s.sk.pc = .sUnlock ∨ s.sk.pc = .sUnlink → s.shm .ctl = none
  dat : s.sk.pc = .sUnlock ∨ s.sk.pc = .sUnlink → s.shm .dat = none

theorem rinv_init : RInv init := by constructor <;> simp [init]

theorem rinv_crash {c : Cfg} {s : St} (r : RInv s) (q : Nat) : RInv (crash c s q) := by
  have ⟨r1, r2⟩ := r
  constructor <;> simp only [crash] <;> split <;> simp_all [noSk]

theorem rinv_skNext {c : Cfg} {s : St} (h : Inv c s) (r : RInv s) (ok : Bool) : RInv (skNext c s ok) := by
  have ⟨r1, r2⟩ := r
  unfold skNext
  dsimp only
  cases e : s.sk.pc with
  | none => exact r
  | idle => exact r
  | offered => exact r
  | oStaleL p =>
    dsimp only; split
    · exact rinv_crash (s := { s with ended := upd s.ended _ true }) ⟨r1, r2⟩ _
    · constructor <;> simp
  | rLk p =>
    dsimp only; split
    · constructor <;> cases p <;> simp
    · split
      · split
        · exact r
        · exact rinv_crash (s := { s with ended := upd s.ended _ true }) ⟨r1, r2⟩ _
      · constructor <;> simp
  | sRm p =>
    cases p with
    | ctl =>
      dsimp only; split
      · constructor <;> simp
      · rename_i hc
        exact absurd (h.notHeld (Or.inl (by rw [e]; simp)) hc) (h.sk.ctl (by rw [e]; rfl))
    | dat =>
      have := r1 (Or.inl e)
      dsimp only; split
      · constructor
        · intro _; simpa [setP_apply] using this
        · simp
      · rename_i hc
        exact absurd (h.notHeld (Or.inr rfl) hc) (h.sk.dat (by rw [e]; rfl))
  | sUnlock =>
    dsimp only
    exact ⟨fun _ => r1 (by simp [e]), fun _ => r2 (by simp [e])⟩
  | oInit p o => constructor <;> cases p <;> simp
  | rShm p =>
    dsimp only; split
    · constructor <;> cases p <;> simp
    · constructor <;> simp [failOffer]
  | oStaleS p => cases p <;> constructor <;> simp
  | _ =>
    (try dsimp only)
    (try split) <;> (try split) <;> (try split) <;> constructor <;> simp_all [failOffer]

theorem rinv_step {c : Cfg} {s : St} (h : Inv c s) (r : RInv s) (o : Op) : RInv (step c s o) := by
  have ⟨r1, r2⟩ := r
  cases o with
  | skNext ok => exact rinv_skNext h r ok
  | crash q => exact rinv_crash r q
  | pxNext x ok =>
    simp only [step, pxNext]
    (try split) <;> (try split) <;> (try split) <;> (try split) <;>
      first
      | exact ⟨r1, r2⟩
      | exact rinv_crash (s := { s with ended := upd s.ended _ true }) ⟨r1, r2⟩ _
  | pxStart x ok =>
    simp only [step]
    split <;> (try split) <;> exact ⟨r1, r2⟩
  | pxDestroy x =>
    simp only [step]
    split <;> exact ⟨r1, r2⟩
  | _ =>
    simp only [step]
    split
    · constructor <;> simp [noSk]
    · exact r

theorem rinv_run {c : Cfg} (ops : List Op) : ∀ s, Inv c s → RInv s → OrderlyFrom c s ops → RInv (run c s ops) := by
  induction ops with
  | nil => intro s _ r _; exact r
  | cons o os ih =>
    intro s h r ho
    exact ih _ (inv_step h ho.2.1 ho.1 o) (rinv_step h r o) ho.2.2

theorem rinv_orderly {c : Cfg} {ops : List Op} (ho : Orderly c ops) : RInv (run c init ops) :=
  rinv_run ops _ (inv_init c) rinv_init ho

end Verif.ShmLife
