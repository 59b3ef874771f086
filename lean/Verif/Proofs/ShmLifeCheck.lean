import Verif.Proofs.ShmLifePx
namespace Verif.ShmLife

/-! ### Consumers that do not exist -/

theorem out_crash {c : Cfg} {s : St} (h : ∀ x, c.n ≤ x → s.px x = noPx) (q x : Nat) (hx : c.n ≤ x) : (crash c s q).px x = noPx := by
  simp only [crash]; split
  · rfl
  · exact h x hx

theorem out_upd {c : Cfg} {s : St} (h : ∀ x, c.n ≤ x → s.px x = noPx) {x : Nat} (hp : (s.px x).pc ≠ .none) (a : Px) (y : Nat)
    (hy : c.n ≤ y) : upd s.px x a y = noPx := by
  by_cases e : y = x
  · subst e; rw [h y hy] at hp; exact absurd rfl hp
  · rw [upd_ne _ _ e]; exact h y hy

theorem skNext_px (c : Cfg) (s : St) (ok : Bool) : (skNext c s ok).px = s.px ∨ skNext c s ok = terminate c s s.sk.proc := by
  unfold skNext
  dsimp only
  split <;> (try split) <;> (try split) <;> (try split) <;> first | exact Or.inl rfl | exact Or.inr rfl

theorem out_step {c : Cfg} {s : St} (h : ∀ x, c.n ≤ x → s.px x = noPx) (o : Op) : ∀ x, c.n ≤ x → (step c s o).px x = noPx := by
  intro x hx
  cases o with
  | skNext ok =>
    rcases skNext_px c s ok with e | e
    · simp only [step]; rw [e]; exact h x hx
    · simp only [step]; rw [e]; exact out_crash (s := { s with ended := _ }) h _ x hx
  | pxNext y ok =>
    simp only [step, pxNext]
    cases e : (s.px y).pc with
    | none => exact h x hx
    | conn => exact h x hx
    | _ =>
      dsimp only
      (try split) <;> (try split) <;> (try split) <;>
        first
        | exact h x hx
        | exact out_crash (s := { s with ended := _ }) h _ x hx
        | exact out_upd h (by rw [e]; simp) _ x hx
  | crash q => exact out_crash h q x hx
  | pxStart y ok =>
    simp only [step]; split
    · split
      · rename_i hy
        dsimp only
        rw [upd_ne _ _ (by omega)]; exact h x hx
      · exact h x hx
    · exact h x hx
  | pxDestroy y =>
    simp only [step]; split
    · rename_i e
      exact out_upd h (by rw [e]; simp) _ x hx
    · exact h x hx
  | _ =>
    simp only [step]; split <;> exact h x hx

/-! ### Checking the restrictions on a given run -/

def enteringB (s : St) (x : Nat) : Bool :=
  match (s.px x).pc with
  | .pTry _ => true
  | _ => false

def removingB : SPc → Bool
  | .sUnlink => true
  | _ => false

def isPLk : PPc → Bool
  | .pLk _ => true
  | _ => false

def isRLk : SPc → Bool
  | .rLk _ => true
  | _ => false

def apartB (c : Cfg) (s : St) : Bool := !removingB s.sk.pc || (List.range c.n).all fun x => !enteringB s x

def settledB (c : Cfg) (s : St) : Bool :=
  (List.range c.n).all fun x => !decide ((s.px x).pc = .gone) ||
    (((List.range c.n).all fun y => !decide (c.proc y = c.proc x) || !isPLk (s.px y).pc) &&
      (!decide (s.sk.proc = c.proc x) || !isRLk s.sk.pc))

def orderlyB (c : Cfg) (s : St) : List Op → Bool
  | [] => apartB c s && settledB c s
  | o :: os => apartB c s && settledB c s && orderlyB c (step c s o) os

theorem apart_of {c : Cfg} {s : St} (h : ∀ x, c.n ≤ x → s.px x = noPx) (hb : apartB c s = true) : Apart s := by
  intro hr x hx
  obtain ⟨k, hk⟩ := hx
  have hn : x < c.n := by
    rcases Nat.lt_or_ge x c.n with h1 | h1
    · exact h1
    · rw [h x h1] at hk; cases hk
  have hr' : removingB s.sk.pc = true := by
    revert hr; cases s.sk.pc <;> simp [Removing, removingB]
  simp only [apartB, hr', Bool.not_true, Bool.false_or, List.all_eq_true, List.mem_range] at hb
  have := hb x hn
  simp [enteringB, hk] at this

theorem settled_of {c : Cfg} {s : St} (h : ∀ x, c.n ≤ x → s.px x = noPx) (hb : settledB c s = true) : Settled c s := by
  intro x hx
  have hn : ∀ y, (s.px y).pc ≠ .none → y < c.n := by
    intro y hy
    rcases Nat.lt_or_ge y c.n with h1 | h1
    · exact h1
    · rw [h y h1] at hy; exact absurd rfl hy
  simp only [settledB, List.all_eq_true, List.mem_range] at hb
  have := hb x (hn x (by rw [hx]; simp))
  simp only [hx, decide_true, Bool.not_true, Bool.false_or, Bool.and_eq_true, List.all_eq_true, List.mem_range] at this
  refine ⟨fun y p e e1 => ?_, fun e p e1 => ?_⟩
  · have := this.1 y (hn y (by rw [e1]; simp))
    simp [e, e1, isPLk] at this
  · have := this.2
    simp [e, e1, isRLk] at this

theorem orderly_of {c : Cfg} (ops : List Op) : ∀ s, (∀ x, c.n ≤ x → s.px x = noPx) → orderlyB c s ops = true →
    OrderlyFrom c s ops := by
  induction ops with
  | nil =>
    intro s h hb
    simp only [orderlyB, Bool.and_eq_true] at hb
    exact ⟨apart_of h hb.1, settled_of h hb.2⟩
  | cons o os ih =>
    intro s h hb
    simp only [orderlyB, Bool.and_eq_true] at hb
    exact ⟨apart_of h hb.1.1, settled_of h hb.1.2, ih _ (out_step h o) hb.2⟩

theorem orderly_check {c : Cfg} {ops : List Op} (hb : orderlyB c init ops = true) : Orderly c ops :=
  orderly_of ops init (fun _ _ => rfl) hb

def ownsB (c : Cfg) (s : St) (p : Part) : Bool :=
  (match s.sk.pc with
  | .oShm q | .oInit q _ | .rShm q => decide (q = p)
  | _ => false) || (List.range c.n).any fun x => decide ((s.px x).pc = .pShm p)

def skOwnsB (s : St) : Bool :=
  match s.sk.pc with
  | .oShm _ | .oInit _ _ | .rShm _ => true
  | _ => false

def isPShm : PPc → Bool
  | .pShm _ => true
  | _ => false

def isStaleL : SPc → Bool
  | .oStaleL _ => true
  | _ => false

def carefulB (c : Cfg) (s : St) : Op → Bool
  | .skOffer => (s.sk.held .ctl).isNone && (s.sk.held .dat).isNone
  | .crash q => (!decide (s.sk.proc = q) || !skOwnsB s) && (List.range c.n).all fun x => !decide (c.proc x = q) || !isPShm (s.px x).pc
  | .skNext false =>
    match s.sk.pc with
    | .rLk p => !ownsB c s p
    | _ => true
  | .pxNext x false =>
    match (s.px x).pc with
    | .pLk p => !ownsB c s p
    | _ => true
  | _ => true

def quietB (c : Cfg) (s : St) : Bool :=
  (List.range c.n).all fun x => !decide ((s.px x).pc = .gone) || !decide (s.sk.proc = c.proc x) || !isStaleL s.sk.pc

def tidyB (c : Cfg) (s : St) : List Op → Bool
  | [] => true
  | o :: os => quietB c s && carefulB c s o && tidyB c (step c s o) os

theorem owns_of {c : Cfg} {s : St} (h : ∀ x, c.n ≤ x → s.px x = noPx) {p : Part} (hb : ownsB c s p = false) : ¬Owns s p := by
  simp only [ownsB, Bool.or_eq_false_iff, List.any_eq_false, List.mem_range, decide_eq_true_eq] at hb
  rintro ((e | ⟨o, e⟩ | e) | ⟨x, e⟩)
  · simp [e] at hb
  · simp [e] at hb
  · simp [e] at hb
  · rcases Nat.lt_or_ge x c.n with h1 | h1
    · exact hb.2 x h1 e
    · rw [h x h1] at e; cases e

theorem tidy_of {c : Cfg} (ops : List Op) : ∀ s, (∀ x, c.n ≤ x → s.px x = noPx) → tidyB c s ops = true → TidyFrom c s ops := by
  induction ops with
  | nil => intro s _ _; trivial
  | cons o os ih =>
    intro s h hb
    have hn : ∀ y, (s.px y).pc ≠ .none → y < c.n := by
      intro y hy
      rcases Nat.lt_or_ge y c.n with h1 | h1
      · exact h1
      · rw [h y h1] at hy; exact absurd rfl hy
    simp only [tidyB, Bool.and_eq_true] at hb
    refine ⟨fun x hx e p e1 => ?_, ?_, ih _ (out_step h o) hb.2⟩
    · have := hb.1.1
      simp only [quietB, List.all_eq_true, List.mem_range] at this
      have := this x (hn x (by rw [hx]; simp))
      simp [hx, e, e1, isStaleL] at this
    · have hb := hb.1.2
      cases o with
      | skOffer =>
        simp only [carefulB, Bool.and_eq_true, Option.isNone_iff_eq_none] at hb
        intro p; cases p
        · exact hb.1
        · exact hb.2
      | crash q =>
        simp only [carefulB, Bool.and_eq_true, List.all_eq_true, List.mem_range] at hb
        refine ⟨fun e p hp => ?_, fun x e p hp => ?_⟩
        · have := hb.1
          rcases hp with e1 | ⟨o, e1⟩ | e1 <;> simp [e, skOwnsB, e1] at this
        · have := hb.2 x (hn x (by rw [hp]; simp))
          simp [e, hp, isPShm] at this
      | skNext ok =>
        cases ok with
        | true => trivial
        | false => intro p e; simp only [carefulB, e, Bool.not_eq_true'] at hb; exact owns_of h hb
      | pxNext x ok =>
        cases ok with
        | true => trivial
        | false => intro p e; simp only [carefulB, e, Bool.not_eq_true'] at hb; exact owns_of h hb
      | _ => trivial

theorem tidy_check {c : Cfg} {ops : List Op} (hb : tidyB c init ops = true) : Tidy c ops := tidy_of ops init (fun _ _ => rfl) hb

end Verif.ShmLife
