import Verif.Model.Tracker
/-! Invariant of the sample tracker. -/
namespace Verif.Tracker

def totRes (T : Nat) (pc : Nat → Pc) : Nat := sumTo (fun u => reserved (pc u)) T
def totRefs (T : Nat) (pc : Nat → Pc) : Nat := sumTo (fun u => refsOf (pc u)) T
def totUn (T : Nat) (pc : Nat → Pc) : Nat := count (fun u => unrefing (pc u)) T

def b2n (b : Bool) : Nat := if b then 1 else 0

theorem totRes_upd {T t : Nat} (ht : t < T) (pc : Nat → Pc) (p : Pc) :
    totRes T (upd pc t p) + reserved (pc t) = totRes T pc + reserved p := by
  have := sumTo_upd (f := fun u => reserved (pc u)) (g := fun u => reserved (upd pc t p u)) ht
    (fun j hj => by simp [upd_ne _ _ hj])
  simpa [totRes] using this

theorem totRefs_upd {T t : Nat} (ht : t < T) (pc : Nat → Pc) (p : Pc) :
    totRefs T (upd pc t p) + refsOf (pc t) = totRefs T pc + refsOf p := by
  have := sumTo_upd (f := fun u => refsOf (pc u)) (g := fun u => refsOf (upd pc t p u)) ht
    (fun j hj => by simp [upd_ne _ _ hj])
  simpa [totRefs] using this

theorem totUn_upd {T t : Nat} (ht : t < T) (pc : Nat → Pc) (p : Pc) :
    totUn T (upd pc t p) + b2n (unrefing (pc t)) = totUn T pc + b2n (unrefing p) := by
  have := count_upd (p := fun u => unrefing (pc u)) (q := fun u => unrefing (upd pc t p u)) ht
    (fun j hj => by simp [upd_ne _ _ hj])
  simpa [totUn, b2n] using this

theorem count_upd1 {G g : Nat} (hg : g < G) (f : Nat → Bool) (b : Bool) :
    count (upd f g b) G + b2n (f g) = count f G + b2n b := by
  have := count_upd (p := f) (q := upd f g b) hg (fun j hj => upd_ne _ _ hj)
  simpa [b2n] using this

theorem count_move {G src dst : Nat} (hs : src < G) (hd : dst < G) (hne : src ≠ dst) (f : Nat → Bool) :
    count (upd (upd f dst (f src)) src false) G + b2n (f dst) = count f G := by
  have h1 := count_upd1 hd f (f src)
  have h2 := count_upd1 hs (upd f dst (f src)) false
  rw [upd_ne _ _ hne] at h2
  have h0 : b2n false = 0 := rfl
  omega

structure Inv (T G : Nat) (s : St) : Prop where
  sum : s.avail + totRes T s.pc + count s.guard G = s.max
  fac : ∀ t, t < T → ∀ k r, s.pc t = .factory k r → r ≤ k
  refs : count s.ref G = count s.guard G + totUn T s.pc
  gr : ∀ g, g < G → s.guard g = true → s.ref g = true
  un : ∀ t, t < T → ∀ g, s.pc t = .unref g ∨ s.pc t = .checkUnref g → g < G ∧ s.guard g = false ∧ s.ref g = true
  uniq : ∀ t u, t < T → u < T → ∀ g, (s.pc t = .unref g ∨ s.pc t = .checkUnref g) →
    (s.pc u = .unref g ∨ s.pc u = .checkUnref g) → t = u
  ex : ∀ g, g < G → s.guard g = false → s.ref g = true → ∃ u, u < T ∧ (s.pc u = .unref g ∨ s.pc u = .checkUnref g)
  alive : s.dead = false

theorem init_inv (T G max : Nat) : Inv T G (init max) := by
  constructor
  · have h1 : totRes T (init max).pc = 0 := by
      unfold totRes init; dsimp only [reserved]; induction T with
      | zero => rfl
      | succ n ih => simp [sumTo, ih]
    have h2 : count (init max).guard G = 0 := by rw [count_eq_zero]; simp [init]
    rw [h1, h2]; rfl
  · intro t _ k r h; simp [init] at h
  · have h2 : count (init max).guard G = 0 := by rw [count_eq_zero]; simp [init]
    have h3 : count (init max).ref G = 0 := by rw [count_eq_zero]; simp [init]
    have h4 : totUn T (init max).pc = 0 := by unfold totUn; rw [count_eq_zero]; simp [init, unrefing]
    omega
  · intro g _ h; simp [init] at h
  · intro t _ g h; simp [init] at h
  · intro t u _ _ g h; simp [init] at h
  · intro g _ _ h; simp [init] at h
  · rfl

/-- A step that only changes the program counter of `t`, not from or to the destructor, and the counter. -/
theorem inv_pc {T G : Nat} {s : St} (h : Inv T G s) {t : Nat} (ht : t < T) {p : Pc} {a : Nat}
    (h1 : unrefing (s.pc t) = false) (h2 : unrefing p = false)
    (h3 : ∀ k r, p = .factory k r → r ≤ k) (h4 : a + reserved p = s.avail + reserved (s.pc t)) :
    Inv T G { s with avail := a, pc := upd s.pc t p } := by
  have hr := totRes_upd ht s.pc p
  have hu := totUn_upd ht s.pc p
  rw [h1, h2] at hu
  have nop : ∀ g, ¬ (p = .unref g ∨ p = .checkUnref g) := by
    intro g e; rcases e with rfl | rfl <;> simp [unrefing] at h2
  have noq : ∀ g, ¬ (s.pc t = .unref g ∨ s.pc t = .checkUnref g) := by
    intro g e; rcases e with e | e <;> simp [e, unrefing] at h1
  have key : ∀ u g, (upd s.pc t p u = .unref g ∨ upd s.pc t p u = .checkUnref g) → u ≠ t ∧ (s.pc u = .unref g ∨ s.pc u = .checkUnref g) := by
    intro u g e
    by_cases hut : u = t
    · subst hut; simp only [upd_self] at e; exact absurd e (nop g)
    · rw [upd_ne _ _ hut] at e; exact ⟨hut, e⟩
  constructor
  · have := h.sum; dsimp only; omega
  · intro u hu k r e
    dsimp only at e
    by_cases hut : u = t
    · subst hut; rw [upd_self] at e; exact h3 k r e
    · rw [upd_ne _ _ hut] at e; exact h.fac u hu k r e
  · have := h.refs; dsimp only; omega
  · exact h.gr
  · intro u hu g e; exact h.un u hu g (key u g e).2
  · intro u v hu hv g e1 e2; exact h.uniq u v hu hv g (key u g e1).2 (key v g e2).2
  · intro g hg e1 e2
    obtain ⟨u, hu, e⟩ := h.ex g hg e1 e2
    have hut : u ≠ t := by rintro rfl; exact noq g e
    exact ⟨u, hu, by dsimp only; rwa [upd_ne _ _ hut]⟩
  · exact h.alive

/-- Moving the contents of a SamplePtr object into another one that is not referenced any more. -/
theorem inv_move {T G : Nat} {s : St} (h : Inv T G s) {src dst a : Nat} (hs : src < G) (hd : dst < G) (hne : src ≠ dst)
    (hsrc : ∀ u, u < T → s.pc u ≠ .unref src ∧ s.pc u ≠ .checkUnref src)
    (hdst : ∀ u, u < T → s.pc u ≠ .unref dst ∧ s.pc u ≠ .checkUnref dst)
    (ha : a = s.avail + b2n (s.guard dst)) :
    Inv T G { s with avail := a, guard := upd (upd s.guard dst (s.guard src)) src false,
                     ref := upd (upd s.ref dst (s.ref src)) src false } := by
  have hg := count_move hs hd hne s.guard
  have hr := count_move hs hd hne s.ref
  have heq : ∀ g, g < G → (∀ u, u < T → s.pc u ≠ .unref g ∧ s.pc u ≠ .checkUnref g) → s.ref g = s.guard g := by
    intro g hg hn
    cases e1 : s.guard g with
    | true => exact h.gr g hg e1
    | false =>
      cases e2 : s.ref g with
      | false => rfl
      | true =>
        obtain ⟨u, hu, e⟩ := h.ex g hg e1 e2
        rcases e with e | e
        · exact absurd e (hn u hu).1
        · exact absurd e (hn u hu).2
  have e1 := heq src hs hsrc
  have e2 := heq dst hd hdst
  constructor
  · have := h.sum; dsimp only; omega
  · exact h.fac
  · have := h.refs; dsimp only; rw [e2] at hr; omega
  · intro g hg
    dsimp only
    by_cases g1 : g = src
    · subst g1; simp
    · rw [upd_ne _ _ g1, upd_ne _ _ g1]
      by_cases g2 : g = dst
      · subst g2; simp [e1]
      · rw [upd_ne _ _ g2, upd_ne _ _ g2]; exact h.gr g hg
  · intro u hu g e
    have := h.un u hu g e
    have g1 : g ≠ src := by
      rintro rfl; rcases e with e | e
      · exact (hsrc u hu).1 e
      · exact (hsrc u hu).2 e
    have g2 : g ≠ dst := by
      rintro rfl; rcases e with e | e
      · exact (hdst u hu).1 e
      · exact (hdst u hu).2 e
    dsimp only
    rw [upd_ne _ _ g1, upd_ne _ _ g1, upd_ne _ _ g2, upd_ne _ _ g2]; exact this
  · exact h.uniq
  · intro g hg
    dsimp only
    by_cases g1 : g = src
    · subst g1; simp
    · rw [upd_ne _ _ g1, upd_ne _ _ g1]
      by_cases g2 : g = dst
      · subst g2; rw [upd_self, upd_self, e1]; intro a b; rw [a] at b; cases b
      · rw [upd_ne _ _ g2, upd_ne _ _ g2]; exact h.ex g hg
  · exact h.alive

theorem step_inv {T G : Nat} {s : St} (h : Inv T G s) (t : Nat) (a : Act) :
    Inv T G (step T G s t a) ∧ (step T G s t a).max = s.max := by
  unfold step
  split
  · exact ⟨h, rfl⟩
  · rename_i hdt
    have ht : t < T := by simp only [not_or] at hdt; omega
    have hle : s.avail ≤ s.max := by have := h.sum; omega
    split
    · rename_i n e
      refine ⟨inv_pc (a := s.avail) h ht ?_ rfl (fun _ _ e => by cases e) ?_, rfl⟩ <;> simp [e, unrefing, reserved]
    · rename_i ok want got av e
      split
      · rename_i hpos
        split
        · rename_i hc
          refine ⟨inv_pc h ht ?_ rfl (fun _ _ e => by cases e) ?_, rfl⟩
          · simp [e, unrefing]
          · simp only [e, reserved]; have := hc.2; have : min av want ≤ av := Nat.min_le_left _ _; omega
        · refine ⟨inv_pc (a := s.avail) h ht ?_ rfl (fun _ _ e => by cases e) ?_, rfl⟩ <;> simp [e, unrefing, reserved]
      · exact ⟨h, rfl⟩
    · rename_i want got av e
      split
      · exact ⟨h, rfl⟩
      · refine ⟨inv_pc (a := s.avail) h ht ?_ rfl (fun _ _ e => by cases e; omega) ?_, rfl⟩ <;> simp [e, unrefing, reserved]
    · rename_i k refs e
      split
      · refine ⟨inv_pc (a := s.avail) h ht ?_ rfl (fun _ _ e => by cases e; omega) ?_, rfl⟩ <;> simp [e, unrefing, reserved]
      · exact ⟨h, rfl⟩
    · rename_i g k refs e
      split
      · rename_i hc
        obtain ⟨hg, hgf, hrf⟩ := hc
        refine ⟨?_, rfl⟩
        have hr := totRes_upd ht s.pc (.factory k refs)
        have hu := totUn_upd ht s.pc (.factory k refs)
        have c1 := count_upd1 hg s.guard true
        have c2 := count_upd1 hg s.ref true
        have hk := h.fac t ht _ _ e
        rw [e] at hr hu
        simp only [reserved, unrefing, hgf, hrf, b2n, Bool.false_eq_true, if_false, if_true] at hr hu c1 c2
        have key : ∀ u x, (upd s.pc t (.factory k refs) u = .unref x ∨ upd s.pc t (.factory k refs) u = .checkUnref x) →
            u ≠ t ∧ (s.pc u = .unref x ∨ s.pc u = .checkUnref x) := by
          intro u x e
          by_cases hut : u = t
          · subst hut; simp at e
          · rw [upd_ne _ _ hut] at e; exact ⟨hut, e⟩
        have back : ∀ u x, (s.pc u = .unref x ∨ s.pc u = .checkUnref x) → u ≠ t := by
          rintro u x e' rfl; simp [e] at e'
        constructor
        · have := h.sum; dsimp only; omega
        · intro u hu a b e'
          dsimp only at e'
          by_cases hut : u = t
          · subst hut; simp only [upd_self] at e'; cases e'; omega
          · rw [upd_ne _ _ hut] at e'; exact h.fac u hu a b e'
        · have := h.refs; dsimp only; omega
        · intro x hx
          dsimp only
          by_cases hxg : x = g
          · subst hxg; simp
          · rw [upd_ne _ _ hxg, upd_ne _ _ hxg]; exact h.gr x hx
        · intro u hu x e'
          have := h.un u hu x (key u x e').2
          have hxg : x ≠ g := by rintro rfl; rw [hrf] at this; simp at this
          dsimp only
          rw [upd_ne _ _ hxg, upd_ne _ _ hxg]; exact this
        · intro u v hu hv x e1 e2; exact h.uniq u v hu hv x (key u x e1).2 (key v x e2).2
        · intro x hx e1 e2
          dsimp only at e1 e2
          have hxg : x ≠ g := by rintro rfl; simp at e1
          rw [upd_ne _ _ hxg] at e1 e2
          obtain ⟨u, hu, e'⟩ := h.ex x hx e1 e2
          exact ⟨u, hu, by dsimp only; rwa [upd_ne _ _ (back u x e')]⟩
        · exact h.alive
      · exact ⟨h, rfl⟩
    · rename_i k e
      split
      · refine ⟨inv_pc h ht ?_ rfl (fun _ _ e => by cases e) ?_, rfl⟩ <;> simp [e, unrefing, reserved]
      · refine ⟨inv_pc (a := s.avail) h ht ?_ rfl (fun _ _ e => by cases e) ?_, rfl⟩
        · simp [e, unrefing]
        · simp only [e, reserved]; omega
    · rename_i g e
      split
      · rename_i hc
        obtain ⟨hg, hrf, hno⟩ := hc
        split
        · rename_i hgt
          refine ⟨?_, rfl⟩
          have hr := totRes_upd ht s.pc (.checkUnref g)
          have hu := totUn_upd ht s.pc (.checkUnref g)
          have c1 := count_upd1 hg s.guard false
          rw [e] at hr hu
          simp only [reserved, unrefing, hgt, b2n, Bool.false_eq_true, if_false, if_true] at hr hu c1
          have key : ∀ u x, (upd s.pc t (.checkUnref g) u = .unref x ∨ upd s.pc t (.checkUnref g) u = .checkUnref x) →
              (u = t ∧ x = g) ∨ (u ≠ t ∧ (s.pc u = .unref x ∨ s.pc u = .checkUnref x)) := by
            intro u x e
            by_cases hut : u = t
            · subst hut; simp at e; exact .inl ⟨rfl, e.symm⟩
            · rw [upd_ne _ _ hut] at e; exact .inr ⟨hut, e⟩
          have hno' : ∀ u, u < T → ¬ (s.pc u = .unref g ∨ s.pc u = .checkUnref g) := by
            intro u hu e; rcases e with e | e
            · exact (hno u hu).1 e
            · exact (hno u hu).2 e
          constructor
          · have := h.sum; dsimp only; omega
          · intro u hu a b e'
            dsimp only at e'
            by_cases hut : u = t
            · subst hut; simp only [upd_self] at e'; cases e'
            · rw [upd_ne _ _ hut] at e'; exact h.fac u hu a b e'
          · have := h.refs; dsimp only; omega
          · intro x hx
            dsimp only
            by_cases hxg : x = g
            · subst hxg; simp
            · rw [upd_ne _ _ hxg]; exact h.gr x hx
          · intro u hu x e'
            rcases key u x e' with ⟨rfl, rfl⟩ | ⟨-, e'⟩
            · exact ⟨hg, by simp, hrf⟩
            · have := h.un u hu x e'
              have hxg : x ≠ g := by rintro rfl; rw [hgt] at this; simp at this
              dsimp only
              rw [upd_ne _ _ hxg]; exact this
          · intro u v hu hv x e1 e2
            rcases key u x e1 with ⟨rfl, rfl⟩ | ⟨-, d1⟩ <;> rcases key v x e2 with ⟨e3, e4⟩ | ⟨-, d2⟩
            · exact e3.symm
            · exact absurd d2 (hno' v hv)
            · subst e4; exact absurd d1 (hno' u ‹u < T›)
            · exact h.uniq u v ‹u < T› hv x d1 d2
          · intro x hx e1 e2
            dsimp only at e1 e2
            by_cases hxg : x = g
            · subst hxg; exact ⟨t, ht, by simp⟩
            · rw [upd_ne _ _ hxg] at e1
              obtain ⟨u, hu, e'⟩ := h.ex x hx e1 e2
              have hut : u ≠ t := by rintro rfl; simp [e] at e'
              exact ⟨u, hu, by dsimp only; rwa [upd_ne _ _ hut]⟩
          · exact h.alive
        · rename_i hgf
          obtain ⟨u, hu, e'⟩ := h.ex g hg (by simpa using hgf) hrf
          rcases e' with e' | e'
          · exact absurd e' (hno u hu).1
          · exact absurd e' (hno u hu).2
      · exact ⟨h, rfl⟩
    · rename_i e
      refine ⟨?_, by split <;> rfl⟩
      rw [if_pos hle]
      refine inv_pc (a := s.avail) h ht ?_ rfl (fun _ _ e => by cases e) ?_ <;> simp [e, unrefing, reserved]
    · rename_i g e
      refine ⟨?_, by split <;> rfl⟩
      rw [if_pos hle]
      have hr := totRes_upd ht s.pc (.unref g)
      have hu := totUn_upd ht s.pc (.unref g)
      rw [e] at hr hu
      simp only [reserved, unrefing] at hr hu
      have key : ∀ u x, (upd s.pc t (.unref g) u = .unref x ∨ upd s.pc t (.unref g) u = .checkUnref x) →
          (s.pc u = .unref x ∨ s.pc u = .checkUnref x) := by
        intro u x e1
        by_cases hut : u = t
        · subst hut; simp at e1; subst e1; exact .inr e
        · rwa [upd_ne _ _ hut] at e1
      constructor
      · have := h.sum; dsimp only; omega
      · intro u hu a b e'
        dsimp only at e'
        by_cases hut : u = t
        · subst hut; simp only [upd_self] at e'; cases e'
        · rw [upd_ne _ _ hut] at e'; exact h.fac u hu a b e'
      · have := h.refs; dsimp only; omega
      · exact h.gr
      · intro u hu x e'; exact h.un u hu x (key u x e')
      · intro u v hu hv x e1 e2; exact h.uniq u v hu hv x (key u x e1) (key v x e2)
      · intro x hx e1 e2
        obtain ⟨u, hu, e'⟩ := h.ex x hx e1 e2
        refine ⟨u, hu, ?_⟩
        dsimp only
        by_cases hut : u = t
        · subst hut; rw [e] at e'; simp at e'; subst e'; simp
        · rwa [upd_ne _ _ hut]
      · exact h.alive
    · rename_i g e
      refine ⟨?_, rfl⟩
      have hun := h.un t ht g (.inl e)
      have hr := totRes_upd ht s.pc .idle
      have hu := totUn_upd ht s.pc .idle
      have c2 := count_upd1 hun.1 s.ref false
      rw [e] at hr hu
      simp only [reserved, unrefing, b2n, hun.2.2, Bool.false_eq_true, if_false, if_true] at hr hu c2
      have key : ∀ u x, u < T → (upd s.pc t .idle u = .unref x ∨ upd s.pc t .idle u = .checkUnref x) →
          x ≠ g ∧ (s.pc u = .unref x ∨ s.pc u = .checkUnref x) := by
        intro u x hu e1
        by_cases hut : u = t
        · subst hut; simp at e1
        · rw [upd_ne _ _ hut] at e1
          refine ⟨?_, e1⟩
          rintro rfl
          exact hut (h.uniq u t hu ht x e1 (.inl e))
      constructor
      · have := h.sum; dsimp only; omega
      · intro u hu a b e'
        dsimp only at e'
        by_cases hut : u = t
        · subst hut; simp only [upd_self] at e'; cases e'
        · rw [upd_ne _ _ hut] at e'; exact h.fac u hu a b e'
      · have := h.refs; dsimp only; omega
      · intro x hx e1
        dsimp only at e1 ⊢
        have hxg : x ≠ g := by rintro rfl; rw [hun.2.1] at e1; cases e1
        rw [upd_ne _ _ hxg]; exact h.gr x hx e1
      · intro u hu x e'
        have k := key u x hu e'
        have := h.un u hu x k.2
        dsimp only; rw [upd_ne _ _ k.1]; exact this
      · intro u v hu hv x e1 e2; exact h.uniq u v hu hv x (key u x hu e1).2 (key v x hv e2).2
      · intro x hx e1 e2
        dsimp only at e1 e2
        by_cases hxg : x = g
        · subst hxg; simp at e2
        · rw [upd_ne _ _ hxg] at e2
          obtain ⟨u, hu, e'⟩ := h.ex x hx e1 e2
          refine ⟨u, hu, ?_⟩
          dsimp only
          by_cases hut : u = t
          · subst hut; rw [e] at e'; simp at e'; exact absurd e'.symm hxg
          · rwa [upd_ne _ _ hut]
      · exact h.alive
    · rename_i src dst e
      split
      · rename_i hc
        obtain ⟨h1, h2, h3, h4, h5, h6⟩ := hc
        refine ⟨inv_move (a := s.avail) h h1 h2 h3 h6 ?_ ?_, rfl⟩
        · intro u hu
          constructor <;> intro e'
          · have := h.un u hu dst (.inl e'); rw [h4] at this; simp at this
          · have := h.un u hu dst (.inr e'); rw [h4] at this; simp at this
        · simp [h5, b2n]
      · exact ⟨h, rfl⟩
    · rename_i src dst e
      split
      · rename_i hc
        obtain ⟨h1, h2, h3, h6⟩ := hc
        have hs : ∀ u, u < T → s.pc u ≠ .unref src ∧ s.pc u ≠ .checkUnref src := fun u hu => ⟨(h6 u hu).1, (h6 u hu).2.1⟩
        have hd : ∀ u, u < T → s.pc u ≠ .unref dst ∧ s.pc u ≠ .checkUnref dst := fun u hu => (h6 u hu).2.2
        split
        · rename_i hg
          refine ⟨?_, rfl⟩
          have := inv_move (a := s.avail + 1) h h1 h2 h3 hs hd (by simp [hg, b2n])
          refine inv_pc (a := s.avail + 1) (p := .check) this ht ?_ rfl (fun _ _ e => by cases e) ?_ <;> simp [e, unrefing, reserved]
        · rename_i hg
          exact ⟨inv_move (a := s.avail) h h1 h2 h3 hs hd (by simp [hg, b2n]), rfl⟩
      · exact ⟨h, rfl⟩
    · exact ⟨h, rfl⟩

theorem run_inv {T G : Nat} {s : St} (h : Inv T G s) (l : List (Nat × Act)) :
    Inv T G (run T G s l) ∧ (run T G s l).max = s.max := by
  induction l generalizing s with
  | nil => exact ⟨h, rfl⟩
  | cons x l ih =>
    have h1 := step_inv h x.1 x.2
    have h2 := ih h1.1
    exact ⟨h2.1, h2.2.trans h1.2⟩

theorem totRefs_le {T : Nat} {pc : Nat → Pc} (h : ∀ t, t < T → ∀ k r, pc t = .factory k r → r ≤ k) :
    totRefs T pc ≤ totRes T pc := by
  apply sumTo_le
  intro j hj
  cases e : pc j with
  | factory k r => exact h j hj k r e
  | _ => simp [refsOf]

namespace Alloc

structure Inv (G : Nat) (s : St) : Prop where
  live : s.count = Verif.count s.guard G
  bal : s.count + s.releases = s.allocs
  alive : s.dead = false

theorem step_inv {G : Nat} {s : St} (h : Inv G s) {a : Act} (ha : a ≠ .dtor) : Inv G (step G s a) := by
  unfold step
  rw [if_neg (by simp [h.alive])]
  have hl := h.live
  have hb := h.bal
  cases a with
  | allocate g =>
    dsimp only
    split
    · rename_i hc
      have := count_upd1 hc.1 s.guard true
      simp only [hc.2, b2n, Bool.false_eq_true, if_false, if_true] at this
      exact ⟨by dsimp only; omega, by dsimp only; omega, h.alive⟩
    · exact h
  | destroy g =>
    dsimp only
    split
    · rename_i hc
      have := count_upd1 hc.1 s.guard false
      simp only [hc.2, b2n, Bool.false_eq_true, if_false, if_true] at this
      exact ⟨by simp only [dealloc]; omega, by simp only [dealloc]; omega, by simp only [dealloc]; simp; omega⟩
    · exact h
  | move src dst =>
    dsimp only
    split
    · rename_i hc
      have := count_move hc.1 hc.2.1 hc.2.2.1 s.guard
      simp only [hc.2.2.2, b2n, Bool.false_eq_true, if_false] at this
      exact ⟨by dsimp only; omega, hb, h.alive⟩
    · exact h
  | assign src dst =>
    dsimp only
    split
    · rename_i hc
      have := count_move hc.1 hc.2.1 hc.2.2 s.guard
      split
      · rename_i hg
        simp only [hg, b2n, if_true] at this
        exact ⟨by simp only [dealloc]; omega, by simp only [dealloc]; omega, by simp only [dealloc]; simp; omega⟩
      · rename_i hg
        simp only [hg, b2n, if_false] at this
        exact ⟨by dsimp only; simp at this; omega, hb, h.alive⟩
    · exact h
  | dtor => exact absurd rfl ha

theorem init_inv (G : Nat) : Inv G init := by
  refine ⟨?_, rfl, rfl⟩
  have : Verif.count init.guard G = 0 := by rw [count_eq_zero]; simp [init]
  rw [this]; rfl

theorem run_inv {G : Nat} {s : St} (h : Inv G s) {l : List Act} (hl : ∀ a ∈ l, a ≠ .dtor) : Inv G (run G s l) := by
  induction l generalizing s with
  | nil => exact h
  | cons a l ih => exact ih (step_inv h (hl a (by simp))) (fun b hb => hl b (by simp [hb]))

end Alloc
end Verif.Tracker
