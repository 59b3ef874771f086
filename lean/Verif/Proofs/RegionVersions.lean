import Verif.Spec.RegionVersions
import Verif.Proofs.RegionTable
/-! The invariant of the versioned region table. -/
namespace Verif.RegionVersions
open Verif.RegionTable

theorem build_append {t : Table} {us vs : List Upd} : build t (us ++ vs) = (build t us).bind (fun t' => build t' vs) := by
  induction us generalizing t with
  | nil => rfl
  | cons u us ih =>
    simp only [List.cons_append, build]
    split
    · rw [ih]
    · rfl

theorem builds_cons {h : List Upd} {t t' : Table} {u : Upd} (hb : Builds h t) (ha : apply t u = .ok t') : Builds (u :: h) t' := by
  unfold Builds at *
  rw [List.reverse_cons, build_append, hb]
  simp [build, ha]

def holds (v : Nat) : R → Bool
  | .hold _ w => w == v
  | _ => false

/-- The number of readers that hold version `v`. -/
def holders (n : Nat) (s : St) (v : Nat) : Nat := count (fun i => holds v (s.r i)) n

def WOk (s : St) : Prop :=
  match s.w with
  | .idle => True
  | .look _ _ loop => 1 ≤ loop ∧ loop < versions
  | .cas _ _ loop v => 1 ≤ loop ∧ loop < versions ∧ v ≠ s.latest ∧ v < versions
  | .copy _ v => v ≠ s.latest ∧ v < versions ∧ inv ≤ s.refc v
  | .publish u v => v ≠ s.latest ∧ v < versions ∧ inv ≤ s.refc v ∧ s.vers v = u :: s.done ∧ Builds (s.vers v) (s.tab v)
  | .setLatest u v => v ≠ s.latest ∧ v < versions ∧ s.refc v < inv ∧ s.vers v = u :: s.done

def ROk (s : St) : R → Prop
  | .idle => True
  | .load st _ => st <:+ s.done
  | .add st _ v => st <:+ s.done ∧ st <:+ s.vers v
  | .hold st v => st <:+ s.done ∧ st <:+ s.vers v

structure Core (n : Nat) (s : St) : Prop where
  cnt : ∀ v, (s.refc v < inv ∧ s.refc v = holders n s v) ∨ (inv ≤ s.refc v ∧ holders n s v = 0)
  out : ∀ i, n ≤ i → s.r i = .idle
  lat : s.refc s.latest < inv
  latv : s.vers s.latest = s.done
  latlt : s.latest < versions
  blt : ∀ v, s.refc v < inv → Builds (s.vers v) (s.tab v)
  suf : ∀ v, s.vers v <:+ pend s
  wok : WOk s
  rok : ∀ i, ROk s (s.r i)

/-- Every search had the result of a complete version that is at least as new as the start of the lookup. -/
def LogOk (s : St) : Prop :=
  ∀ e ∈ s.log, ∃ h t, Builds h t ∧ e.res = lookup t e.addr ∧ e.start <:+ h ∧ h <:+ pend s

theorem count_r {n : Nat} {s : St} {i v : Nat} (hi : i < n) (x : R) :
    count (fun j => holds v (upd s.r i x j)) n + (if holds v (s.r i) then 1 else 0) =
    holders n s v + (if holds v x then 1 else 0) := by
  have := count_upd (p := fun j => holds v (s.r j)) (q := fun j => holds v (upd s.r i x j)) (m := n) hi
    (by intro j hj; rw [upd_ne _ _ hj])
  simpa [holders] using this

/-- Only the control state of the writer changes. -/
theorem core_w {n : Nat} {s : St} (h : Core n s) (w : W) (hp : pend { s with w := w } = pend s) (hw : WOk { s with w := w }) :
    Core n { s with w := w } :=
  ⟨h.cnt, h.out, h.lat, h.latv, h.latlt, h.blt, fun v => by rw [hp]; exact h.suf v, hw, h.rok⟩

theorem core_next {n : Nat} {s : St} (h : Core n s) (u : Upd) (round loop : Nat)
    (hp : pend s = s.done) (hd : (next s u round loop).dead = false) : Core n (next s u round loop) := by
  unfold next at *
  split
  · rename_i hl
    exact core_w h _ hp.symm ⟨by omega, hl⟩
  · split
    · exact core_w h _ hp.symm ⟨by omega, by decide⟩
    · rename_i h1 h2
      rw [if_neg h1, if_neg h2] at hd
      simp at hd

theorem next_frame (s : St) (u : Upd) (round loop : Nat) :
    (next s u round loop).log = s.log ∧ (next s u round loop).done = s.done ∧ (next s u round loop).tab = s.tab ∧
    (next s u round loop).refc = s.refc ∧ (next s u round loop).latest = s.latest ∧
    (next s u round loop).r = s.r ∧ (pend s = s.done → pend (next s u round loop) = pend s) := by
  unfold next
  repeat' split
  all_goals refine ⟨rfl, rfl, rfl, rfl, rfl, rfl, ?_⟩
  all_goals intro hp
  · exact hp.symm
  · exact hp.symm
  · rfl

theorem mod_ne {loop l : Nat} (h1 : 1 ≤ loop) (h2 : loop < versions) (h3 : l < versions) : (loop + l) % versions ≠ l := by
  unfold versions at *
  omega

theorem mod_lt' (x : Nat) : x % versions < versions := Nat.mod_lt _ (by decide)

theorem wStep_log {n : Nat} {s : St} (hc : Core n s) (h : LogOk s) : LogOk (wStep s) := by
  unfold wStep
  cases hw : s.w with
  | idle => exact h
  | look u round loop =>
    have hp : pend s = s.done := by simp [pend, hw]
    dsimp only
    split
    · intro e he
      obtain ⟨a, t, h1, h2, h3, h4⟩ := h e he
      exact ⟨a, t, h1, h2, h3, by rw [hp] at h4; exact h4⟩
    · split
      · intro e he
        obtain ⟨a, t, h1, h2, h3, h4⟩ := h e he
        exact ⟨a, t, h1, h2, h3, by rw [hp] at h4; exact h4⟩
      · obtain ⟨f1, f2, f3, f4, f5, f6, f7⟩ := next_frame s u round loop
        intro e he
        rw [f1] at he
        rw [f7 hp]
        exact h e he
  | cas u round loop v =>
    have hp : pend s = s.done := by simp [pend, hw]
    dsimp only
    split
    · intro e he
      obtain ⟨a, t, h1, h2, h3, h4⟩ := h e he
      exact ⟨a, t, h1, h2, h3, by rw [hp] at h4; exact h4⟩
    · obtain ⟨f1, f2, f3, f4, f5, f6, f7⟩ := next_frame s u round loop
      intro e he
      rw [f1] at he
      rw [f7 hp]
      exact h e he
  | copy u v =>
    have hp : pend s = s.done := by simp [pend, hw]
    dsimp only
    split
    · intro e he
      obtain ⟨a, t, h1, h2, h3, h4⟩ := h e he
      exact ⟨a, t, h1, h2, h3, by rw [hp] at h4; exact h4⟩
    · intro e he
      obtain ⟨a, t, h1, h2, h3, h4⟩ := h e he
      exact ⟨a, t, h1, h2, h3, by rw [hp] at h4; exact h4⟩
    · intro e he
      obtain ⟨a, t, h1, h2, h3, h4⟩ := h e he
      exact ⟨a, t, h1, h2, h3, by rw [hp] at h4; exact h4.trans (List.suffix_cons _ _)⟩
  | publish u v =>
    have hp : pend s = u :: s.done := by simp [pend, hw]
    intro e he
    obtain ⟨a, t, h1, h2, h3, h4⟩ := h e he
    exact ⟨a, t, h1, h2, h3, by rw [hp] at h4; exact h4⟩
  | setLatest u v =>
    have hp : pend s = u :: s.done := by simp [pend, hw]
    intro e he
    obtain ⟨a, t, h1, h2, h3, h4⟩ := h e he
    exact ⟨a, t, h1, h2, h3, by rw [hp] at h4; exact h4⟩

/-- Overwriting a version nobody may read. -/
theorem core_tab {n : Nat} {s : St} (h : Core n s) {u : Upd} {v : Nat} (hw : s.w = .copy u v) (t : Table) :
    Core n { s with tab := upd s.tab v t } := by
  have hwok := h.wok
  simp only [WOk, hw] at hwok
  refine ⟨h.cnt, h.out, h.lat, h.latv, h.latlt, ?_, h.suf, ?_, h.rok⟩
  · intro x hx
    have hne : x ≠ v := by rintro rfl; exact absurd hx (by simpa using hwok.2.2)
    dsimp only
    rw [upd_ne _ _ hne]
    exact h.blt x hx
  · simp only [WOk, hw]
    exact hwok

theorem wStep_core {n : Nat} {s : St} (h : Core n s) (hd : (wStep s).dead = false) : Core n (wStep s) := by
  have hwok := h.wok
  unfold wStep at *
  cases hw : s.w with
  | idle => exact h
  | look u round loop =>
    have hp : pend s = s.done := by simp [pend, hw]
    rw [hw] at hd
    simp only [WOk, hw] at hwok
    have hne := mod_ne hwok.1 hwok.2 h.latlt
    dsimp only at hd ⊢
    split
    · exact core_w h _ hp.symm ⟨hwok.1, hwok.2, hne, mod_lt' _⟩
    · split
      · rename_i h1 h2
        exact core_w h _ hp.symm ⟨hne, mod_lt' _, by dsimp only; rw [h2]; exact Nat.le_refl _⟩
      · rename_i h1 h2
        rw [if_neg h1, if_neg h2] at hd
        exact core_next h u round loop hp hd
  | cas u round loop v =>
    have hp : pend s = s.done := by simp [pend, hw]
    rw [hw] at hd
    simp only [WOk, hw] at hwok
    dsimp only at hd ⊢
    split
    · rename_i h0
      refine ⟨?_, h.out, ?_, h.latv, h.latlt, ?_, ?_, ?_, h.rok⟩
      · intro x
        by_cases hx : x = v
        · subst hx
          right
          refine ⟨by simp, ?_⟩
          rcases h.cnt x with hc | hc
          · have := hc.2; rw [h0] at this; exact this.symm
          · exact hc.2
        · dsimp only
          rw [upd_ne _ _ hx]
          exact h.cnt x
      · dsimp only
        rw [upd_ne _ _ (Ne.symm hwok.2.2.1)]
        exact h.lat
      · intro x hx
        have hxv : x ≠ v := by rintro rfl; simp at hx
        dsimp only at hx
        rw [upd_ne _ _ hxv] at hx
        exact h.blt x hx
      · intro x
        have := h.suf x
        rw [hp] at this
        exact this
      · exact ⟨hwok.2.2.1, hwok.2.2.2, by simp⟩
    · rename_i h0
      rw [if_neg h0] at hd
      exact core_next h u round loop hp hd
  | copy u v =>
    have hp : pend s = s.done := by simp [pend, hw]
    rw [hw] at hd
    simp only [WOk, hw] at hwok
    dsimp only at hd ⊢
    split
    · rename_i ha
      rw [ha] at hd
      simp at hd
    · have h1 := core_tab h hw (leftover (s.tab s.latest) u)
      exact core_w h1 .idle (by simp [pend, hw]) trivial
    · rename_i t ha
      have hb : Builds (u :: s.vers s.latest) t := builds_cons (h.blt _ h.lat) ha
      have hl : s.latest ≠ v := Ne.symm hwok.1
      refine ⟨h.cnt, h.out, h.lat, ?_, h.latlt, ?_, ?_, ?_, ?_⟩
      · dsimp only
        rw [upd_ne _ _ hl]
        exact h.latv
      · intro x hx
        have hxv : x ≠ v := by rintro rfl; exact absurd hx (by simpa using hwok.2.2)
        dsimp only
        rw [upd_ne _ _ hxv, upd_ne _ _ hxv]
        exact h.blt x hx
      · intro x
        dsimp only
        by_cases hxv : x = v
        · subst hxv
          rw [upd_self, h.latv]
          exact List.suffix_refl _
        · rw [upd_ne _ _ hxv]
          have := h.suf x
          rw [hp] at this
          exact this.trans (List.suffix_cons _ _)
      · refine ⟨hwok.1, hwok.2.1, hwok.2.2, ?_, ?_⟩
        · dsimp only; rw [upd_self, h.latv]
        · dsimp only; rw [upd_self, upd_self]; exact hb
      · intro i
        have hgrow : ∀ (st : List Upd) (x : Nat), st <:+ s.vers x → st <:+ upd s.vers v (u :: s.vers s.latest) x := by
          intro st x hst
          by_cases hxv : x = v
          · subst hxv
            rw [upd_self, h.latv]
            have := h.suf x
            rw [hp] at this
            exact (hst.trans this).trans (List.suffix_cons _ _)
          · rw [upd_ne _ _ hxv]; exact hst
        have := h.rok i
        dsimp only
        cases hr : s.r i with
        | idle => trivial
        | load st k => rw [hr] at this; exact this
        | add st k x => rw [hr] at this; exact ⟨this.1, hgrow st x this.2⟩
        | hold st x => rw [hr] at this; exact ⟨this.1, hgrow st x this.2⟩
  | publish u v =>
    have hp : pend s = u :: s.done := by simp [pend, hw]
    simp only [WOk, hw] at hwok
    obtain ⟨w1, w2, w3, w4, w5⟩ := hwok
    refine ⟨?_, h.out, ?_, h.latv, h.latlt, ?_, ?_, ?_, h.rok⟩
    · intro x
      by_cases hx : x = v
      · subst hx
        left
        refine ⟨by simp [inv], ?_⟩
        rcases h.cnt x with hc | hc
        · exact absurd hc.1 (by omega)
        · have := hc.2
          simp only [upd_self]
          exact this.symm
      · dsimp only
        rw [upd_ne _ _ hx]
        exact h.cnt x
    · dsimp only
      rw [upd_ne _ _ (Ne.symm w1)]
      exact h.lat
    · intro x hx
      by_cases hxv : x = v
      · subst hxv; exact w5
      · dsimp only at hx
        rw [upd_ne _ _ hxv] at hx
        exact h.blt x hx
    · intro x
      have := h.suf x
      rw [hp] at this
      exact this
    · exact ⟨w1, w2, by simp [inv], w4⟩
  | setLatest u v =>
    have hp : pend s = u :: s.done := by simp [pend, hw]
    simp only [WOk, hw] at hwok
    obtain ⟨w1, w2, w3, w4⟩ := hwok
    refine ⟨h.cnt, h.out, w3, w4, w2, h.blt, ?_, trivial, ?_⟩
    · intro x
      have := h.suf x
      rw [hp] at this
      exact this
    · intro i
      have := h.rok i
      dsimp only
      cases hr : s.r i with
      | idle => trivial
      | load st k => rw [hr] at this; exact List.IsSuffix.trans this (List.suffix_cons _ _)
      | add st k x => rw [hr] at this; exact ⟨List.IsSuffix.trans this.1 (List.suffix_cons _ _), this.2⟩
      | hold st x => rw [hr] at this; exact ⟨List.IsSuffix.trans this.1 (List.suffix_cons _ _), this.2⟩

theorem wStep_core_log {n : Nat} {s : St} (h : Core n s) (hl : LogOk s) :
    ((wStep s).dead = false → Core n (wStep s)) ∧ LogOk (wStep s) :=
  ⟨wStep_core h, wStep_log h hl⟩

/-- Changing a reader that holds nothing to one that holds nothing. -/
theorem core_r {n : Nat} {s : St} (h : Core n s) {i : Nat} (hi : i < n) (x : R)
    (h1 : ∀ v, holds v (s.r i) = false) (h2 : ∀ v, holds v x = false) (hx : ROk s x) :
    Core n { s with r := upd s.r i x } := by
  refine ⟨?_, ?_, h.lat, h.latv, h.latlt, h.blt, h.suf, h.wok, ?_⟩
  · intro v
    have hc : holders n { s with r := upd s.r i x } v = holders n s v := by
      have := count_r (n := n) (s := s) (v := v) hi x
      rw [h1 v, h2 v] at this
      simpa [holders] using this
    rw [hc]
    exact h.cnt v
  · intro j hj
    dsimp only
    rw [upd_ne _ _ (by omega)]
    exact h.out j hj
  · intro j
    dsimp only
    by_cases hj : j = i
    · subst hj; rw [upd_self]; exact hx
    · rw [upd_ne _ _ hj]; exact h.rok j

theorem step_inv {n : Nat} {s : St} (o : Op) (h : s.dead = false → Core n s) (hl : LogOk s) :
    ((step n s o).dead = false → Core n (step n s o)) ∧ LogOk (step n s o) := by
  unfold step
  split
  · exact ⟨h, hl⟩
  rename_i hd
  have h := h (by simpa using hd)
  clear hd
  cases o with
  | wStart u =>
    dsimp only
    split
    · rename_i hw
      have hp : pend s = s.done := by simp [pend, hw]
      refine ⟨fun _ => core_w h _ hp.symm ⟨by omega, by decide⟩, ?_⟩
      intro e he
      obtain ⟨a, t, h1, h2, h3, h4⟩ := hl e he
      exact ⟨a, t, h1, h2, h3, by rw [hp] at h4; exact h4⟩
    · exact ⟨fun _ => h, hl⟩
  | wStep => exact wStep_core_log h hl
  | wSpurious =>
    dsimp only
    split
    · rename_i u round loop v hw
      have hp : pend s = s.done := by simp [pend, hw]
      refine ⟨fun hd => core_next h u round loop hp hd, ?_⟩
      obtain ⟨f1, f2, f3, f4, f5, f6, f7⟩ := next_frame s u round loop
      intro e he
      rw [f1] at he
      rw [f7 hp]
      exact hl e he
    · exact ⟨fun _ => h, hl⟩
  | scribble t =>
    dsimp only
    split
    · rename_i u v hw
      exact ⟨fun _ => core_tab h hw t, hl⟩
    · exact ⟨fun _ => h, hl⟩
  | rStart i =>
    dsimp only
    split
    · rename_i hi
      split
      · rename_i hr
        refine ⟨fun _ => core_r h hi _ (by simp [hr, holds]) (by simp [holds]) (List.suffix_refl _), ?_⟩
        intro e he
        exact hl e he
      · exact ⟨fun _ => h, hl⟩
    · exact ⟨fun _ => h, hl⟩
  | rStep i =>
    dsimp only
    split
    · rename_i hi
      unfold rStep
      have hrok := h.rok i
      cases hr : s.r i with
      | idle => exact ⟨fun _ => h, hl⟩
      | hold st v => exact ⟨fun _ => h, hl⟩
      | load st k =>
        rw [hr] at hrok
        refine ⟨fun _ => core_r h hi _ (by simp [hr, holds]) (by simp [holds]) ?_, ?_⟩
        · simp only [ROk] at hrok ⊢
          rw [h.latv]; exact ⟨hrok, hrok⟩
        · intro e he
          exact hl e he
      | add st k v =>
        rw [hr] at hrok
        dsimp only
        have h1 : ∀ x, holds x (s.r i) = false := by simp [hr, holds]
        split
        · refine ⟨fun hd => by simp at hd, ?_⟩
          intro e he
          exact hl e he
        rename_i hno
        split
        · rename_i hlt
          refine ⟨fun _ => ⟨?_, ?_, ?_, h.latv, h.latlt, ?_, h.suf, ?_, ?_⟩, ?_⟩
          · intro x
            have hc : holders n { s with refc := upd s.refc v (s.refc v + 1), r := upd s.r i (R.hold st v) } x =
                holders n s x + (if v = x then 1 else 0) := by
              have := count_r (n := n) (s := s) (v := x) hi (R.hold st v)
              rw [h1 x] at this
              simpa [holders, holds] using this
            rw [hc]
            by_cases hx : x = v
            · subst hx
              left
              have := h.cnt x
              simp only [upd_self, if_true]
              omega
            · dsimp only
              rw [upd_ne _ _ hx, if_neg (fun hh => hx hh.symm)]
              exact h.cnt x
          · intro j hj
            dsimp only
            rw [upd_ne _ _ (by omega)]
            exact h.out j hj
          · dsimp only
            rw [upd_apply]
            split
            · omega
            · exact h.lat
          · intro x hx
            apply h.blt
            dsimp only at hx
            rw [upd_apply] at hx
            split at hx
            · rename_i hxv; subst hxv; omega
            · exact hx
          · have hw := h.wok
            unfold WOk at hw ⊢
            dsimp only
            cases hsw : s.w with
            | idle => trivial
            | look a b c => rw [hsw] at hw; exact hw
            | cas a b c d => rw [hsw] at hw; exact hw
            | copy a b =>
              rw [hsw] at hw
              dsimp only at hw ⊢
              refine ⟨hw.1, hw.2.1, ?_⟩
              rw [upd_apply]; split
              · rename_i hb; subst hb; omega
              · exact hw.2.2
            | publish a b =>
              rw [hsw] at hw
              dsimp only at hw ⊢
              refine ⟨hw.1, hw.2.1, ?_, hw.2.2.2⟩
              rw [upd_apply]; split
              · rename_i hb; subst hb; omega
              · exact hw.2.2.1
            | setLatest a b =>
              rw [hsw] at hw
              dsimp only at hw ⊢
              refine ⟨hw.1, hw.2.1, ?_, hw.2.2.2⟩
              rw [upd_apply]; split
              · omega
              · exact hw.2.2.1
          · intro j
            dsimp only
            by_cases hj : j = i
            · subst hj; rw [upd_self]; exact hrok
            · rw [upd_ne _ _ hj]; exact h.rok j
          · intro e he
            exact hl e he
        · rename_i hge
          have hinv : inv ≤ s.refc v := by
            have : s.refc v ≠ inv - 1 := fun hh => hno (Or.inl hh)
            simp only [inv] at *; omega
          split
          · -- a failed attempt
            have hcore : Core n { s with refc := upd s.refc v (s.refc v + 1) } := by
              refine ⟨?_, h.out, ?_, h.latv, h.latlt, ?_, h.suf, ?_, h.rok⟩
              · intro x
                by_cases hx : x = v
                · subst hx
                  right
                  rcases h.cnt x with hc | hc
                  · omega
                  · refine ⟨?_, hc.2⟩
                    simp only [upd_self]; omega
                · dsimp only
                  rw [upd_ne _ _ hx]
                  exact h.cnt x
              · dsimp only
                rw [upd_apply]
                have := h.lat
                split
                · rename_i hh; rw [hh] at this; omega
                · exact this
              · intro x hx
                apply h.blt
                dsimp only at hx
                rw [upd_apply] at hx
                split at hx
                · omega
                · exact hx
              · have hw := h.wok
                unfold WOk at hw ⊢
                dsimp only
                cases hsw : s.w with
                | idle => trivial
                | look a b c => rw [hsw] at hw; exact hw
                | cas a b c d => rw [hsw] at hw; exact hw
                | copy a b =>
                  rw [hsw] at hw
                  dsimp only at hw ⊢
                  refine ⟨hw.1, hw.2.1, ?_⟩
                  rw [upd_apply]; split
                  · rename_i hb; subst hb; omega
                  · exact hw.2.2
                | publish a b =>
                  rw [hsw] at hw
                  dsimp only at hw ⊢
                  refine ⟨hw.1, hw.2.1, ?_, hw.2.2.2⟩
                  rw [upd_apply]; split
                  · rename_i hb; subst hb; omega
                  · exact hw.2.2.1
                | setLatest a b =>
                  rw [hsw] at hw
                  dsimp only at hw ⊢
                  refine ⟨hw.1, hw.2.1, ?_, hw.2.2.2⟩
                  rw [upd_apply]; split
                  · rename_i hb; subst hb; omega
                  · exact hw.2.2.1
            refine ⟨fun _ => core_r hcore hi _ h1 (by simp [holds]) ?_, ?_⟩
            · exact hrok.1
            · intro e he
              exact hl e he
          · refine ⟨fun hd => by simp at hd, ?_⟩
            intro e he
            exact hl e he
    · exact ⟨fun _ => h, hl⟩
  | rRead i p =>
    dsimp only
    split
    · rename_i hi
      split
      · rename_i st v hr
        refine ⟨fun _ => ⟨h.cnt, h.out, h.lat, h.latv, h.latlt, h.blt, h.suf, h.wok, h.rok⟩, ?_⟩
        intro e he
        rcases List.mem_cons.mp he with rfl | he
        · have hrok := h.rok i
          rw [hr] at hrok
          have hpos : 0 < holders n s v := count_pos (p := fun j => holds v (s.r j)) hi (by simp [hr, holds])
          have hlt : s.refc v < inv := by
            rcases h.cnt v with hc | hc
            · exact hc.1
            · omega
          exact ⟨s.vers v, s.tab v, h.blt v hlt, rfl, hrok.2, h.suf v⟩
        · exact hl e he
      · exact ⟨fun _ => h, hl⟩
    · exact ⟨fun _ => h, hl⟩
  | rRelease i =>
    dsimp only
    split
    · rename_i hi
      split
      · rename_i st v hr
        have hpos : 0 < holders n s v := count_pos (p := fun j => holds v (s.r j)) hi (by simp [hr, holds])
        have hlt : s.refc v < inv ∧ s.refc v = holders n s v := by
          rcases h.cnt v with hc | hc
          · exact hc
          · omega
        refine ⟨fun _ => ⟨?_, ?_, ?_, h.latv, h.latlt, ?_, h.suf, ?_, ?_⟩, ?_⟩
        · intro x
          have hc : holders n { s with refc := upd s.refc v (s.refc v - 1), r := upd s.r i R.idle } x +
              (if v = x then 1 else 0) = holders n s x := by
            have := count_r (n := n) (s := s) (v := x) hi R.idle
            rw [hr] at this
            simpa [holders, holds] using this
          by_cases hx : x = v
          · subst hx
            left
            rw [if_pos rfl] at hc
            simp only [upd_self]
            omega
          · rw [if_neg (fun hh => hx hh.symm)] at hc
            dsimp only at hc ⊢
            rw [upd_ne _ _ hx, show holders n _ x = _ from hc]
            exact h.cnt x
        · intro j hj
          dsimp only
          rw [upd_ne _ _ (by omega)]
          exact h.out j hj
        · dsimp only
          rw [upd_apply]
          split
          · omega
          · exact h.lat
        · intro x hx
          apply h.blt
          dsimp only at hx
          rw [upd_apply] at hx
          split at hx
          · rename_i hxv; subst hxv; exact hlt.1
          · exact hx
        · have hw := h.wok
          unfold WOk at hw ⊢
          dsimp only
          cases hsw : s.w with
          | idle => trivial
          | look a b c => rw [hsw] at hw; exact hw
          | cas a b c d => rw [hsw] at hw; exact hw
          | copy a b =>
            rw [hsw] at hw
            dsimp only at hw ⊢
            refine ⟨hw.1, hw.2.1, ?_⟩
            rw [upd_apply]; split
            · rename_i hb; subst hb; omega
            · exact hw.2.2
          | publish a b =>
            rw [hsw] at hw
            dsimp only at hw ⊢
            refine ⟨hw.1, hw.2.1, ?_, hw.2.2.2⟩
            rw [upd_apply]; split
            · rename_i hb; subst hb; omega
            · exact hw.2.2.1
          | setLatest a b =>
            rw [hsw] at hw
            dsimp only at hw ⊢
            refine ⟨hw.1, hw.2.1, ?_, hw.2.2.2⟩
            rw [upd_apply]; split
            · omega
            · exact hw.2.2.1
        · intro j
          dsimp only
          by_cases hj : j = i
          · subst hj; rw [upd_self]; trivial
          · rw [upd_ne _ _ hj]; exact h.rok j
        · intro e he
          exact hl e he
      · exact ⟨fun _ => h, hl⟩
    · exact ⟨fun _ => h, hl⟩

theorem init_core (n : Nat) : Core n init := by
  have hz : ∀ v, holders n init v = 0 := by
    intro v
    exact count_eq_zero.mpr (fun j _ => rfl)
  refine ⟨?_, fun _ _ => rfl, by decide, rfl, by decide, ?_, ?_, trivial, fun _ => trivial⟩
  · intro v
    rw [hz]
    by_cases hv : v = 0
    · subst hv; left; exact ⟨by decide, rfl⟩
    · right; refine ⟨?_, rfl⟩; simp [init, hv, initial]
  · intro v _; rfl
  · intro v; exact List.suffix_refl _

theorem run_inv {n : Nat} {s : St} (ops : List Op) (h : s.dead = false → Core n s) (hl : LogOk s) :
    ((run n s ops).dead = false → Core n (run n s ops)) ∧ LogOk (run n s ops) := by
  induction ops generalizing s with
  | nil => exact ⟨h, hl⟩
  | cons o ops ih =>
    obtain ⟨h1, h2⟩ := step_inv (n := n) o h hl
    exact ih h1 h2

theorem reach_core {n : Nat} (ops : List Op) (hd : (run n init ops).dead = false) : Core n (run n init ops) :=
  (run_inv ops (fun _ => init_core n) (by intro e he; simp [init] at he)).1 hd

theorem reach_log {n : Nat} (ops : List Op) : LogOk (run n init ops) :=
  (run_inv ops (fun _ => init_core n) (by intro e he; simp [init] at he)).2

/-- The change the writer is working on. -/
def current : W → Option Upd
  | .idle => none
  | .look u _ _ => some u
  | .cas u _ _ _ => some u
  | .copy u _ => some u
  | .publish u _ => some u
  | .setLatest u _ => some u

def FromOps (P : Upd → Prop) (s : St) : Prop := (∀ u ∈ s.done, P u) ∧ ∀ u, current s.w = some u → P u

theorem next_from {P : Upd → Prop} {s : St} {u : Upd} {a b : Nat} (h : FromOps P s) (hw : current s.w = some u) :
    FromOps P (next s u a b) := by
  unfold next
  repeat' split
  · exact ⟨h.1, fun x hx => by simp only [current, Option.some.injEq] at hx; subst hx; exact h.2 _ hw⟩
  · exact ⟨h.1, fun x hx => by simp only [current, Option.some.injEq] at hx; subst hx; exact h.2 _ hw⟩
  · exact h

theorem step_from {n : Nat} {P : Upd → Prop} {s : St} (o : Op) (h : FromOps P s) (ho : ∀ u, o = .wStart u → P u) :
    FromOps P (step n s o) := by
  unfold step
  split
  · exact h
  cases o with
  | wStart u =>
    dsimp only
    split
    · exact ⟨h.1, fun x hx => by simp only [current, Option.some.injEq] at hx; subst hx; exact ho _ rfl⟩
    · exact h
  | wStep =>
    dsimp only
    unfold wStep
    cases hw : s.w with
    | idle => exact h
    | look u a b =>
      dsimp only
      have hu := h.2 u (by rw [hw]; rfl)
      repeat' split
      · exact ⟨h.1, fun x hx => by simp only [current, Option.some.injEq] at hx; subst hx; exact hu⟩
      · exact ⟨h.1, fun x hx => by simp only [current, Option.some.injEq] at hx; subst hx; exact hu⟩
      · exact next_from h (by rw [hw]; rfl)
    | cas u a b c =>
      dsimp only
      have hu := h.2 u (by rw [hw]; rfl)
      repeat' split
      · exact ⟨h.1, fun x hx => by simp only [current, Option.some.injEq] at hx; subst hx; exact hu⟩
      · exact next_from h (by rw [hw]; rfl)
    | copy u v =>
      dsimp only
      have hu := h.2 u (by rw [hw]; rfl)
      repeat' split
      · exact ⟨h.1, fun x hx => by simp only [current, Option.some.injEq] at hx; subst hx; exact hu⟩
      · exact ⟨h.1, fun x hx => by simp [current] at hx⟩
      · exact ⟨h.1, fun x hx => by simp only [current, Option.some.injEq] at hx; subst hx; exact hu⟩
    | publish u v =>
      have hu := h.2 u (by rw [hw]; rfl)
      exact ⟨h.1, fun x hx => by simp only [current, Option.some.injEq] at hx; subst hx; exact hu⟩
    | setLatest u v =>
      have hu := h.2 u (by rw [hw]; rfl)
      refine ⟨?_, fun x hx => by simp [current] at hx⟩
      intro x hx
      rcases List.mem_cons.mp hx with rfl | hx
      · exact hu
      · exact h.1 x hx
  | wSpurious =>
    dsimp only
    split
    · rename_i hw
      exact next_from h (by rw [hw]; rfl)
    · exact h
  | scribble t => dsimp only; split <;> exact h
  | rStart i => dsimp only; repeat' split
                all_goals exact h
  | rStep i =>
    dsimp only
    split
    · unfold rStep
      split
      · exact h
      · dsimp only; repeat' split
        all_goals exact h
      · exact h
    · exact h
  | rRead i p => dsimp only; repeat' split
                 all_goals exact h
  | rRelease i => dsimp only; repeat' split
                  all_goals exact h

theorem run_from {n : Nat} {P : Upd → Prop} {s : St} (ops : List Op) (h : FromOps P s) (ho : ∀ u, .wStart u ∈ ops → P u) :
    FromOps P (run n s ops) := by
  induction ops generalizing s with
  | nil => exact h
  | cons o ops ih =>
    exact ih (step_from o h (fun u hu => ho u (by simp [hu]))) (fun u hu => ho u (List.mem_cons_of_mem _ hu))

theorem pend_forward (n : Nat) (ops : List Op) (hf : ∀ a b, .wStart (.add a b) ∈ ops → a ≤ b) :
    Forward (pend (run n init ops)) := by
  have h : FromOps (fun u => ∀ a b, u = .add a b → a ≤ b) (run n init ops) := by
    refine run_from ops ⟨by simp [init], by simp [init, current]⟩ ?_
    intro u hu a b hab
    subst hab
    exact hf a b hu
  intro a b hm
  have key : ∀ u, (u ∈ (run n init ops).done ∨ current (run n init ops).w = some u) → ∀ a b, u = .add a b → a ≤ b := by
    rintro u (hu | hu)
    · exact h.1 u hu
    · exact h.2 u hu
  refine key (.add a b) ?_ a b rfl
  unfold pend at hm
  split at hm
  · rename_i u v hw
    rcases List.mem_cons.mp hm with rfl | hm
    · right; rw [hw]; rfl
    · exact Or.inl hm
  · rename_i u v hw
    rcases List.mem_cons.mp hm with rfl | hm
    · right; rw [hw]; rfl
    · exact Or.inl hm
  · exact Or.inl hm

/-- Version `v` is neither the latest one, nor the writer's, and its counter is in the invalid interval above the initial value. -/
structure Lost (n : Nat) (s : St) (v : Nat) : Prop where
  notLatest : s.latest ≠ v
  counter : inv < s.refc v
  notOwned : owner s.w ≠ some v
  core : s.dead = false → Core n s
  log : LogOk s

theorem lost_step {n : Nat} {s : St} {v : Nat} (o : Op) (h : Lost n s v) : Lost n (step n s o) v := by
  obtain ⟨i1, i2⟩ := step_inv (n := n) o h.core h.log
  suffices hs : (step n s o).latest ≠ v ∧ inv < (step n s o).refc v ∧ owner (step n s o).w ≠ some v from
    ⟨hs.1, hs.2.1, hs.2.2, i1, i2⟩
  clear i1 i2
  have hno := h.notOwned
  have hl := h.notLatest
  have hc := h.counter
  have hnext : ∀ u a b, (next s u a b).latest ≠ v ∧ inv < (next s u a b).refc v ∧ owner (next s u a b).w ≠ some v := by
    intro u a b
    refine ⟨by rw [(next_frame s u a b).2.2.2.2.1]; exact hl, by rw [(next_frame s u a b).2.2.2.1]; exact hc, ?_⟩
    unfold next
    repeat' split
    · simp [owner]
    · simp [owner]
    · exact hno
  unfold step
  split
  · exact ⟨hl, hc, hno⟩
  rename_i hd
  have hcore := h.core (by simpa using hd)
  have hzero : holders n s v = 0 := by
    rcases hcore.cnt v with hh | hh
    · omega
    · exact hh.2
  cases o with
  | wStart u => dsimp only; split
                · exact ⟨hl, hc, by simp [owner]⟩
                · exact ⟨hl, hc, hno⟩
  | wStep =>
    dsimp only
    unfold wStep
    cases hw : s.w with
    | idle => exact ⟨hl, hc, hno⟩
    | look u a b =>
      dsimp only
      split
      · exact ⟨hl, hc, by simp [owner]⟩
      · split
        · rename_i h1 h2
          refine ⟨hl, hc, ?_⟩
          simp only [owner, ne_eq, Option.some.injEq]
          intro hh
          rw [hh] at h2
          rw [h2] at hc
          exact absurd hc (by decide)
        · exact hnext u a b
    | cas u a b c =>
      dsimp only
      split
      · rename_i h1
        have hcv : v ≠ c := by rintro rfl; omega
        refine ⟨hl, ?_, ?_⟩
        · dsimp only; rw [upd_ne _ _ hcv]; exact hc
        · simp only [owner, ne_eq, Option.some.injEq]; exact fun hh => hcv hh.symm
      · exact hnext u a b
    | copy u x =>
      rw [hw] at hno
      dsimp only
      repeat' split
      · exact ⟨hl, hc, hno⟩
      · exact ⟨hl, hc, by simp [owner]⟩
      · exact ⟨hl, hc, hno⟩
    | publish u x =>
      rw [hw] at hno
      have hcv : v ≠ x := by rintro rfl; exact hno rfl
      refine ⟨hl, ?_, hno⟩
      dsimp only; rw [upd_ne _ _ hcv]; exact hc
    | setLatest u x =>
      rw [hw] at hno
      refine ⟨?_, hc, by simp [owner]⟩
      dsimp only
      rintro rfl
      exact hno rfl
  | wSpurious =>
    dsimp only
    split
    · exact hnext _ _ _
    · exact ⟨hl, hc, hno⟩
  | scribble t => dsimp only; split <;> exact ⟨hl, hc, hno⟩
  | rStart i => dsimp only; repeat' split
                all_goals exact ⟨hl, hc, hno⟩
  | rStep i =>
    dsimp only
    split
    · have hup : ∀ x, inv < upd s.refc x (s.refc x + 1) v := by
        intro x
        rw [upd_apply]; split
        · rename_i hx; subst hx; omega
        · exact hc
      unfold rStep
      split
      · exact ⟨hl, hc, hno⟩
      · dsimp only; repeat' split
        all_goals exact ⟨hl, hup _, hno⟩
      · exact ⟨hl, hc, hno⟩
    · exact ⟨hl, hc, hno⟩
  | rRead i p => dsimp only; repeat' split
                 all_goals exact ⟨hl, hc, hno⟩
  | rRelease i =>
    dsimp only
    split
    · rename_i hi
      split
      · rename_i st x hr
        have hxv : v ≠ x := by
          rintro rfl
          have : 0 < holders n s v := count_pos (p := fun j => holds v (s.r j)) hi (by simp [hr, holds])
          omega
        refine ⟨hl, ?_, hno⟩
        dsimp only; rw [upd_ne _ _ hxv]; exact hc
      · exact ⟨hl, hc, hno⟩
    · exact ⟨hl, hc, hno⟩

theorem lost_run {n : Nat} {s : St} {v : Nat} (ops : List Op) (h : Lost n s v) : Lost n (run n s ops) v := by
  induction ops generalizing s with
  | nil => exact h
  | cons o ops ih => exact ih (lost_step o h)

end Verif.RegionVersions
