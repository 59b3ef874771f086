import Verif.Spec.ConfigRun
import Verif.Proofs.Config

namespace Verif.ConfigRun
open Verif.Json Verif.Ident Verif.Config Verif.Spec.Ident Verif.Spec.Config

theorem run_append (c : Config) (a b : List Step) : run c (a ++ b) = b.foldl step (run c a) := by
  unfold run; rw [List.foldl_append]

theorem run_snoc (c : Config) (a : List Step) (x : Step) : run c (a ++ [x]) = step (run c a) x :=
  run_append c a [x]

theorem goto_self (w : World) (t : Nat) (x : Thread) : (w.goto t x).threads t = x := by
  simp [World.goto]

theorem goto_other (w : World) {t u : Nat} (x : Thread) (h : u ≠ t) : (w.goto t x).threads u = w.threads u := by
  simp [World.goto, h]

/-! ### What holds in every run -/

/-- What a thread has seen is so. -/
def SeenOk (c : Config) (lock : Option Nat) (t : Nat) : Thread → Prop
  | .found name i => instanceOf c name = some i
  | .locked _ => lock = some t
  | .typed _ => lock = some t
  | .merged add => ∀ n i, instanceOf add n = some i → instanceOf c n = some i
  | .levelled add => ∀ n i, instanceOf add n = some i → instanceOf c n = some i
  | .checking add _ => ∀ n i, instanceOf add n = some i → instanceOf c n = some i
  | .idle => True

/-- What the log says is so. -/
def EvOk (c : Config) : Ev → Prop
  | .resolved _ name ids => ids = [] ∨ ∃ i ty, instanceOf c name = some i ∧ typeOf c i.service = some ty ∧ ids = [make i ty]
  | .loaded _ add => ∀ n i, instanceOf add n = some i → instanceOf c n = some i

structure Seen (w : World) : Prop where
  threads : ∀ t, SeenOk w.config w.lock t (w.threads t)
  log : ∀ e ∈ w.log, EvOk w.config e

theorem EvOk.keeps {c c' : Config} (h : Keeps c c') {e : Ev} (he : EvOk c e) : EvOk c' e := by
  cases e with
  | resolved t name ids =>
    rcases he with he | ⟨i, ty, h1, h2, h3⟩
    · exact Or.inl he
    · exact Or.inr ⟨i, ty, h.2 _ _ h1, h.1 _ _ h2, h3⟩
  | loaded t add => exact fun n i hi => h.2 _ _ (he n i hi)

theorem SeenOk.keeps {c c' : Config} (h : Keeps c c') {lock : Option Nat} {t : Nat} {x : Thread}
    (hx : SeenOk c lock t x) : SeenOk c' lock t x := by
  cases x with
  | idle => trivial
  | found name i => exact h.2 _ _ hx
  | locked add => exact hx
  | typed add => exact hx
  | merged add => exact fun n i hi => h.2 _ _ (hx n i hi)
  | levelled add => exact fun n i hi => h.2 _ _ (hx n i hi)
  | checking add rest => exact fun n i hi => h.2 _ _ (hx n i hi)

/-- The rest of the threads when one goes on. -/
theorem Seen.goto {w : World} (h : Seen w) {t : Nat} {x : Thread} {v : World} (hv : v.threads = w.threads)
    (hk : Keeps w.config v.config) (hl : v.log = w.log)
    (hlock : v.lock = w.lock ∨ (∀ u, u ≠ t → w.lock ≠ some u))
    (hx : SeenOk v.config v.lock t x) : Seen (v.goto t x) := by
  refine ⟨fun u => ?_, fun e he => ?_⟩
  · by_cases e : u = t
    · subst e
      rw [goto_self]; exact hx
    · rw [goto_other _ _ e, hv]
      have hu := SeenOk.keeps hk (h.threads u)
      show SeenOk v.config v.lock u _
      rcases hlock with hlock | hlock
      · rw [hlock]; exact hu
      · have := hlock u e
        cases hth : w.threads u with
        | locked add => rw [hth] at hu; exact absurd hu this
        | typed add => rw [hth] at hu; exact absurd hu this
        | idle => trivial
        | found name i => rw [hth] at hu; exact hu
        | merged add => rw [hth] at hu; exact hu
        | levelled add => rw [hth] at hu; exact hu
        | checking add rest => rw [hth] at hu; exact hu
  · have : e ∈ w.log := by rw [← hl]; exact he
    exact EvOk.keeps hk (h.log e this)

theorem Seen.ret {w : World} (h : Seen w) (t : Nat) {e : Ev} (he : EvOk w.config e) : Seen (w.ret t e) := by
  have h1 := h.goto (t := t) (x := .idle) (v := w) rfl (Keeps.refl _) rfl (Or.inl rfl) trivial
  refine ⟨h1.threads, fun e' he' => ?_⟩
  rcases List.mem_append.mp he' with he' | he'
  · exact h.log e' he'
  · rw [List.mem_singleton.mp he']; exact he

theorem Seen.fail {w : World} (h : Seen w) (f : Fault) : Seen (w.fail f) := ⟨h.threads, h.log⟩

theorem keeps_types {c : Config} {add types} (h : mergeMaps c.types add = some types) :
    Keeps c { c with types } :=
  ⟨fun s t e => by unfold typeOf at e ⊢; rw [mergeMaps_some h, e]; rfl, fun _ _ e => e⟩

theorem keeps_insts {c : Config} {add insts} (h : mergeMaps c.insts add = some insts) :
    Keeps c { c with insts } :=
  ⟨fun _ _ e => e, fun s t e => by unfold instanceOf at e ⊢; rw [mergeMaps_some h, e]; rfl⟩

theorem insts_added {c add : Config} {insts} (h : mergeMaps c.insts add.insts = some insts) (n : String) (i : InstDep)
    (hi : instanceOf add n = some i) : instanceOf { c with insts } n = some i := by
  unfold instanceOf at hi ⊢
  show lookup insts n = some i
  rw [mergeMaps_some h]
  cases hc : lookup c.insts n with
  | none => simpa using hi
  | some j =>
    have : mergeMaps c.insts add.insts = none := (mergeMaps_none _ _).mpr ⟨n, by rw [hi]; simp, by rw [hc]; simp⟩
    rw [this] at h; cases h

theorem seen_goOn {w : World} (h : Seen w) (t : Nat) : Seen (goOn w t (w.threads t)) := by
  have ht := h.threads t
  cases hx : w.threads t with
  | idle => exact h
  | found name i => exact h
  | locked add =>
    rw [hx] at ht
    unfold goOn
    dsimp only
    split
    · exact h.fail _
    · rename_i types hm
      exact h.goto rfl (keeps_types hm) rfl (Or.inl rfl) ht
  | typed add =>
    rw [hx] at ht
    unfold goOn
    dsimp only
    split
    · exact h.fail _
    · rename_i insts hm
      refine h.goto rfl (keeps_insts hm) rfl (Or.inr ?_) (insts_added hm)
      intro u hu e
      have ht : w.lock = some t := ht
      rw [ht] at e; injection e with e; exact hu e.symm
  | merged add =>
    rw [hx] at ht
    unfold goOn
    dsimp only
    split
    · exact h.fail _
    · exact h.goto rfl (Keeps.refl _) rfl (Or.inl rfl) ht
  | levelled add =>
    rw [hx] at ht
    exact h.goto rfl (Keeps.refl _) rfl (Or.inl rfl) ht
  | checking add rest =>
    rw [hx] at ht
    cases rest with
    | nil => exact h.ret t ht
    | cons i rest =>
      unfold goOn
      dsimp only
      split
      · exact h.fail _
      · exact h.goto rfl (Keeps.refl _) rfl (Or.inl rfl) ht

theorem seen_step {w : World} (h : Seen w) (x : Step) : Seen (step w x) := by
  unfold step
  split
  · exact h
  · cases x with
    | find t name =>
      dsimp only
      unfold goIdle
      split
      · unfold goFind
        split
        · exact h.ret t (Or.inl rfl)
        · rename_i i hi
          exact h.goto rfl (Keeps.refl _) rfl (Or.inl rfl) hi
      · exact h
    | type t =>
      dsimp only
      have ht := h.threads t
      unfold goFound
      split
      · rename_i name i hx
        rw [hx] at ht
        split
        · exact h.ret t (Or.inl rfl)
        · rename_i ty hty
          exact h.ret t (Or.inr ⟨i, ty, ht, hty, rfl⟩)
      · exact h
    | load t add =>
      dsimp only
      unfold goIdle
      split
      · unfold goLoad
        split
        · exact h
        · rename_i hl
          refine h.goto rfl (Keeps.refl _) rfl (Or.inr ?_) rfl
          intro u _ e; rw [hl] at e; cases e
      · exact h
    | next t => exact seen_goOn h t

theorem seen_run (c : Config) (l : List Step) : Seen (run c l) := by
  have : ∀ (l : List Step) (w : World), Seen w → Seen (l.foldl step w) := by
    intro l
    induction l with
    | nil => intro w h; exact h
    | cons x l ih => intro w h; exact ih _ (seen_step h x)
  exact this l _ ⟨fun _ => trivial, fun _ h => absurd h (by simp)⟩

theorem keeps_step (w : World) (x : Step) :
    Keeps w.config (step w x).config ∧ (step w x).config.asil = w.config.asil := by
  unfold step
  split
  · exact ⟨Keeps.refl _, rfl⟩
  · cases x with
    | find t name =>
      dsimp only; unfold goIdle
      split
      · unfold goFind; split <;> exact ⟨Keeps.refl _, rfl⟩
      · exact ⟨Keeps.refl _, rfl⟩
    | type t =>
      dsimp only; unfold goFound
      split
      · split <;> exact ⟨Keeps.refl _, rfl⟩
      · exact ⟨Keeps.refl _, rfl⟩
    | load t add =>
      dsimp only; unfold goIdle
      split
      · unfold goLoad; split <;> exact ⟨Keeps.refl _, rfl⟩
      · exact ⟨Keeps.refl _, rfl⟩
    | next t =>
      dsimp only; unfold goOn
      split
      · split
        · exact ⟨Keeps.refl _, rfl⟩
        · rename_i hm; exact ⟨keeps_types hm, rfl⟩
      · split
        · exact ⟨Keeps.refl _, rfl⟩
        · rename_i hm; exact ⟨keeps_insts hm, rfl⟩
      · split <;> exact ⟨Keeps.refl _, rfl⟩
      · exact ⟨Keeps.refl _, rfl⟩
      · split <;> exact ⟨Keeps.refl _, rfl⟩
      · exact ⟨Keeps.refl _, rfl⟩
      · exact ⟨Keeps.refl _, rfl⟩
      · exact ⟨Keeps.refl _, rfl⟩

theorem keeps_foldl (l : List Step) : ∀ w : World,
    Keeps w.config (l.foldl step w).config ∧ (l.foldl step w).config.asil = w.config.asil := by
  induction l with
  | nil => intro w; exact ⟨Keeps.refl _, rfl⟩
  | cons x l ih =>
    intro w
    have h1 := keeps_step w x
    have h2 := ih (step w x)
    exact ⟨Keeps.trans h1.1 h2.1, h2.2.trans h1.2⟩

/-! ### What holds if the add-ons are compatible -/

/-- What a thread that loads a compatible add-on can rely on. -/
def LoadOk (c : Config) : Thread → Prop
  | .locked add => Compatible c add
  | .typed add => (∀ n, instanceOf add n ≠ none → instanceOf c n = none) ∧
      ∀ n i, instanceOf add n = some i → InOrder (typeOf c) c.asil i
  | .checking _ rest => ∀ i ∈ rest, ∃ ty, typeOf c i.service = some ty ∧ Fits i ty
  | _ => True

structure Sound (w : World) : Prop where
  seen : Seen w
  cons : Consistent w.config
  load : ∀ t, LoadOk w.config (w.threads t)
  fault : w.fault = none

/-- A thread that does not have the mutex can rely on the same when the configuration grows. -/
theorem LoadOk.keeps {c c' : Config} (h : Keeps c c') {x : Thread} (hx : LoadOk c x)
    (h1 : ∀ add, x ≠ .locked add) (h2 : ∀ add, x ≠ .typed add) : LoadOk c' x := by
  cases x with
  | locked add => exact absurd rfl (h1 add)
  | typed add => exact absurd rfl (h2 add)
  | checking add rest =>
    intro i hi
    obtain ⟨ty, e, f⟩ := hx i hi
    exact ⟨ty, h.1 _ _ e, f⟩
  | idle => trivial
  | found name i => trivial
  | merged add => trivial
  | levelled add => trivial

theorem Sound.goto_same {w v : World} (h : Sound w) {t : Nat} {x : Thread} (hs : Seen (v.goto t x))
    (hv : v.threads = w.threads) (hc : v.config = w.config) (hf : v.fault = none) (hx : LoadOk w.config x) :
    Sound (v.goto t x) := by
  refine ⟨hs, by show Consistent v.config; rw [hc]; exact h.cons, fun u => ?_, hf⟩
  show LoadOk v.config _
  rw [hc]
  by_cases e : u = t
  · subst e; rw [goto_self]; exact hx
  · rw [goto_other _ _ e, hv]; exact h.load u

theorem Sound.ret {w : World} (h : Sound w) {t : Nat} {e : Ev} (hs : Seen (w.ret t e)) : Sound (w.ret t e) := by
  refine ⟨hs, h.cons, fun u => ?_, h.fault⟩
  show LoadOk w.config ((w.goto t .idle).threads u)
  by_cases e : u = t
  · subst e; rw [goto_self]; trivial
  · rw [goto_other _ _ e]; exact h.load u

/-- Only one thread has the mutex. -/
theorem Seen.alone {w : World} (h : Seen w) {t u : Nat} (ht : w.lock = some t) (hu : u ≠ t) :
    (∀ add, w.threads u ≠ .locked add) ∧ ∀ add, w.threads u ≠ .typed add := by
  refine ⟨fun add e => ?_, fun add e => ?_⟩ <;>
  · have := h.threads u
    rw [e] at this
    have this : w.lock = some u := this
    rw [ht] at this; injection this with this; exact hu this.symm

theorem sound_next {w : World} (h : Sound w) (t : Nat) : Sound (goOn w t (w.threads t)) := by
  have hs := seen_goOn h.seen t
  have ht := h.load t
  have hseen := h.seen.threads t
  cases hx : w.threads t with
  | idle => exact h
  | found name i => exact h
  | locked add =>
    rw [hx] at hs ht hseen
    obtain ⟨hn, hio⟩ := ht
    cases hm : mergeMaps w.config.types add.types with
    | none =>
      obtain ⟨k, h1, h2⟩ := (mergeMaps_none _ _).mp hm
      exact absurd (hn.1 k h1) h2
    | some types =>
      have heq : goOn w t (.locked add) = World.goto { w with config := { w.config with types } } t (.typed add) := by
        simp only [goOn, hm]
      rw [heq] at hs ⊢
      have hk := keeps_types hm
      have hty : typeOf { w.config with types } = typesOfBoth w.config add := funext fun s => mergeMaps_some hm s
      refine ⟨hs, ?_, fun u => ?_, h.fault⟩
      · intro n i hi
        obtain ⟨a, ty, e, f⟩ := h.cons n i hi
        exact ⟨a, ty, hk.1 _ _ e, f⟩
      · by_cases e : u = t
        · subst e
          rw [goto_self]
          refine ⟨hn.2, fun n i hi => ?_⟩
          have := hio n i hi
          rw [← hty] at this
          exact this
        · rw [goto_other _ _ e]
          obtain ⟨a1, a2⟩ := h.seen.alone hseen e
          exact LoadOk.keeps hk (h.load u) a1 a2
  | typed add =>
    rw [hx] at hs ht hseen
    obtain ⟨hn, hio⟩ := ht
    cases hm : mergeMaps w.config.insts add.insts with
    | none =>
      obtain ⟨k, h1, h2⟩ := (mergeMaps_none _ _).mp hm
      exact absurd (hn k h1) h2
    | some insts =>
      have heq : goOn w t (.typed add) =
          World.goto { w with config := { w.config with insts }, lock := none } t (.merged add) := by
        simp only [goOn, hm]
      rw [heq] at hs ⊢
      have hk := keeps_insts hm
      refine ⟨hs, ?_, fun u => ?_, h.fault⟩
      · intro n i hi
        have hi : lookup insts n = some i := hi
        rw [mergeMaps_some hm] at hi
        cases hc : lookup w.config.insts n with
        | none => rw [hc] at hi; exact hio n i (by unfold instanceOf; simpa using hi)
        | some j =>
          rw [hc] at hi
          simp only [Option.some_or, Option.some.injEq] at hi
          subst hi
          exact h.cons n j hc
      · by_cases e : u = t
        · subst e; rw [goto_self]; trivial
        · rw [goto_other _ _ e]
          obtain ⟨a1, a2⟩ := h.seen.alone hseen e
          exact LoadOk.keeps hk (h.load u) a1 a2
  | merged add =>
    rw [hx] at hs
    have ha : (flatten w.config.insts).findSome? (fun p => checkAsil w.config.asil p.2) = none := by
      rw [List.findSome?_eq_none_iff]
      rintro ⟨n, i⟩ hm
      exact (checkAsil_none _ _).mpr (h.cons n i ((mem_flatten _ _ _).mp hm)).1
    have heq : goOn w t (.merged add) = w.goto t (.levelled add) := by simp only [goOn, ha]
    rw [heq] at hs ⊢
    exact h.goto_same hs rfl rfl h.fault trivial
  | levelled add =>
    rw [hx] at hs
    refine h.goto_same hs rfl rfl h.fault ?_
    intro i hi
    obtain ⟨⟨n, j⟩, hm, e⟩ := List.mem_map.mp hi
    have e : j = i := e
    subst e
    exact (h.cons n j ((mem_flatten _ _ _).mp hm)).2
  | checking add rest =>
    rw [hx] at hs ht
    cases rest with
    | nil => exact h.ret hs
    | cons i rest =>
      have hc : checkType (flatten w.config.types) i = none := by
        rw [checkType_none, find_flatten]
        exact ht i (by simp)
      have heq : goOn w t (.checking add (i :: rest)) = w.goto t (.checking add rest) := by simp only [goOn, hc]
      rw [heq] at hs ⊢
      exact h.goto_same hs rfl rfl h.fault fun j hj => ht j (List.mem_cons_of_mem _ hj)

theorem sound_step {w : World} (h : Sound w) (x : Step) (hf : Fair w x) : Sound (step w x) := by
  have hs := seen_step h.seen x
  have hnf : ¬ w.fault.isSome = true := by rw [h.fault]; simp
  unfold step at hs ⊢
  rw [if_neg hnf] at hs ⊢
  cases x with
  | find t name =>
    dsimp only at hs ⊢
    unfold goIdle at hs ⊢
    split
    · rename_i hx
      rw [hx] at hs
      dsimp only at hs
      unfold goFind at hs ⊢
      split
      · rename_i hl; rw [hl] at hs; exact h.ret hs
      · rename_i i hl; rw [hl] at hs; exact h.goto_same hs rfl rfl h.fault trivial
    · exact h
  | type t =>
    dsimp only at hs ⊢
    unfold goFound at hs ⊢
    split
    · rename_i name i hx
      rw [hx] at hs
      dsimp only at hs
      split
      · rename_i hl; rw [hl] at hs; exact h.ret hs
      · rename_i ty hl; rw [hl] at hs; exact h.ret hs
    · exact h
  | load t add =>
    dsimp only at hs ⊢
    unfold goIdle at hs ⊢
    split
    · rename_i hx
      rw [hx] at hs
      dsimp only at hs
      unfold goLoad at hs ⊢
      split
      · exact h
      · rename_i hl
        rw [hl] at hs
        exact h.goto_same hs rfl rfl h.fault (hf hx hl)
    · exact h
  | next t => exact sound_next h t

theorem sound_init {c : Config} (h : Consistent c) : Sound { config := c } :=
  ⟨⟨fun _ => trivial, fun _ h => absurd h (by simp)⟩, h, fun _ => trivial, rfl⟩

theorem sound_run {c : Config} (hc : Consistent c) (l : List Step) : AllFair c l → Sound (run c l) := by
  suffices h : ∀ n (l : List Step), l.length = n → AllFair c l → Sound (run c l) from h _ l rfl
  intro n
  induction n with
  | zero =>
    intro l hl _
    rw [List.eq_nil_of_length_eq_zero hl]
    exact sound_init hc
  | succ n ih =>
    intro l hl hf
    rcases List.eq_nil_or_concat l with rfl | ⟨l', x, rfl⟩
    · simp at hl
    · rw [List.concat_eq_append] at hl hf ⊢
      have hl' : l'.length = n := by simpa using hl
      rw [run_snoc]
      refine sound_step (ih l' hl' fun a y b e => hf a y (b ++ [x]) (by rw [e]; simp)) x ?_
      exact hf l' x [] rfl

/-- The answers that are given from here on. -/
def NewAnswers (w v : World) (name : String) (ids : List Ident) : Prop :=
  ∃ new, v.log = w.log ++ new ∧ ∀ t r, .resolved t name r ∈ new → r = ids

theorem step_answers {w : World} (h : Sound w) {name : String} {i : InstDep} {ty : TypeDep}
    (hi : instanceOf w.config name = some i) (hty : typeOf w.config i.service = some ty) (x : Step) :
    NewAnswers w (step w x) name [make i ty] := by
  have same : ∀ v : World, v.log = w.log → NewAnswers w v name [make i ty] := fun v hv =>
    ⟨[], by simp [hv], fun _ _ h => absurd h (by simp)⟩
  have one : ∀ (t : Nat) (e : Ev), (∀ u r, e = .resolved u name r → r = [make i ty]) →
      NewAnswers w (w.ret t e) name [make i ty] := fun t e he =>
    ⟨[e], rfl, fun u r hm => he u r (List.mem_singleton.mp hm).symm⟩
  unfold step
  rw [if_neg (by rw [h.fault]; simp)]
  cases x with
  | find t n =>
    dsimp only; unfold goIdle
    split
    · unfold goFind
      split
      · rename_i hl
        refine one t _ fun u r e => ?_
        injection e with _ e2 _
        subst e2
        unfold instanceOf at hi
        rw [hi] at hl; cases hl
      · exact same _ rfl
    · exact same _ rfl
  | type t =>
    dsimp only
    have ht := h.seen.threads t
    unfold goFound
    split
    · rename_i n j hx
      rw [hx] at ht
      have ht : instanceOf w.config n = some j := ht
      have key : n = name → j = i := by
        rintro rfl; rw [hi] at ht; injection ht with ht; exact ht.symm
      split
      · rename_i hl
        refine one t _ fun u r e => ?_
        injection e with _ e2 _
        have := key e2
        subst this
        unfold typeOf at hty
        rw [hty] at hl; cases hl
      · rename_i ty' hl
        refine one t _ fun u r e => ?_
        injection e with _ e2 e3
        have := key e2
        subst this
        unfold typeOf at hty
        rw [hty] at hl; injection hl with hl
        rw [← e3, hl]
    · exact same _ rfl
  | load t add =>
    dsimp only; unfold goIdle
    split
    · unfold goLoad; split <;> exact same _ rfl
    · exact same _ rfl
  | next t =>
    dsimp only; unfold goOn
    split
    · split <;> exact same _ rfl
    · split <;> exact same _ rfl
    · split <;> exact same _ rfl
    · exact same _ rfl
    · split <;> exact same _ rfl
    · exact one t _ fun u r e => by cases e
    · exact same _ rfl
    · exact same _ rfl

theorem foldl_answers {name : String} {i : InstDep} {ty : TypeDep} (l : List Step) :
    ∀ w : World, Sound w → (∀ a x b, l = a ++ x :: b → Fair (a.foldl step w) x) →
      instanceOf w.config name = some i → typeOf w.config i.service = some ty →
      NewAnswers w (l.foldl step w) name [make i ty] := by
  induction l with
  | nil => intro w _ _ _ _; exact ⟨[], by simp, fun _ _ h => absurd h (by simp)⟩
  | cons x l ih =>
    intro w h hf hi hty
    obtain ⟨n1, e1, a1⟩ := step_answers h hi hty x
    have hk := (keeps_step w x).1
    obtain ⟨n2, e2, a2⟩ := ih (step w x) (sound_step h x (hf [] x l rfl))
      (fun a y b e => hf (x :: a) y b (by rw [e]; rfl)) (hk.2 _ _ hi) (hk.1 _ _ hty)
    refine ⟨n1 ++ n2, by rw [List.foldl_cons, e2, e1, List.append_assoc], fun t r hm => ?_⟩
    rcases List.mem_append.mp hm with hm | hm
    · exact a1 t r hm
    · exact a2 t r hm

/-- A thread that checks instances and goes on alone comes to the end. -/
theorem checking_ends {add : Config} {t : Nat} (rest : List InstDep) : ∀ w : World, Sound w →
    w.threads t = .checking add rest → w.lock = none →
    .loaded t add ∈ ((List.replicate (rest.length + 1) (Step.next t)).foldl step w).log ∧
    ((List.replicate (rest.length + 1) (Step.next t)).foldl step w).threads t = .idle ∧
    ((List.replicate (rest.length + 1) (Step.next t)).foldl step w).lock = none := by
  induction rest with
  | nil =>
    intro w h hx hl
    show .loaded t add ∈ (step w (.next t)).log ∧ (step w (.next t)).threads t = .idle ∧ (step w (.next t)).lock = none
    unfold step
    rw [if_neg (by rw [h.fault]; simp)]
    dsimp only
    rw [hx]
    refine ⟨?_, goto_self _ _ _, hl⟩
    show _ ∈ w.log ++ [_]
    simp
  | cons i rest ih =>
    intro w h hx hl
    have hc : checkType (flatten w.config.types) i = none := by
      have := h.load t
      rw [hx] at this
      rw [checkType_none, find_flatten]
      exact this i (by simp)
    have heq : step w (.next t) = w.goto t (.checking add rest) := by
      unfold step
      rw [if_neg (by rw [h.fault]; simp)]
      dsimp only
      rw [hx]
      simp only [goOn, hc]
    have hs := sound_step h (.next t) trivial
    rw [List.length_cons, List.replicate_succ, List.foldl_cons]
    rw [heq] at hs ⊢
    exact ih _ hs (goto_self _ _ _) hl

end Verif.ConfigRun
