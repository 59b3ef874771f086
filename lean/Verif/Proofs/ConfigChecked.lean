import Verif.Proofs.ConfigRun

namespace Verif.ConfigRun
open Verif.Json Verif.Ident Verif.Config Verif.Spec.Ident Verif.Spec.Config

/-! ### What has been checked when an add-on is loaded -/

def TypesIn (c add : Config) : Prop := ∀ s ty, typeOf add s = some ty → typeOf c s = some ty

def LevelsOk (c add : Config) : Prop := ∀ n i, instanceOf add n = some i → (i.asil = .b → c.asil = .b)

def CheckOk (c : Config) : Thread → Prop
  | .typed add => TypesIn c add
  | .merged add => TypesIn c add
  | .levelled add => TypesIn c add ∧ LevelsOk c add
  | .checking add rest => TypesIn c add ∧ LevelsOk c add ∧
      ∀ n i, instanceOf add n = some i → i ∈ rest ∨ ∃ ty, typeOf c i.service = some ty ∧ Fits i ty
  | _ => True

def LoadedOk (c : Config) : Ev → Prop
  | .loaded _ add => TypesIn c add ∧ ∀ n i, instanceOf add n = some i → InOrder (typeOf c) c.asil i
  | _ => True

structure Checked (w : World) : Prop where
  threads : ∀ t, CheckOk w.config (w.threads t)
  log : ∀ e ∈ w.log, LoadedOk w.config e

theorem TypesIn.keeps {c c' add : Config} (h : Keeps c c') (ht : TypesIn c add) : TypesIn c' add :=
  fun s ty e => h.1 _ _ (ht s ty e)

theorem CheckOk.keeps {c c' : Config} (h : Keeps c c') (ha : c'.asil = c.asil) {x : Thread} (hx : CheckOk c x) :
    CheckOk c' x := by
  cases x with
  | idle => trivial
  | found name i => trivial
  | locked add => trivial
  | typed add => exact TypesIn.keeps h hx
  | merged add => exact TypesIn.keeps h hx
  | levelled add => exact ⟨TypesIn.keeps h hx.1, fun n i e => by rw [ha]; exact hx.2 n i e⟩
  | checking add rest =>
    refine ⟨TypesIn.keeps h hx.1, fun n i e => by rw [ha]; exact hx.2.1 n i e, fun n i e => ?_⟩
    rcases hx.2.2 n i e with h1 | ⟨ty, h1, h2⟩
    · exact Or.inl h1
    · exact Or.inr ⟨ty, h.1 _ _ h1, h2⟩

theorem LoadedOk.keeps {c c' : Config} (h : Keeps c c') (ha : c'.asil = c.asil) {e : Ev} (he : LoadedOk c e) :
    LoadedOk c' e := by
  cases e with
  | resolved t name ids => trivial
  | loaded t add =>
    refine ⟨TypesIn.keeps h he.1, fun n i hi => ?_⟩
    obtain ⟨h1, ty, h2, h3⟩ := he.2 n i hi
    exact ⟨by rw [ha]; exact h1, ty, h.1 _ _ h2, h3⟩

theorem Checked.goto {w : World} (h : Checked w) {t : Nat} {x : Thread} {v : World} (hv : v.threads = w.threads)
    (hk : Keeps w.config v.config) (ha : v.config.asil = w.config.asil) (hl : v.log = w.log) (hx : CheckOk v.config x) :
    Checked (v.goto t x) := by
  refine ⟨fun u => ?_, fun e he => ?_⟩
  · by_cases e : u = t
    · subst e; rw [goto_self]; exact hx
    · rw [goto_other _ _ e, hv]; exact CheckOk.keeps hk ha (h.threads u)
  · have : e ∈ w.log := by rw [← hl]; exact he
    exact LoadedOk.keeps hk ha (h.log e this)

theorem Checked.ret {w : World} (h : Checked w) (t : Nat) {e : Ev} (he : LoadedOk w.config e) : Checked (w.ret t e) := by
  have h1 := h.goto (t := t) (x := .idle) (v := w) rfl (Keeps.refl _) rfl rfl trivial
  refine ⟨h1.threads, fun e' he' => ?_⟩
  rcases List.mem_append.mp he' with he' | he'
  · exact h.log e' he'
  · rw [List.mem_singleton.mp he']; exact he

theorem Checked.fail {w : World} (h : Checked w) (f : Fault) : Checked (w.fail f) := ⟨h.threads, h.log⟩

theorem types_added {c add : Config} {types} (h : mergeMaps c.types add.types = some types) :
    TypesIn { c with types } add := by
  intro s ty hi
  unfold typeOf at hi ⊢
  show lookup types s = some ty
  rw [mergeMaps_some h]
  cases hc : lookup c.types s with
  | none => simpa using hi
  | some j =>
    have : mergeMaps c.types add.types = none := (mergeMaps_none _ _).mpr ⟨s, by rw [hi]; simp, by rw [hc]; simp⟩
    rw [this] at h; cases h

theorem mem_flatten_of_instance {c : Config} {n : String} {i : InstDep} (h : instanceOf c n = some i) :
    (n, i) ∈ flatten c.insts := by
  unfold instanceOf at h
  rw [← find_flatten] at h
  exact find_mem h

theorem checked_goOn {w : World} (hs : Seen w) (h : Checked w) (t : Nat) : Checked (goOn w t (w.threads t)) := by
  have ht := h.threads t
  have hsee := hs.threads t
  cases hx : w.threads t with
  | idle => exact h
  | found name i => exact h
  | locked add =>
    unfold goOn
    dsimp only
    split
    · exact h.fail _
    · rename_i types hm
      exact h.goto rfl (keeps_types hm) rfl rfl (types_added hm)
  | typed add =>
    rw [hx] at ht
    unfold goOn
    dsimp only
    split
    · exact h.fail _
    · rename_i insts hm
      exact h.goto rfl (keeps_insts hm) rfl rfl (TypesIn.keeps (keeps_insts hm) ht)
  | merged add =>
    rw [hx] at ht hsee
    unfold goOn
    dsimp only
    split
    · exact h.fail _
    · rename_i hn
      rw [List.findSome?_eq_none_iff] at hn
      refine h.goto rfl (Keeps.refl _) rfl rfl ⟨ht, fun n i hi => ?_⟩
      exact (checkAsil_none _ _).mp (hn _ (mem_flatten_of_instance (hsee n i hi)))
  | levelled add =>
    rw [hx] at ht hsee
    refine h.goto rfl (Keeps.refl _) rfl rfl ⟨ht.1, ht.2, fun n i hi => Or.inl ?_⟩
    exact List.mem_map.mpr ⟨(n, i), mem_flatten_of_instance (hsee n i hi), rfl⟩
  | checking add rest =>
    rw [hx] at ht
    cases rest with
    | nil =>
      refine h.ret t ⟨ht.1, fun n i hi => ⟨ht.2.1 n i hi, ?_⟩⟩
      rcases ht.2.2 n i hi with h1 | h1
      · cases h1
      · exact h1
    | cons j rest =>
      unfold goOn
      dsimp only
      split
      · exact h.fail _
      · rename_i hn
        refine h.goto rfl (Keeps.refl _) rfl rfl ⟨ht.1, ht.2.1, fun n i hi => ?_⟩
        rcases ht.2.2 n i hi with h1 | h1
        · rcases List.mem_cons.mp h1 with h1 | h1
          · subst h1
            obtain ⟨ty, h2, h3⟩ := (checkType_none _ _).mp hn
            rw [find_flatten] at h2
            exact Or.inr ⟨ty, h2, h3⟩
          · exact Or.inl h1
        · exact Or.inr h1

theorem checked_step {w : World} (hs : Seen w) (h : Checked w) (x : Step) : Checked (step w x) := by
  unfold step
  split
  · exact h
  · cases x with
    | find t name =>
      dsimp only
      unfold goIdle
      split
      · unfold goFind
        split
        · exact h.ret t trivial
        · exact h.goto rfl (Keeps.refl _) rfl rfl trivial
      · exact h
    | type t =>
      dsimp only
      unfold goFound
      split
      · split
        · exact h.ret t trivial
        · exact h.ret t trivial
      · exact h
    | load t add =>
      dsimp only
      unfold goIdle
      split
      · unfold goLoad
        split
        · exact h
        · exact h.goto rfl (Keeps.refl _) rfl rfl trivial
      · exact h
    | next t => exact checked_goOn hs h t

theorem checked_run (c : Config) (l : List Step) : Checked (run c l) := by
  have : ∀ (l : List Step) (w : World), Seen w → Checked w → Checked (l.foldl step w) := by
    intro l
    induction l with
    | nil => intro w _ h; exact h
    | cons x l ih => intro w hs h; exact ih _ (seen_step hs x) (checked_step hs h x)
  exact this l _ ⟨fun _ => trivial, fun _ h => absurd h (by simp)⟩ ⟨fun _ => trivial, fun _ h => absurd h (by simp)⟩

end Verif.ConfigRun
