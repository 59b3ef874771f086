import Verif.Spec.MethodRes
namespace Verif.MethodRes

theorem find_some {l : List (Nat × Nat)} {ctr r : Nat} (h : find l ctr = some r) : (ctr, r) ∈ l := by
  unfold find at h
  cases hf : l.find? (fun e => e.1 == ctr) with
  | none => rw [hf] at h; cases h
  | some e =>
    rw [hf] at h
    simp only [Option.map_some, Option.some.injEq] at h
    have h1 := List.mem_of_find?_eq_some hf
    have h2 := List.find?_some hf
    simp only [beq_iff_eq] at h2
    rw [← h2, ← h]; exact h1

theorem find_isSome {l : List (Nat × Nat)} {ctr : Nat} : (find l ctr).isSome ↔ ∃ r, (ctr, r) ∈ l := by
  constructor
  · intro h
    obtain ⟨r, hr⟩ := Option.isSome_iff_exists.mp h
    exact ⟨r, find_some hr⟩
  · rintro ⟨r, hr⟩
    unfold find
    rw [Option.isSome_map, List.find?_isSome]
    exact ⟨_, hr, by simp⟩

/-- Per application: at least one region, and at most one per proxy. -/
structure Wf (m : Map) : Prop where
  nonempty : ∀ app p, m app = some p → p.regions ≠ []
  unique : ∀ app p, m app = some p → ∀ c r r', (c, r) ∈ p.regions → (c, r') ∈ p.regions → r = r'

theorem wf_empty : Wf empty :=
  ⟨fun _ _ h => (nomatch h), fun _ _ h => (nomatch h)⟩

theorem find_of_mem {m : Map} (wf : Wf m) {app : Nat} {p : Proc} (h : m app = some p) {c r : Nat} (hm : (c, r) ∈ p.regions) :
    find p.regions c = some r := by
  obtain ⟨r', hr'⟩ := Option.isSome_iff_exists.mp (find_isSome.mpr ⟨r, hm⟩)
  rw [hr', wf.unique app p h c r' r (find_some hr') hm]

theorem at_iff {m : Map} (wf : Wf m) (app ctr r : Nat) : m.at app ctr = some r ↔ ∃ pid, m.Has ⟨app, ctr, pid, r⟩ := by
  unfold Map.at Map.Has
  constructor
  · intro h
    cases hp : m app with
    | none => rw [hp] at h; cases h
    | some p =>
      rw [hp] at h
      exact ⟨p.pid, p, hp, rfl, find_some h⟩
  · rintro ⟨pid, p, hp, _, hm⟩
    dsimp only at hp hm
    rw [hp]
    exact find_of_mem wf hp hm

theorem contains_iff (m : Map) (app ctr pid : Nat) : contains m app ctr pid = true ↔ ∃ r, m.Has ⟨app, ctr, pid, r⟩ := by
  unfold contains Map.Has
  cases hp : m app with
  | none =>
    dsimp only
    constructor
    · intro h; cases h
    · rintro ⟨r, p, h, _⟩; rw [hp] at h; cases h
  | some p =>
    dsimp only
    by_cases h : p.pid = pid
    · rw [if_neg (fun hn => hn h), find_isSome]
      constructor
      · rintro ⟨r, hr⟩; exact ⟨r, p, hp, h, hr⟩
      · rintro ⟨r, q, h1, _, h3⟩
        rw [hp] at h1; cases h1
        exact ⟨r, h3⟩
    · rw [if_pos h]
      constructor
      · intro h; cases h
      · rintro ⟨r, q, h1, h2, _⟩
        rw [hp] at h1; cases h1
        exact absurd h2 h

theorem wf_eraseCrashed {m : Map} (wf : Wf m) (app pid : Nat) : Wf (eraseCrashed m app pid) := by
  unfold eraseCrashed
  cases hp : m app with
  | none => exact wf
  | some p =>
    dsimp only
    split
    · constructor
      · intro a q h
        rw [upd_apply] at h
        split at h
        · cases h
        · exact wf.nonempty a q h
      · intro a q h
        rw [upd_apply] at h
        split at h
        · cases h
        · exact wf.unique a q h
    · exact wf

theorem has_eraseCrashed (m : Map) (app pid : Nat) (e : Entry) :
    (eraseCrashed m app pid).Has e ↔ m.Has e ∧ (app = e.app → pid = e.pid) := by
  unfold eraseCrashed Map.Has
  cases hp : m app with
  | none =>
    dsimp only
    constructor
    · rintro ⟨p, h1, h2⟩
      refine ⟨⟨p, h1, h2⟩, ?_⟩
      rintro rfl
      rw [hp] at h1; cases h1
    · exact fun h => h.1
  | some q =>
    dsimp only
    split
    · rename_i hne
      constructor
      · rintro ⟨p, h1, h2, h3⟩
        rw [upd_apply] at h1
        split at h1
        · cases h1
        · rename_i hna
          exact ⟨⟨p, h1, h2, h3⟩, fun h => absurd h.symm hna⟩
      · rintro ⟨⟨p, h1, h2, h3⟩, h4⟩
        refine ⟨p, ?_, h2, h3⟩
        rw [upd_apply, if_neg, h1]
        intro ha
        have hpe := h4 ha.symm
        rw [ha, hp] at h1
        cases h1
        exact hne (by rw [h2, hpe])
    · rename_i hne
      have hne : q.pid = pid := Decidable.not_not.mp hne
      constructor
      · rintro ⟨p, h1, h2, h3⟩
        refine ⟨⟨p, h1, h2, h3⟩, ?_⟩
        rintro rfl
        rw [hp] at h1; cases h1
        rw [← h2, hne]
      · exact fun h => h.1

/-- Inserting into a table without regions of another process of the application. -/
theorem has_insert {m : Map} (app ctr pid r : Nat) (hpid : ∀ p, m app = some p → p.pid = pid)
    (hno : ¬ ∃ r', m.Has ⟨app, ctr, pid, r'⟩) (e : Entry) :
    (insert m app ctr pid r).Has e ↔ m.Has e ∨ e = ⟨app, ctr, pid, r⟩ := by
  obtain ⟨ea, ec, ep, er⟩ := e
  unfold insert Map.Has
  dsimp only
  by_cases ha : ea = app
  · subst ha
    rw [upd_self]
    cases hp : m ea with
    | none =>
      simp only [Option.getD_none, Option.some.injEq, insertInner]
      constructor
      · rintro ⟨p, rfl, rfl, h3⟩
        simp [find] at h3
        obtain ⟨rfl, rfl⟩ := h3
        exact .inr rfl
      · rintro (⟨p, h, _⟩ | h)
        · cases h
        · simp only [Entry.mk.injEq, true_and] at h
          obtain ⟨rfl, rfl, rfl⟩ := h
          exact ⟨_, rfl, rfl, by simp [find]⟩
    | some q =>
      have hq := hpid q hp
      have hnf : ¬ (find q.regions ctr).isSome := by
        rw [find_isSome]
        rintro ⟨r', hr'⟩
        exact hno ⟨r', q, hp, hq, hr'⟩
      simp only [Option.getD_some, Option.some.injEq, insertInner, if_neg hnf]
      constructor
      · rintro ⟨p, rfl, rfl, h3⟩
        dsimp only at h3
        rcases List.mem_cons.mp h3 with h3 | h3
        · simp only [Prod.mk.injEq] at h3
          obtain ⟨rfl, rfl⟩ := h3
          exact .inr rfl
        · exact .inl ⟨q, rfl, hq, h3⟩
      · rintro (⟨p, rfl, h2, h3⟩ | h)
        · exact ⟨_, rfl, by dsimp only; rw [← hq, h2], List.mem_cons_of_mem _ h3⟩
        · simp only [Entry.mk.injEq, true_and] at h
          obtain ⟨rfl, rfl, rfl⟩ := h
          exact ⟨_, rfl, rfl, List.mem_cons_self ..⟩
  · rw [upd_ne _ _ ha]
    constructor
    · exact fun h => .inl h
    · rintro (h | h)
      · exact h
      · simp only [Entry.mk.injEq] at h
        exact absurd h.1 ha

theorem wf_insert {m : Map} (wf : Wf m) (app ctr pid r : Nat) : Wf (insert m app ctr pid r) := by
  have key : ∀ l : List (Nat × Nat), (∀ c x y, (c, x) ∈ l → (c, y) ∈ l → x = y) →
      insertInner l ctr r ≠ [] ∧ ∀ c x y, (c, x) ∈ insertInner l ctr r → (c, y) ∈ insertInner l ctr r → x = y := by
    intro l hl
    unfold insertInner
    split
    · rename_i hs
      refine ⟨?_, hl⟩
      rintro rfl
      simp [find] at hs
    · rename_i hs
      rw [find_isSome] at hs
      refine ⟨by simp, fun c x y hx hy => ?_⟩
      rcases List.mem_cons.mp hx with hx | hx <;> rcases List.mem_cons.mp hy with hy | hy
      · simp only [Prod.mk.injEq] at hx hy; rw [hx.2, hy.2]
      · simp only [Prod.mk.injEq] at hx
        exact absurd ⟨y, hx.1 ▸ hy⟩ hs
      · simp only [Prod.mk.injEq] at hy
        exact absurd ⟨x, hy.1 ▸ hx⟩ hs
      · exact hl c x y hx hy
  have hbase : ∀ c x y, (c, x) ∈ ((m app).getD ⟨0, []⟩).regions → (c, y) ∈ ((m app).getD ⟨0, []⟩).regions → x = y := by
    cases hp : m app with
    | none => intro c x y h; simp at h
    | some q => exact wf.unique app q hp
  constructor
  · intro a q h
    unfold insert at h
    rw [upd_apply] at h
    split at h
    · cases h; exact (key _ hbase).1
    · exact wf.nonempty a q h
  · intro a q h
    unfold insert at h
    rw [upd_apply] at h
    split at h
    · cases h; exact (key _ hbase).2
    · exact wf.unique a q h

theorem mem_filter_ctr {l : List (Nat × Nat)} {ctr c r : Nat} :
    (c, r) ∈ l.filter (fun e => e.1 != ctr) ↔ (c, r) ∈ l ∧ c ≠ ctr := by
  simp [List.mem_filter]

theorem has_remove (m : Map) (app ctr : Nat) (e : Entry) :
    (remove m app ctr).Has e ↔ m.Has e ∧ ¬ (app = e.app ∧ ctr = e.ctr) := by
  obtain ⟨ea, ec, ep, er⟩ := e
  unfold remove Map.Has
  dsimp only
  cases hp : m app with
  | none =>
    dsimp only
    constructor
    · rintro ⟨p, h1, h2⟩
      refine ⟨⟨p, h1, h2⟩, ?_⟩
      rintro ⟨rfl, _⟩
      rw [hp] at h1; cases h1
    · exact fun h => h.1
  | some q =>
    dsimp only
    by_cases ha : ea = app
    · subst ha
      rw [hp]
      split
      · rename_i hemp
        rw [upd_self]
        simp only [List.isEmpty_iff] at hemp
        constructor
        · rintro ⟨p, h, _⟩; cases h
        · rintro ⟨⟨p, h1, h2, h3⟩, h4⟩
          cases h1
          have : (ec, er) ∈ q.regions.filter (fun e => e.1 != ctr) := mem_filter_ctr.mpr ⟨h3, fun h => h4 ⟨rfl, h.symm⟩⟩
          rw [hemp] at this; cases this
      · rw [upd_self]
        constructor
        · rintro ⟨p, h1, h2, h3⟩
          cases h1
          obtain ⟨h3, h4⟩ := mem_filter_ctr.mp h3
          exact ⟨⟨q, rfl, h2, h3⟩, fun h => h4 h.2.symm⟩
        · rintro ⟨⟨p, h1, h2, h3⟩, h4⟩
          cases h1
          exact ⟨_, rfl, h2, mem_filter_ctr.mpr ⟨h3, fun h => h4 ⟨rfl, h.symm⟩⟩⟩
    · have hl : ∀ v, upd m app v ea = m ea := fun v => upd_ne _ _ ha
      split <;> rw [hl] <;>
      exact ⟨fun h => ⟨h, fun h' => ha h'.1.symm⟩, fun h => h.1⟩

theorem wf_remove {m : Map} (wf : Wf m) (app ctr : Nat) : Wf (remove m app ctr) := by
  unfold remove
  cases hp : m app with
  | none => exact wf
  | some p =>
    dsimp only
    split
    · constructor
      · intro a q h
        rw [upd_apply] at h
        split at h
        · cases h
        · exact wf.nonempty a q h
      · intro a q h
        rw [upd_apply] at h
        split at h
        · cases h
        · exact wf.unique a q h
    · rename_i hne
      constructor
      · intro a q h
        rw [upd_apply] at h
        split at h
        · cases h; simpa [List.isEmpty_iff] using hne
        · exact wf.nonempty a q h
      · intro a q h
        rw [upd_apply] at h
        split at h
        · cases h
          intro c r r' h1 h2
          exact wf.unique app p hp c r r' (mem_filter_ctr.mp h1).1 (mem_filter_ctr.mp h2).1
        · exact wf.unique a q h

/-- After the clean-up, only regions of this process are left for the application. -/
theorem pid_eraseCrashed (m : Map) (app pid : Nat) : ∀ p, eraseCrashed m app pid app = some p → p.pid = pid := by
  intro p h
  unfold eraseCrashed at h
  cases hp : m app with
  | none => rw [hp] at h; dsimp only at h; rw [hp] at h; cases h
  | some q =>
    rw [hp] at h
    dsimp only at h
    split at h
    · rw [upd_self] at h; cases h
    · rename_i hne
      rw [hp] at h; cases h
      exact Decidable.not_not.mp hne

/-- No operation terminates the process, and each changes the held regions as specified. -/
theorem step_spec {m : Map} (wf : Wf m) (h : List Op) (hh : ∀ e, m.Has e ↔ Held h e) (o : Op) :
    ∃ m', step m o = some m' ∧ Wf m' ∧ ∀ e, m'.Has e ↔ Held (o :: h) e := by
  cases o with
  | subscribe app ctr pid r =>
    unfold step
    dsimp only
    by_cases hc : contains m app ctr pid = true
    · rw [if_pos hc]
      refine ⟨m, rfl, wf, fun e => ?_⟩
      obtain ⟨r0, hr0⟩ := (contains_iff m app ctr pid).mp hc
      show _ ↔ (_ ∨ _)
      constructor
      · intro he
        refine .inl ⟨(hh e).mp he, fun ha => ?_⟩
        obtain ⟨p, h1, h2, _⟩ := hr0
        obtain ⟨p', h1', h2', _⟩ := he
        dsimp only at h1 h2
        rw [← ha, h1] at h1'
        cases h1'
        rw [← h2, h2']
      · rintro (⟨he, _⟩ | ⟨_, _, hno⟩)
        · exact (hh e).mpr he
        · exact absurd ⟨r0, (hh _).mp hr0⟩ hno
    · rw [if_neg hc]
      unfold cleanUp
      rw [if_neg hc]
      dsimp only
      have hno : ¬ ∃ r', m.Has ⟨app, ctr, pid, r'⟩ := fun h => hc ((contains_iff m app ctr pid).mpr h)
      cases r with
      | none =>
        refine ⟨_, rfl, wf_eraseCrashed wf app pid, fun e => ?_⟩
        rw [has_eraseCrashed, hh]
        show _ ↔ (_ ∨ _)
        constructor
        · exact .inl
        · rintro (h1 | ⟨_, h1, _⟩)
          · exact h1
          · cases h1
      | some r =>
        refine ⟨_, rfl, wf_insert (wf_eraseCrashed wf app pid) app ctr pid r, fun e => ?_⟩
        rw [has_insert app ctr pid r (pid_eraseCrashed m app pid)
          (by rintro ⟨r', h'⟩; exact hno ⟨r', ((has_eraseCrashed m app pid _).mp h').1⟩), has_eraseCrashed, hh]
        show _ ↔ (_ ∨ _)
        constructor
        · rintro (h1 | rfl)
          · exact .inl h1
          · exact .inr ⟨rfl, rfl, fun ⟨r', h'⟩ => hno ⟨r', (hh _).mpr h'⟩⟩
        · rintro (h1 | ⟨h1, h2, _⟩)
          · exact .inl h1
          · cases h2; exact .inr h1
  | unsubscribe app ctr =>
    refine ⟨_, rfl, wf_remove wf app ctr, fun e => ?_⟩
    rw [has_remove, hh]
    rfl
  | stopOffer =>
    refine ⟨_, rfl, wf_empty, fun e => ?_⟩
    show (empty).Has e ↔ False
    simp [empty, Map.Has]

theorem run_spec (ops : List Op) : ∀ {m : Map} (_ : Wf m) (h : List Op) (_ : ∀ e, m.Has e ↔ Held h e),
    ∃ m', run m ops = some m' ∧ Wf m' ∧ ∀ e, m'.Has e ↔ Held (ops.reverse ++ h) e := by
  induction ops with
  | nil => exact fun wf h hh => ⟨_, rfl, wf, hh⟩
  | cons o os ih =>
    intro m wf h hh
    obtain ⟨m', h1, h2, h3⟩ := step_spec wf h hh o
    obtain ⟨m'', g1, g2, g3⟩ := ih h2 (o :: h) h3
    refine ⟨m'', ?_, g2, ?_⟩
    · simp only [run, h1, Option.bind_some]; exact g1
    · intro e
      rw [g3 e]
      simp

theorem empty_spec (e : Entry) : (empty).Has e ↔ Held [] e := by simp [empty, Map.Has, Held]

end Verif.MethodRes
