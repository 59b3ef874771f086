import Verif.Proofs.ConfigChecked

namespace Verif.Demo.C100
open Verif.Ident Verif.Config Verif.Spec.Config

def radar : Service := ⟨"radar", 1, 0⟩
def lidar : Service := ⟨"lidar", 1, 0⟩

/-- A service type with the event "scan" and the field "rate". -/
def type : TypeDep := .lola { id := 1, events := [("scan", 1)], fields := [("rate", 2)], methods := [("reset", 3)] }

/-- An instance of a service, with these events and methods. -/
def inst (s : Service) (q : Quality) (events methods : List String) (name : String) : InstDep :=
  { service := s, asil := q, specifier := name
    binding := .lola { id := some 1, shmSize := none, ctlBSize := none, ctlQmSize := none
                       events := events.map fun e => (e, { slots := some 4, subscribers := some 2, allocations := none, enforce := true, tracing := 0 })
                       fields := [], methods := methods.map fun m => (m, { queue := some 1, enabled := true })
                       strict := false, consumers := [], providers := [], interVm := false, forwarded := false } }

/-- A process of quality QM with a radar. -/
def config : Config := { types := [[(radar, type)]], insts := [[("/radar", inst radar .qm ["scan"] [] "/radar")]], asil := .qm }

/-- A lidar, and a second radar. -/
def extra : Config :=
  { types := [[(lidar, type)]]
    insts := [[("/lidar", inst lidar .qm ["scan"] [] "/lidar"), ("/radar2", inst radar .qm [] [] "/radar2")]], asil := .b }

theorem consistent : Consistent config := (validate_none config).mp (by decide +kernel)

/-- Extending succeeds. -/
theorem loads : (addon config extra).isSome = true := by decide +kernel

end Verif.Demo.C100

namespace Verif.Props.C100
open Verif.Ident Verif.Config Verif.Spec.Ident Verif.Spec.Config

/-- An add-on is loaded just if it is compatible: no service type and no instance of it is there already, and each
instance of it is in order with the types of both.  Otherwise the process is terminated, as documented. -/
theorem loaded_iff_compatible (c add : Config) (hc : Consistent c) :
    (∃ c', addon c add = some c') ↔ Compatible c add := by
  constructor
  · rintro ⟨c', h⟩
    obtain ⟨hn, e, hcon⟩ := addon_some.mp h
    subst e
    have hu := merge_union ((merge_ok_iff c add).mpr hn)
    exact ⟨hn, (IsUnion.consistent_iff hu hn hc).mp hcon⟩
  · rintro ⟨hn, h⟩
    have hu := merge_union ((merge_ok_iff c add).mpr hn)
    exact ⟨_, addon_some.mpr ⟨hn, rfl, (IsUnion.consistent_iff hu hn hc).mpr h⟩⟩

example : Consistent Demo.C100.config ∧ Compatible Demo.C100.config Demo.C100.extra :=
  ⟨Demo.C100.consistent, (loaded_iff_compatible _ _ Demo.C100.consistent).mp
    (Option.isSome_iff_exists.mp Demo.C100.loads)⟩

/-- Afterwards the configuration has the entries of both and nothing else, the quality of the process is unchanged,
and it is consistent. -/
theorem loaded_is_union (c add c' : Config) (h : addon c add = some c') : IsUnion c add c' ∧ Consistent c' := by
  obtain ⟨hn, e, hcon⟩ := addon_some.mp h
  subst e
  exact ⟨merge_union ((merge_ok_iff c add).mpr hn), hcon⟩

/-- A merge that fails keeps what is there and adds no instance; it may leave service types behind. -/
theorem failed_merge_keeps (c add : Config) (h : (merge c add).1 ≠ .ok) :
    ¬ NoClash c add ∧ Keeps c (merge c add).2 ∧ (∀ n, instanceOf (merge c add).2 n = instanceOf c n) ∧
      ∀ s t, typeOf (merge c add).2 s = some t → typeOf c s = some t ∨ typeOf add s = some t := by
  refine ⟨fun hn => h ((merge_ok_iff c add).mpr hn), merge_keeps c add, ?_, ?_⟩
  · intro n
    unfold merge at h ⊢
    split
    · rfl
    · rename_i types ht
      rw [ht] at h
      dsimp only at h
      split
      · rfl
      · rename_i insts hi
        rw [hi] at h
        exact absurd rfl h
  · intro s t hs
    unfold merge at h hs
    split at hs
    · exact Or.inl hs
    · rename_i types ht
      have key : typeOf { c with types } s = some t → typeOf c s = some t ∨ typeOf add s = some t := by
        intro hs
        have hs : Ident.lookup types s = some t := hs
        rw [mergeMaps_some ht] at hs
        rcases Option.or_eq_some_iff.mp hs with h | ⟨-, h⟩
        · exact Or.inl h
        · exact Or.inr h
      split at hs
      · exact key hs
      · exact key hs

example : (merge Demo.C100.config { Demo.C100.extra with insts := Demo.C100.config.insts }).1 = .duplicateInstance ∧
    typeOf (merge Demo.C100.config { Demo.C100.extra with insts := Demo.C100.config.insts }).2 Demo.C100.lidar ≠ none :=
  ⟨by decide +kernel, by decide +kernel⟩

/-- What is configured once stays as it is, whatever add-ons are loaded and identifiers are created. -/
theorem entries_stay (c c' : Config) (l : List Change) (h : changes c l = some c') : Keeps c c' := changes_keeps l h

/-- A name that resolves to an identifier resolves to it ever after. -/
theorem names_stay (c c' : Config) (l : List Change) (h : changes c l = some c') (name : String)
    (hr : resolve c name ≠ []) : resolve c' name = resolve c name := by
  have hk := changes_keeps l h
  unfold resolve at hr ⊢
  split at hr
  · exact absurd rfl hr
  · rename_i i hi
    rw [show Ident.lookup c'.insts name = some i from hk.2 _ _ hi]
    dsimp only
    split at hr
    · exact absurd rfl hr
    · rename_i t ht
      rw [show Ident.lookup c'.types i.service = some t from hk.1 _ _ ht]

example : (changes Demo.C100.config [.addon Demo.C100.extra]).isSome = true ∧ resolve Demo.C100.config "/radar" ≠ [] :=
  ⟨by decide +kernel, by
    have : (resolve Demo.C100.config "/radar").isEmpty = false := by decide +kernel
    intro h; rw [h] at this; cases this⟩

/-- A name resolves to the deployments that are configured for it, to one identifier if there are both, to none
otherwise. -/
theorem resolves_to (c : Config) (name : String) (x : Ident) :
    x ∈ resolve c name ↔ ∃ i t, instanceOf c name = some i ∧ typeOf c i.service = some t ∧ x = make i t := by
  unfold resolve instanceOf typeOf
  split
  · rename_i h; rw [h]; simp
  · rename_i i h
    split
    · rename_i ht
      rw [h]
      constructor
      · intro hx; cases hx
      · rintro ⟨j, t, e, e2, -⟩
        injection e with e; subst e; rw [ht] at e2; cases e2
    · rename_i t ht
      rw [h]
      constructor
      · intro hx; exact ⟨i, t, rfl, ht, List.mem_singleton.mp hx⟩
      · rintro ⟨j, u, e, e2, rfl⟩
        injection e with e; subst e
        rw [ht] at e2; injection e2 with e2; subst e2
        exact List.mem_singleton.mpr rfl

/-- In a consistent configuration just the configured names resolve. -/
theorem configured_resolve (c : Config) (hc : Consistent c) (name : String) :
    resolve c name ≠ [] ↔ instanceOf c name ≠ none := by
  constructor
  · intro h e
    apply h
    unfold resolve
    rw [show Ident.lookup c.insts name = none from e]
  · intro h e
    obtain ⟨i, hi⟩ := Option.ne_none_iff_exists'.mp h
    obtain ⟨-, t, ht, -⟩ := hc name i hi
    have := (resolves_to c name (make i t)).mpr ⟨i, t, hi, ht, rfl⟩
    rw [e] at this; cases this

/-- **Violated.**  An identifier that is created from text is not checked: one of quality ASIL-B in a QM process makes
the next add-on terminate the process, even an empty one. -/
theorem created_breaks_addon_fails : ∃ c text c', Consistent c ∧ change c (.create text) = some c' ∧
    Compatible c { types := [[]], insts := [[]], asil := .qm } ∧ changes c [.create text, .addon { types := [[]], insts := [[]], asil := .qm }] = none := by
  refine ⟨Demo.C100.config, (make (Demo.C100.inst Demo.C100.lidar .b [] [] "/lidar") Demo.C100.type).text, ?_⟩
  have hsome : (change Demo.C100.config
      (.create (make (Demo.C100.inst Demo.C100.lidar .b [] [] "/lidar") Demo.C100.type).text)).isSome = true := by decide +kernel
  obtain ⟨c', h⟩ := Option.isSome_iff_exists.mp hsome
  refine ⟨c', Demo.C100.consistent, h, ?_, ?_⟩
  · refine ⟨⟨fun s h => absurd rfl h, fun s h => absurd rfl h⟩, fun n i h => ?_⟩
    cases h
  · have hn : (changes Demo.C100.config [.create (make (Demo.C100.inst Demo.C100.lidar .b [] [] "/lidar") Demo.C100.type).text,
        .addon { types := [[]], insts := [[]], asil := .qm }]).isSome = false := by decide +kernel
    exact Option.not_isSome_iff_eq_none.mp (by rw [hn]; simp)

end Verif.Props.C100

namespace Verif.Props.C101
open Verif.Ident Verif.Config Verif.Spec.Ident Verif.Spec.Config

/-- A configuration is accepted just if each instance is in order: its service type is configured, the events and
fields it has are those of the type, both have a supported binding, and it is not ASIL-B unless the process is. -/
theorem accepted_iff_consistent (c : Config) : validate c = none ↔ Consistent c := validate_none c

example : Consistent Demo.C100.config := Demo.C100.consistent

/-- The error names a fault that is there. -/
theorem error_is_there (c : Config) (e : Invalid) (h : validate c = some e) :
    ∃ name i, instanceOf c name = some i ∧
      match e with
      | .asil => i.asil = .b ∧ c.asil ≠ .b
      | .typeReference => typeOf c i.service = none
      | .instanceBinding => i.binding = .blank
      | .typeBinding => typeOf c i.service = some .blank
      | .eventReference => ∃ d l, i.binding = .lola d ∧ typeOf c i.service = some (.lola l) ∧ ¬ NamesIn d.events l.events
      | .fieldReference => ∃ d l, i.binding = .lola d ∧ typeOf c i.service = some (.lola l) ∧ ¬ NamesIn d.fields l.fields := by
  unfold validate at h
  have h : (flatten c.insts).findSome? (fun p => checkAsil c.asil p.2) = some e ∨
      (flatten c.insts).findSome? (fun p => checkType (flatten c.types) p.2) = some e := by
    split at h
    · rename_i e' he; injection h with h; subst h; exact Or.inl he
    · exact Or.inr h
  rcases h with h | h
  · obtain ⟨⟨name, i⟩, hm, hi⟩ := List.exists_of_findSome?_eq_some h
    refine ⟨name, i, (mem_flatten _ _ _).mp hm, ?_⟩
    unfold checkAsil at hi
    split at hi
    · rename_i hb
      injection hi with hi
      subst hi
      simp only [Bool.and_eq_true, beq_iff_eq, bne_iff_ne] at hb
      exact hb
    · cases hi
  · obtain ⟨⟨name, i⟩, hm, hi⟩ := List.exists_of_findSome?_eq_some h
    refine ⟨name, i, (mem_flatten _ _ _).mp hm, ?_⟩
    unfold checkType at hi
    rw [find_flatten] at hi
    dsimp only at hi
    unfold typeOf
    split at hi
    · rename_i ht; injection hi with hi; subst hi; exact ht
    · rename_i t ht
      split at hi
      · rename_i hb; injection hi with hi; subst hi; exact hb
      · rename_i d hb; injection hi with hi; subst hi; exact ht
      · rename_i d l hb
        split at hi
        · rename_i he
          injection hi with hi; subst hi
          refine ⟨d, l, hb, ht, fun hn => ?_⟩
          rw [(allIn_iff _ _).mpr hn] at he; simp at he
        · split at hi
          · rename_i he
            injection hi with hi; subst hi
            refine ⟨d, l, hb, ht, fun hn => ?_⟩
            rw [(allIn_iff _ _).mpr hn] at he; simp at he
          · cases hi

/-- A process that is started with a configuration, and goes on, has a consistent one, with whatever add-ons. -/
theorem started_is_consistent (parsed c c' : Config) (l : List Config) (h : startWith parsed = some c)
    (hl : changes c (l.map .addon) = some c') : Consistent c' := by
  have hc : Consistent c := by
    unfold startWith at h
    split at h
    · rename_i hv
      injection h with h
      subst h
      exact (validate_none _).mp hv
    · cases h
  clear h
  induction l generalizing c with
  | nil => simp only [List.map_nil, changes, Option.some.injEq] at hl; subst hl; exact hc
  | cons add l ih =>
    rw [List.map_cons, changes] at hl
    split at hl
    · cases hl
    · rename_i c1 h1
      exact ih c1 hl (addon_some.mp h1).2.2

example : (startWith Demo.C100.config).isSome = true ∧
    (changes Demo.C100.config ([Demo.C100.extra].map .addon)).isSome = true := ⟨by decide +kernel, by decide +kernel⟩

/-- **Violated.**  The default configuration, which is used when the application does not call `InitializeRuntime`, is
not checked at all: it may have an instance without a service type, which does not resolve. -/
theorem default_is_not_checked_fails : ∃ parsed c, startDefault parsed = some c ∧ startWith parsed = none ∧
    ¬ Consistent c ∧ instanceOf c "/radar" ≠ none ∧ resolve c "/radar" = [] := by
  refine ⟨{ Demo.C100.config with types := [[]] }, { Demo.C100.config with types := [[]] }, rfl, ?_, ?_, ?_, rfl⟩
  · exact Option.not_isSome_iff_eq_none.mp (by decide +kernel)
  · intro h
    have := (validate_none _).mpr h
    exact absurd this (by decide +kernel)
  · decide +kernel

/-- **Violated.**  Methods are not checked: an instance may have a method that its type does not have. -/
theorem methods_are_not_checked_fails : ∃ c name i t, validate c = none ∧ instanceOf c name = some i ∧
    typeOf c i.service = some t ∧ ¬ MethodsFit i t := by
  refine ⟨{ Demo.C100.config with insts := [[("/radar", Demo.C100.inst Demo.C100.radar .qm [] ["stop"] "/radar")]] }, "/radar",
    Demo.C100.inst Demo.C100.radar .qm [] ["stop"] "/radar", Demo.C100.type, by decide +kernel, by decide +kernel, by decide +kernel, ?_⟩
  intro h
  exact absurd (h _ _ rfl rfl "stop" (by decide +kernel)) (by decide +kernel)

end Verif.Props.C101

namespace Verif.Demo.C102
open Verif.Ident Verif.Config Verif.Spec.Config Verif.ConfigRun

/-- Thread 1 loads the add-on; when its types are there, thread 2 asks for the lidar; then for the radar. -/
def mixed : List Step :=
  [.load 1 C100.extra, .find 3 "/radar", .next 1, .find 2 "/lidar", .next 1, .find 2 "/lidar", .next 1, .type 2, .next 1, .type 3]

theorem fair : AllFair C100.config mixed := by
  intro a x b e
  match x with
  | .find _ _ => trivial
  | .type _ => trivial
  | .next _ => trivial
  | .load t add =>
    have hm : Step.load t add ∈ mixed := by rw [e]; simp
    simp only [mixed, List.mem_cons, Step.load.injEq, reduceCtorEq, List.not_mem_nil, or_false, false_or] at hm
    obtain ⟨rfl, rfl⟩ := hm
    cases a with
    | nil =>
      intro _ _
      exact (Props.C100.loaded_iff_compatible _ _ C100.consistent).mp (Option.isSome_iff_exists.mp C100.loads)
    | cons y a =>
      exfalso
      have e2 : mixed.tail = a ++ .load 1 C100.extra :: b := by rw [e]; rfl
      have hm : Step.load 1 C100.extra ∈ mixed.tail := by rw [e2]; simp
      simp [mixed] at hm

end Verif.Demo.C102

namespace Verif.Props.C102
open Verif.Ident Verif.Config Verif.Spec.Config Verif.ConfigRun

/-- Once a name is configured, each answer of `resolve`, on whatever thread and however its loads fall between the stores
of threads that load compatible add-ons, is its identifier. -/
theorem known_names_resolve (c : Config) (hc : Consistent c) (l later : List Step) (hf : AllFair c (l ++ later))
    (name : String) (i : InstDep) (hi : instanceOf (run c l).config name = some i) :
    ∃ ty new, typeOf (run c l).config i.service = some ty ∧ (run c (l ++ later)).log = (run c l).log ++ new ∧
      ∀ t ids, .resolved t name ids ∈ new → ids = [make i ty] := by
  have hs := sound_run hc l fun a x b e => hf a x (b ++ later) (by rw [e]; simp)
  obtain ⟨-, ty, hty, -⟩ := hs.cons name i hi
  obtain ⟨new, e, h⟩ := foldl_answers (name := name) (i := i) (ty := ty) later (run c l) hs
    (fun a x b e => by
      have := hf (l ++ a) x b (by rw [e]; simp)
      rw [run_append] at this
      exact this) hi hty
  exact ⟨ty, new, hty, by rw [run_append]; exact e, h⟩

example : AllFair Demo.C100.config Demo.C102.mixed ∧ Consistent Demo.C100.config ∧
    (run Demo.C100.config Demo.C102.mixed).log.length = 3 := ⟨Demo.C102.fair, Demo.C100.consistent, by decide +kernel⟩

/-- Whatever is loaded, compatible or not: an answer that is an identifier is made of the deployments that the
configuration has for the name, then and ever after. -/
theorem answers_are_right (c : Config) (l : List Step) (t : Nat) (name : String) (ids : List Ident)
    (h : .resolved t name ids ∈ (run c l).log) :
    ids = [] ∨ ∃ i ty, instanceOf (run c l).config name = some i ∧ typeOf (run c l).config i.service = some ty ∧
      ids = [make i ty] := (seen_run c l).log _ h

/-- When the loading of an add-on has returned, its instances are configured, for good. -/
theorem loaded_is_there (c : Config) (l : List Step) (t : Nat) (add : Config) (h : .loaded t add ∈ (run c l).log)
    (name : String) (i : InstDep) (hi : instanceOf add name = some i) : instanceOf (run c l).config name = some i :=
  (seen_run c l).log _ h name i hi

/-- Whatever is loaded, compatible or not: an add-on whose loading has returned has been checked.  Its types are
configured, and each of its instances is in order. -/
theorem loaded_is_checked (c : Config) (l : List Step) (t : Nat) (add : Config) (h : .loaded t add ∈ (run c l).log) :
    (∀ s ty, typeOf add s = some ty → typeOf (run c l).config s = some ty) ∧
    ∀ name i, instanceOf add name = some i → InOrder (typeOf (run c l).config) (run c l).config.asil i :=
  (checked_run c l).log _ h

/-- What is configured stays as it is, at every moment of every loading. -/
theorem entries_stay (c : Config) (l later : List Step) : Keeps (run c l).config (run c (l ++ later)).config := by
  rw [run_append]; exact (keeps_foldl later _).1

/-- Threads that load compatible add-ons at the same time do not terminate the process, and at every moment each
instance that is there has its type. -/
theorem no_termination (c : Config) (hc : Consistent c) (l : List Step) (hf : AllFair c l) :
    (run c l).fault = none ∧ Consistent (run c l).config :=
  ⟨(sound_run hc l hf).fault, (sound_run hc l hf).cons⟩

/-- A thread that has begun to load a compatible add-on and goes on does come back, and the next one can load. -/
theorem loading_ends (c : Config) (hc : Consistent c) (l : List Step) (hf : AllFair c l) (t : Nat) (add : Config)
    (hi : (run c l).threads t = .idle) (hl : (run c l).lock = none) (hcom : Compatible (run c l).config add) :
    ∃ n, .loaded t add ∈ (run c (l ++ .load t add :: List.replicate n (.next t))).log ∧
      (run c (l ++ .load t add :: List.replicate n (.next t))).threads t = .idle ∧
      (run c (l ++ .load t add :: List.replicate n (.next t))).lock = none := by
  have h0 := sound_run hc l hf
  have h1 := sound_step h0 (.load t add) fun _ _ => hcom
  have hn : ∀ w : World, Sound w → ¬ w.fault.isSome = true := fun w h => by rw [h.fault]; simp
  have e1 : (step (run c l) (.load t add)).threads t = .locked add := by
    unfold step
    rw [if_neg (hn _ h0)]
    dsimp only
    rw [hi]
    dsimp only [goIdle]
    unfold goLoad
    rw [hl]
    exact goto_self _ _ _
  generalize hw1 : step (run c l) (.load t add) = w1 at h1 e1
  have h2 := sound_step h1 (.next t) trivial
  have e2 : (step w1 (.next t)).threads t = .typed add := by
    have hok := h1.load t
    rw [e1] at hok
    unfold step
    rw [if_neg (hn _ h1)]
    dsimp only
    rw [e1]
    unfold goOn
    dsimp only
    split
    · rename_i hm
      obtain ⟨k, a, b⟩ := (mergeMaps_none _ _).mp hm
      exact absurd (hok.1.1 k a) b
    · exact goto_self _ _ _
  generalize hw2 : step w1 (.next t) = w2 at h2 e2
  have h3 := sound_step h2 (.next t) trivial
  have e3 : (step w2 (.next t)).threads t = .merged add ∧ (step w2 (.next t)).lock = none := by
    have hok := h2.load t
    rw [e2] at hok
    unfold step
    rw [if_neg (hn _ h2)]
    dsimp only
    rw [e2]
    unfold goOn
    dsimp only
    split
    · rename_i hm
      obtain ⟨k, a, b⟩ := (mergeMaps_none _ _).mp hm
      exact absurd (hok.1 k a) b
    · exact ⟨goto_self _ _ _, rfl⟩
  generalize hw3 : step w2 (.next t) = w3 at h3 e3
  obtain ⟨e3, l3⟩ := e3
  have h4 := sound_step h3 (.next t) trivial
  have e4 : (step w3 (.next t)).threads t = .levelled add ∧ (step w3 (.next t)).lock = none := by
    have hf4 := h4.fault
    unfold step at hf4 ⊢
    rw [if_neg (hn _ h3)] at hf4 ⊢
    dsimp only at hf4 ⊢
    rw [e3] at hf4 ⊢
    unfold goOn at hf4 ⊢
    dsimp only at hf4 ⊢
    split
    · rename_i x hx
      rw [hx] at hf4; cases hf4
    · exact ⟨goto_self _ _ _, l3⟩
  generalize hw4 : step w3 (.next t) = w4 at h4 e4
  obtain ⟨e4, l4⟩ := e4
  have h5 := sound_step h4 (.next t) trivial
  have e5 : (step w4 (.next t)).threads t = .checking add ((Config.flatten w4.config.insts).map Prod.snd) ∧
      (step w4 (.next t)).lock = none := by
    unfold step
    rw [if_neg (hn _ h4)]
    dsimp only
    rw [e4]
    exact ⟨goto_self _ _ _, l4⟩
  have h6 := checking_ends _ _ h5 e5.1 e5.2
  refine ⟨((Config.flatten w4.config.insts).map Prod.snd).length + 1 + 1 + 1 + 1 + 1, ?_⟩
  rw [run_append, List.foldl_cons, hw1, List.replicate_succ, List.foldl_cons, hw2, List.replicate_succ, List.foldl_cons, hw3,
    List.replicate_succ, List.foldl_cons, hw4, List.replicate_succ, List.foldl_cons]
  exact h6

example : (run Demo.C100.config []).threads 1 = .idle ∧ (run Demo.C100.config []).lock = none := ⟨rfl, rfl⟩

end Verif.Props.C102
