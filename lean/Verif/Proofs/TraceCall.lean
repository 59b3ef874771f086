import Verif.Spec.TraceCall

namespace Verif.TraceCall
open Verif.TraceCallSpec

@[simp] theorem pc_setPc (s : St) (t u : Nat) (p : Pc) : (s.setPc t p).pc u = if u = t then p else s.pc u := rfl
@[simp] theorem pc_add (s : St) (e : Ev) : (s.add e).pc = s.pc := rfl
@[simp] theorem pc_elemOff (s : St) (p : Point) : (s.elemOff p).pc = s.pc := rfl
@[simp] theorem pc_pointOff (s : St) (p : Point) : (s.pointOff p).pc = s.pc := rfl
@[simp] theorem log_setPc (s : St) (t : Nat) (p : Pc) : (s.setPc t p).log = s.log := rfl
@[simp] theorem log_add (s : St) (e : Ev) : (s.add e).log = s.log ++ [e] := rfl

/-- What an operation does. -/
inductive Does (s : St) : Op → St → Prop where
  | same (o : Op) : Does s o s
  | died (o : Op) : Does s o { s with dead := true }
  | registered (i fd st h : Nat) (he : s.enabled = true) (hn : s.handles i = none) :
      Does s (.register i fd st h .ok) ((s.setHandle i (some (h, st))).add (.registered i h st))
  | registerFatal (i fd st h : Nat) (he : s.enabled = true) :
      Does s (.register i fd st h .terminal) ({ s with enabled := false }.add .fatal)
  | cached (i fd st h : Nat) (he : s.enabled = true) :
      Does s (.register i fd st h .recoverable) ((s.setCache (.shm i) (some (fd, st))).add (.registerFailed i))
  | uncached (i : Nat) (a : Answer) (he : s.enabled = true) (hn : s.handles i = none) :
      Does s (.unregister i a) (s.setCache (.shm i) none)
  | unregistered (i : Nat) (a : Answer) (he : s.enabled = true) (ha : a ≠ .terminal) :
      Does s (.unregister i a) ((s.setHandle i none).add (.unregistered i))
  | unregisterFatal (i : Nat) (he : s.enabled = true) :
      Does s (.unregister i .terminal) ({ ((s.setHandle i none).add (.unregistered i)) with enabled := false }.add .fatal)
  | trace (t : Nat) (p : Point) (x : Option Nat) (hp : s.pc t = .idle) (ho : s.on p = true) :
      Does s (.trace t p x) (s.setPc t (.enter p x))
  | disabled (t : Nat) (sl : Bool) (a : Answer) (h : Nat) (p : Point) (x : Option Nat) (hp : s.pc t = .enter p x)
      (he : s.enabled = false) : Does s (.next t sl a h) ((s.elemOff p).setPc t .idle)
  | enterLocal (t : Nat) (sl : Bool) (a : Answer) (h : Nat) (p : Point) (hp : s.pc t = .enter p none)
      (he : s.enabled = true) : Does s (.next t sl a h) (s.setPc t (.info p .loc))
  | enterShm (t : Nat) (sl : Bool) (a : Answer) (h : Nat) (p : Point) (x g st : Nat) (hp : s.pc t = .enter p (some x))
      (he : s.enabled = true) (hh : s.handles p.inst = some (g, st)) :
      Does s (.next t sl a h) (s.setPc t (.info p (.shm g (x - st) x)))
  | missing (t : Nat) (sl : Bool) (a : Answer) (h : Nat) (p : Point) (x : Nat) (hp : s.pc t = .enter p (some x))
      (he : s.enabled = true) (hh : s.handles p.inst = none) (hc : s.cache (.elem p.inst p.elem) = none) :
      Does s (.next t sl a h) (((s.pointOff p).setPc t .idle).add (.missing p))
  | retryFatal (t : Nat) (sl : Bool) (a : Answer) (h : Nat) (p : Point) (x : Nat) (hp : s.pc t = .enter p (some x))
      (he : s.enabled = true) (hc : s.cache (.elem p.inst p.elem) ≠ none) :
      Does s (.next t sl a h) (({ (s.elemOff p) with enabled := false }.setPc t .idle).add .fatal)
  | retryFailed (t : Nat) (sl : Bool) (a : Answer) (h : Nat) (p : Point) (x : Nat) (hp : s.pc t = .enter p (some x))
      (he : s.enabled = true) (hc : s.cache (.elem p.inst p.elem) ≠ none) :
      Does s (.next t sl a h) ((((s.setCache (.elem p.inst p.elem) none).pointOff p).setPc t .idle).add (.missing p))
  | infoLocal (t : Nat) (sl : Bool) (a : Answer) (h : Nat) (p : Point) (hp : s.pc t = .info p .loc) :
      Does s (.next t sl a h) (s.setPc t (.call p .loc s.flag))
  | infoShm (t : Nat) (sl : Bool) (a : Answer) (h : Nat) (p : Point) (g o x : Nat) (hp : s.pc t = .info p (.shm g o x)) :
      Does s (.next t sl a h) (s.setPc t (.slot p (.shm g o x) s.flag))
  | slot (t : Nat) (a : Answer) (h : Nat) (p : Point) (d : Data) (l : Bool) (hp : s.pc t = .slot p d l) :
      Does s (.next t true a h) (s.setPc t (.call p d l))
  | noSlot (t : Nat) (a : Answer) (h : Nat) (p : Point) (d : Data) (l : Bool) (hp : s.pc t = .slot p d l) :
      Does s (.next t false a h) (({ s with flag := true }.setPc t .idle).add (.dropped p))
  | callOk (t : Nat) (sl : Bool) (h : Nat) (p : Point) (d : Data) (l : Bool) (hp : s.pc t = .call p d l) :
      Does s (.next t sl .ok h) ((s.add (.called p d l .ok)).setPc t .okFlag)
  | callTerminal (t : Nat) (sl : Bool) (h : Nat) (p : Point) (d : Data) (l : Bool) (hp : s.pc t = .call p d l) :
      Does s (.next t sl .terminal h)
        (({ (s.add (.called p d l .terminal)) with enabled := false }.elemOff p).setPc t .idle)
  | callFailed (t : Nat) (sl : Bool) (a : Answer) (h : Nat) (p : Point) (d : Data) (l hard : Bool) (hp : s.pc t = .call p d l)
      (ha : a = if hard then .nonRecoverable else .recoverable) :
      Does s (.next t sl a h) ((s.add (.called p d l a)).setPc t (.failCount p hard))
  | okFlag (t : Nat) (sl : Bool) (a : Answer) (h : Nat) (hp : s.pc t = .okFlag) :
      Does s (.next t sl a h) ({ s with flag := false }.setPc t .okCount)
  | okCount (t : Nat) (sl : Bool) (a : Answer) (h : Nat) (hp : s.pc t = .okCount) :
      Does s (.next t sl a h) ({ s with counter := 0 }.setPc t .idle)
  | failCount (t : Nat) (sl : Bool) (a : Answer) (h : Nat) (p : Point) (hard : Bool) (hp : s.pc t = .failCount p hard) :
      Does s (.next t sl a h) ({ s with counter := (s.counter + 1) % 2 ^ 32 }.setPc t (.failFlag p hard))
  | failFlag (t : Nat) (sl : Bool) (a : Answer) (h : Nat) (p : Point) (hard : Bool) (hp : s.pc t = .failFlag p hard) :
      Does s (.next t sl a h) ({ s with flag := true }.setPc t (.failCheck p hard))
  | tooMany (t : Nat) (sl : Bool) (a : Answer) (h : Nat) (p : Point) (hard : Bool) (hp : s.pc t = .failCheck p hard)
      (hc : s.counter ≥ maxFailures) : Does s (.next t sl a h) (({ s with enabled := false }.elemOff p).setPc t .idle)
  | hard (t : Nat) (sl : Bool) (a : Answer) (h : Nat) (p : Point) (hp : s.pc t = .failCheck p true)
      (hc : ¬ s.counter ≥ maxFailures) : Does s (.next t sl a h) ((s.pointOff p).setPc t .idle)
  | soft (t : Nat) (sl : Bool) (a : Answer) (h : Nat) (p : Point) (hp : s.pc t = .failCheck p false)
      (hc : ¬ s.counter ≥ maxFailures) : Does s (.next t sl a h) (s.setPc t .idle)

theorem does_op (s : St) (o : Op) : Does s o (s.op o) := by
  unfold St.op
  split
  · exact .same o
  · cases o with
    | register i fd st h a =>
      simp only [St.next']
      unfold St.register
      by_cases he : s.enabled = true
      · rw [if_neg (by simp [he])]
        cases a with
        | ok =>
          dsimp only
          by_cases hh : s.handles i = none
          · rw [if_neg (by simp [hh])]; exact .registered i fd st h he hh
          · rw [if_pos (by simpa [Option.isSome_iff_ne_none] using hh)]; exact .died _
        | terminal => exact .registerFatal i fd st h he
        | nonRecoverable => exact .same _
        | recoverable =>
          dsimp only
          split
          · exact .died _
          · exact .cached i fd st h he
      · rw [if_pos (by simpa using he)]; exact .same _
    | unregister i a =>
      simp only [St.next']
      unfold St.unregister
      by_cases he : s.enabled = true
      · rw [if_neg (by simp [he])]
        cases hh : s.handles i with
        | none => exact .uncached i a he hh
        | some v =>
          dsimp only
          by_cases ha : a = .terminal
          · subst ha; exact .unregisterFatal i he
          · rw [if_neg ha]; exact .unregistered i a he ha
      · rw [if_pos (by simpa using he)]; exact .same _
    | trace t p x =>
      simp only [St.next']
      by_cases h : s.pc t = .idle ∧ s.on p = true
      · rw [if_pos h]; exact .trace t p x h.1 h.2
      · rw [if_neg h]; exact .same _
    | next t sl a h =>
      simp only [St.next']
      unfold St.step
      cases hp : s.pc t with
      | idle => exact .same _
      | enter p x =>
        by_cases he : s.enabled = true
        · cases x with
          | none => dsimp only; rw [if_neg (by simp [he])]; exact .enterLocal t sl a h p hp he
          | some x =>
            dsimp only
            rw [if_neg (by simp [he])]
            cases hh : s.handles p.inst with
            | some v => exact .enterShm t sl a h p x v.1 v.2 hp he hh
            | none =>
              dsimp only
              cases hc : s.cache (.elem p.inst p.elem) with
              | none => exact .missing t sl a h p x hp he hh hc
              | some v =>
                have hc' : s.cache (.elem p.inst p.elem) ≠ none := by rw [hc]; simp
                cases a with
                | ok => exact .died _
                | terminal => exact .retryFatal t sl _ h p x hp he hc'
                | recoverable => exact .retryFailed t sl _ h p x hp he hc'
                | nonRecoverable => exact .retryFailed t sl _ h p x hp he hc'
        · have he' : s.enabled = false := by simpa using he
          cases x <;> dsimp only <;> rw [if_pos (by simp [he'])] <;> exact .disabled t sl a h p _ hp he'
      | info p d =>
        cases d with
        | loc => exact .infoLocal t sl a h p hp
        | shm g o x => exact .infoShm t sl a h p g o x hp
      | slot p d l =>
        cases sl with
        | true => exact .slot t a h p d l hp
        | false => exact .noSlot t a h p d l hp
      | call p d l =>
        cases a with
        | ok => exact .callOk t sl h p d l hp
        | terminal => exact .callTerminal t sl h p d l hp
        | nonRecoverable => exact .callFailed t sl _ h p d l true hp rfl
        | recoverable => exact .callFailed t sl _ h p d l false hp rfl
      | okFlag => exact .okFlag t sl a h hp
      | okCount => exact .okCount t sl a h hp
      | failCount p hard => exact .failCount t sl a h p hard hp
      | failFlag p hard => exact .failFlag t sl a h p hard hp
      | failCheck p hard =>
        dsimp only
        by_cases hc : s.counter ≥ maxFailures
        · rw [if_pos hc]; exact .tooMany t sl a h p hard hp hc
        · rw [if_neg hc]
          cases hard with
          | true => exact .hard t sl a h p hp hc
          | false => exact .soft t sl a h p hp hc

theorem run_append (s : St) (ops ops' : List Op) : run s (ops ++ ops') = run (run s ops) ops' := by
  simp [run, List.foldl_append]

/-! ## Registered objects -/

theorem object_append (i : Nat) (l : List Ev) (e : Ev) : object i (l ++ [e]) = (match e with
      | .registered j h st => if j = i then some (h, st) else object i l
      | .unregistered j => if j = i then none else object i l
      | _ => object i l) := by
  unfold object; rw [List.foldl_append]; rfl

/-- The map of handles holds the registered objects; no failed registration is known under the name of
an element. -/
structure Objects (s : St) : Prop where
  handles : ∀ i, s.handles i = object i s.log
  cache : ∀ i e, s.cache (.elem i e) = none

theorem objects_start (on : Point → Bool) : Objects (start on) := ⟨fun _ => rfl, fun _ _ => rfl⟩

theorem objects_op {s : St} (h : Objects s) (o : Op) : Objects (s.op o) := by
  have hd := does_op s o
  generalize s.op o = s' at hd
  cases hd with
  | registered i fd st g he hn =>
    refine ⟨fun j => ?_, h.cache⟩
    show (if j = i then some (g, st) else s.handles j) = object j (s.log ++ [_])
    rw [object_append, h.handles]
    by_cases e : j = i
    · subst e; simp
    · have : ¬ i = j := fun h => e h.symm
      simp [e, this]
  | cached i fd st g he =>
    refine ⟨fun j => ?_, fun j e => ?_⟩
    · show s.handles j = object j (s.log ++ [_])
      rw [object_append, h.handles]
    · simp only [St.setCache, St.add, reduceCtorEq, if_false]; exact h.cache j e
  | uncached i a he hn =>
    refine ⟨h.handles, fun j e => ?_⟩
    simp only [St.setCache, St.add, reduceCtorEq, if_false]; exact h.cache j e
  | unregistered i a he ha =>
    refine ⟨fun j => ?_, h.cache⟩
    show (if j = i then none else s.handles j) = object j (s.log ++ [_])
    rw [object_append, h.handles]
    by_cases e : j = i
    · subst e; simp
    · have : ¬ i = j := fun h => e h.symm
      simp [e, this]
  | unregisterFatal i he =>
    refine ⟨fun j => ?_, h.cache⟩
    show (if j = i then none else s.handles j) = object j ((s.log ++ [_]) ++ [_])
    rw [object_append, object_append, h.handles]
    by_cases e : j = i
    · subst e; simp
    · have : ¬ i = j := fun h => e h.symm
      simp [e, this]
  | retryFatal t sl a g p x hp he hc => exact absurd (h.cache _ _) hc
  | retryFailed t sl a g p x hp he hc => exact absurd (h.cache _ _) hc
  | _ => first
    | exact ⟨h.handles, h.cache⟩
    | exact ⟨fun j => by simp [St.add, St.setPc, St.pointOff, St.elemOff, object_append, h.handles], h.cache⟩

theorem objects_run (ops : List Op) : ∀ {s : St}, Objects s → Objects (run s ops) := by
  induction ops with
  | nil => exact fun h => h
  | cons o ops ih => exact fun h => ih (objects_op h o)

/-! ## Where the data of a call comes from -/

/-- The data names an object that was registered for the instance. -/
def Known (log : List Ev) (p : Point) : Data → Prop
  | .loc => True
  | .shm g o x => ∃ st, Ev.registered p.inst g st ∈ log ∧ o = x - st

theorem object_mem (i g st : Nat) (l : List Ev) : object i l = some (g, st) → Ev.registered i g st ∈ l := by
  have : ∀ (l : List Ev) (o : Option (Nat × Nat)), l.foldl (fun o e => match e with
      | Ev.registered j h st => if j = i then some (h, st) else o
      | Ev.unregistered j => if j = i then none else o
      | _ => o) o = some (g, st) → o = some (g, st) ∨ Ev.registered i g st ∈ l := by
    intro l
    induction l with
    | nil => exact fun o h => Or.inl h
    | cons e l ih =>
      intro o h
      rcases ih _ h with r | r
      · cases e with
        | registered j h' st' =>
          dsimp only at r
          split at r
          · rename_i hj; cases r; subst hj; exact Or.inr (by simp)
          · exact Or.inl r
        | unregistered j =>
          dsimp only at r
          split at r
          · cases r
          · exact Or.inl r
        | _ => exact Or.inl r
      · exact Or.inr (List.mem_cons_of_mem _ r)
  intro h
  rcases this l none h with r | r
  · cases r
  · exact r

theorem known_mono {l l' : List Ev} (h : ∀ e ∈ l, e ∈ l') (p : Point) (d : Data) (k : Known l p d) : Known l' p d := by
  cases d with
  | loc => trivial
  | shm g o x => obtain ⟨st, h1, h2⟩ := k; exact ⟨st, h _ h1, h2⟩

/-- The data that a thread is about to pass. -/
def carried : Pc → Option (Point × Data)
  | .info p d => some (p, d)
  | .slot p d _ => some (p, d)
  | .call p d _ => some (p, d)
  | _ => none

structure Sourced (s : St) : Prop where
  pcs : ∀ t p d, carried (s.pc t) = some (p, d) → Known s.log p d
  calls : ∀ p d l a, Ev.called p d l a ∈ s.log → Known s.log p d

theorem sourced_start (on : Point → Bool) : Sourced (start on) :=
  ⟨fun t p d h => (by cases h), fun p d l a h => (by cases h)⟩

/-- A step that changes the place of one thread and adds at most one event. -/
theorem sourced_next {s s' : St} (h : Sourced s) (t : Nat) (q : Pc) (ev : List Ev) (hpc : ∀ u, s'.pc u = if u = t then q else s.pc u)
    (hlog : s'.log = s.log ++ ev) (hq : ∀ p d, carried q = some (p, d) → Known s.log p d)
    (he : ∀ p d l a, Ev.called p d l a ∈ ev → Known s.log p d) : Sourced s' := by
  have mono : ∀ e ∈ s.log, e ∈ s'.log := fun e he => by rw [hlog]; simp [he]
  constructor
  · intro u p d hu
    rw [hpc] at hu
    split at hu
    · exact known_mono mono p d (hq p d hu)
    · exact known_mono mono p d (h.pcs u p d hu)
  · intro p d l a hm
    rw [hlog] at hm
    rcases List.mem_append.1 hm with hm | hm
    · exact known_mono mono p d (h.calls p d l a hm)
    · exact known_mono mono p d (he p d l a hm)

theorem sourced_add {s s' : St} (h : Sourced s) (ev : List Ev) (hpc : s'.pc = s.pc) (hlog : s'.log = s.log ++ ev)
    (he : ∀ p d l a, Ev.called p d l a ∉ ev) : Sourced s' :=
  ⟨fun t p d ht => known_mono (fun e he => by rw [hlog]; simp [he]) p d (h.pcs t p d (hpc ▸ ht)),
   fun p d l a hm => by
    rw [hlog] at hm
    rcases List.mem_append.1 hm with hm | hm
    · exact known_mono (fun e he => by rw [hlog]; simp [he]) p d (h.calls p d l a hm)
    · exact absurd hm (he p d l a)⟩

theorem sourced_op {s : St} (ho : Objects s) (h : Sourced s) (o : Op) : Sourced (s.op o) := by
  have hd := does_op s o
  generalize s.op o = s' at hd
  cases hd with
  | same => exact h
  | died => exact sourced_add h [] rfl (by simp) (by simp)
  | registered i fd st g he hn => exact sourced_add h _ rfl rfl (by simp)
  | registerFatal i fd st g he => exact sourced_add h _ rfl rfl (by simp)
  | cached i fd st g he => exact sourced_add h _ rfl rfl (by simp)
  | uncached i a he hn => exact sourced_add h [] rfl (by simp [St.setCache]) (by simp)
  | unregistered i a he ha => exact sourced_add h _ rfl rfl (by simp)
  | unregisterFatal i he =>
    exact sourced_add h [.unregistered i, .fatal] rfl (by simp [St.setHandle, St.add]) (by simp)
  | trace t p x hp hon => exact sourced_next h t _ [] (fun u => rfl) (by simp) (by simp [carried]) (by simp)
  | disabled t sl a g p x hp he => exact sourced_next h t .idle [] (fun u => rfl) (by simp [St.elemOff]) (by simp [carried]) (by simp)
  | enterLocal t sl a g p hp he =>
    refine sourced_next h t _ [] (fun u => rfl) (by simp) ?_ (by simp)
    rintro p d hc; cases hc; trivial
  | enterShm t sl a g' p x g st hp he hh =>
    refine sourced_next h t _ [] (fun u => rfl) (by simp) ?_ (by simp)
    rintro p d hc; cases hc
    rw [ho.handles] at hh
    exact ⟨st, object_mem _ _ _ _ hh, rfl⟩
  | missing t sl a g p x hp he hh hc => exact sourced_next h t .idle [_] (fun u => rfl) rfl (by simp [carried]) (by simp)
  | retryFatal t sl a g p x hp he hc => exact absurd (ho.cache _ _) hc
  | retryFailed t sl a g p x hp he hc => exact absurd (ho.cache _ _) hc
  | infoLocal t sl a g p hp =>
    refine sourced_next h t _ [] (fun u => rfl) (by simp) ?_ (by simp)
    rintro p d hc; cases hc; trivial
  | infoShm t sl a g' p g o x hp =>
    refine sourced_next h t _ [] (fun u => rfl) (by simp) ?_ (by simp)
    rintro p d hc; cases hc
    exact h.pcs t p _ (by rw [hp]; rfl)
  | slot t a g p d l hp =>
    refine sourced_next h t _ [] (fun u => rfl) (by simp) ?_ (by simp)
    rintro p d hc; cases hc
    exact h.pcs t p _ (by rw [hp]; rfl)
  | noSlot t a g p d l hp => exact sourced_next h t .idle [_] (fun u => rfl) rfl (by simp [carried]) (by simp)
  | callOk t sl g p d l hp =>
    refine sourced_next h t .okFlag [_] (fun u => rfl) rfl (by simp [carried]) ?_
    intro p d l a hm; simp at hm; obtain ⟨rfl, rfl, rfl, rfl⟩ := hm
    exact h.pcs t p d (by rw [hp]; rfl)
  | callTerminal t sl g p d l hp =>
    refine sourced_next h t .idle [_] (fun u => rfl) rfl (by simp [carried]) ?_
    intro p d l a hm; simp at hm; obtain ⟨rfl, rfl, rfl, rfl⟩ := hm
    exact h.pcs t p d (by rw [hp]; rfl)
  | callFailed t sl a g p d l hard hp ha =>
    refine sourced_next h t _ [_] (fun u => rfl) rfl (by simp [carried]) ?_
    intro p d l a hm; simp at hm; obtain ⟨rfl, rfl, rfl, rfl⟩ := hm
    exact h.pcs t p d (by rw [hp]; rfl)
  | okFlag t sl a g hp => exact sourced_next h t _ [] (fun u => rfl) (by simp) (by simp [carried]) (by simp)
  | okCount t sl a g hp => exact sourced_next h t _ [] (fun u => rfl) (by simp) (by simp [carried]) (by simp)
  | failCount t sl a g p hard hp => exact sourced_next h t _ [] (fun u => rfl) (by simp) (by simp [carried]) (by simp)
  | failFlag t sl a g p hard hp => exact sourced_next h t _ [] (fun u => rfl) (by simp) (by simp [carried]) (by simp)
  | tooMany t sl a g p hard hp hc => exact sourced_next h t .idle [] (fun u => rfl) (by simp [St.elemOff]) (by simp [carried]) (by simp)
  | hard t sl a g p hp hc => exact sourced_next h t .idle [] (fun u => rfl) (by simp [St.pointOff]) (by simp [carried]) (by simp)
  | soft t sl a g p hp hc => exact sourced_next h t .idle [] (fun u => rfl) (by simp) (by simp [carried]) (by simp)

theorem sourced_run (ops : List Op) : ∀ {s : St}, Objects s → Sourced s → Sourced (run s ops) := by
  induction ops with
  | nil => exact fun _ h => h
  | cons o ops ih => exact fun ho h => ih (objects_op ho o) (sourced_op ho h o)

/-! ## Tracing that is switched off -/

theorem off_op {s : St} (h : s.enabled = false) (o : Op) : (s.op o).enabled = false := by
  have hd := does_op s o
  generalize s.op o = s' at hd
  cases hd <;> first | exact h | rfl | (rename_i he; rw [h] at he; cases he) | (rename_i he _; rw [h] at he; cases he)

theorem off_run (ops : List Op) : ∀ {s : St}, s.enabled = false → (run s ops).enabled = false := by
  induction ops with
  | nil => exact fun h => h
  | cons o ops ih => exact fun h => ih (off_op h o)

/-- All threads are idle or about to see that tracing is off. -/
def Early (s : St) : Prop := ∀ t, s.pc t = .idle ∨ ∃ p x, s.pc t = .enter p x

theorem early_op {s : St} (h : s.enabled = false) (he : Early s) (o : Op) : Early (s.op o) ∧ (s.op o).log = s.log := by
  have hd := does_op s o
  generalize s.op o = s' at hd
  have set : ∀ (s' : St) (t : Nat) (q : Pc), (q = .idle ∨ ∃ p x, q = .enter p x) → (∀ u, s'.pc u = if u = t then q else s.pc u) → Early s' := by
    intro s' t q hq hpc u
    rw [hpc]
    split
    · exact hq
    · exact he u
  have no : ∀ t q, s.pc t = q → (q ≠ .idle) → (∀ p x, q ≠ .enter p x) → False := by
    intro t q ht h1 h2
    rcases he t with r | ⟨p, x, r⟩
    · exact h1 (ht.symm.trans r)
    · exact h2 p x (ht.symm.trans r)
  cases hd with
  | same => exact ⟨he, rfl⟩
  | died => exact ⟨he, rfl⟩
  | trace t p x hp hon => exact ⟨set _ t _ (Or.inr ⟨p, x, rfl⟩) (fun u => rfl), rfl⟩
  | disabled t sl a g p x hp hd => exact ⟨set _ t _ (Or.inl rfl) (fun u => rfl), rfl⟩
  | registered i fd st g hx => rw [h] at hx; cases hx
  | registerFatal i fd st g hx => rw [h] at hx; cases hx
  | cached i fd st g hx => rw [h] at hx; cases hx
  | uncached i a hx => rw [h] at hx; cases hx
  | unregistered i a hx => rw [h] at hx; cases hx
  | unregisterFatal i hx => rw [h] at hx; cases hx
  | enterLocal t sl a g p hp hx => rw [h] at hx; cases hx
  | enterShm t sl a g' p x g st hp hx => rw [h] at hx; cases hx
  | missing t sl a g p x hp hx => rw [h] at hx; cases hx
  | retryFatal t sl a g p x hp hx => rw [h] at hx; cases hx
  | retryFailed t sl a g p x hp hx => rw [h] at hx; cases hx
  | infoLocal t sl a g p hp => exact (no t _ hp (by simp) (by simp)).elim
  | infoShm t sl a g' p g o x hp => exact (no t _ hp (by simp) (by simp)).elim
  | slot t a g p d l hp => exact (no t _ hp (by simp) (by simp)).elim
  | noSlot t a g p d l hp => exact (no t _ hp (by simp) (by simp)).elim
  | callOk t sl g p d l hp => exact (no t _ hp (by simp) (by simp)).elim
  | callTerminal t sl g p d l hp => exact (no t _ hp (by simp) (by simp)).elim
  | callFailed t sl a g p d l hard hp ha => exact (no t _ hp (by simp) (by simp)).elim
  | okFlag t sl a g hp => exact (no t _ hp (by simp) (by simp)).elim
  | okCount t sl a g hp => exact (no t _ hp (by simp) (by simp)).elim
  | failCount t sl a g p hard hp => exact (no t _ hp (by simp) (by simp)).elim
  | failFlag t sl a g p hard hp => exact (no t _ hp (by simp) (by simp)).elim
  | tooMany t sl a g p hard hp hc => exact (no t _ hp (by simp) (by simp)).elim
  | hard t sl a g p hp hc => exact (no t _ hp (by simp) (by simp)).elim
  | soft t sl a g p hp hc => exact (no t _ hp (by simp) (by simp)).elim

theorem early_run (ops : List Op) : ∀ {s : St}, s.enabled = false → Early s → (run s ops).log = s.log := by
  induction ops with
  | nil => exact fun _ _ => rfl
  | cons o ops ih =>
    intro s h he
    exact (ih (off_op h o) (early_op h he o).1).trans (early_op h he o).2

end Verif.TraceCall
