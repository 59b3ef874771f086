import Verif.Spec.RuntimeInit

/-! # Proofs about the initialisation of the runtime -/
namespace Verif.RuntimeInit

variable {C : Type}

/-- The thread has the mutex. -/
def Holds : Pc C → Prop
  | .initHeld _ => True
  | .initParsed _ _ => True
  | .makingHeld => True
  | .built _ => True
  | _ => False

/-- The thread makes the runtime. -/
def Makes : Pc C → Prop
  | .making => True
  | .makingHeld => True
  | .built _ => True
  | _ => False

/-- The thread wants the runtime. -/
def Wants : Pc C → Prop
  | .useWait => True
  | .making => True
  | .makingHeld => True
  | .built _ => True
  | _ => False

/-- What holds when an event happens, in terms of those before. -/
def Good (valid : C → Bool) (files : String → Option C) : Ev C → List (Ev C) → Prop
  | .kept t p c, pre => ReadInCall files pre t p c ∧ valid c = true ∧ ¬ Used pre
  | .ignored _, pre => Wanted pre
  | .used _ c, pre => Expected files pre c ∧ ∀ u d, Ev.used u d ∈ pre → d = c
  | _, _ => True

def AllGood (valid : C → Bool) (files : String → Option C) : List (Ev C) → Prop
  | [] => True
  | e :: pre => Good valid files e pre ∧ AllGood valid files pre

theorem AllGood.at_ {valid : C → Bool} {files : String → Option C} {e : Ev C}
    {pre : List (Ev C)} : ∀ {post}, AllGood valid files (post ++ e :: pre) → Good valid files e pre
  | [], h => h.1
  | _ :: _, h => AllGood.at_ h.2

structure Inv (valid : C → Bool) (files : String → Option C) (w : World C) : Prop where
  files_ : ∀ p, w.files p = content files p w.log
  mutexHeld : ∀ t, Holds (w.threads t) → w.mutex = some t
  mutexOf : ∀ t, w.mutex = some t → Holds (w.threads t)
  guardHeld : ∀ t, Makes (w.threads t) → w.guard = some t
  guardOf : ∀ t, w.guard = some t → Makes (w.threads t)
  free : w.runtime ≠ none → w.guard = none
  unlocked : w.locked = false → w.config = lastKept w.log ∧ w.runtime = none
  lockedW : w.locked = true → Wanted w.log
  called : ∀ t p, w.threads t = .initWait p ∨ w.threads t = .initHeld p →
    lastOf t w.log = some (.callInit t p)
  parsed : ∀ t p c, w.threads t = .initParsed p c →
    w.locked = false ∧ ReadInCall files w.log t p c
  wanted : ∀ t, Wants (w.threads t) → Wanted w.log
  heldM : ∀ t, w.threads t = .makingHeld → w.locked = true ∧ w.config = lastKept w.log
  builtM : ∀ t c, w.threads t = .built c → w.locked = true ∧ Expected files w.log c
  made : ∀ c, w.runtime = some c → w.locked = true ∧ Expected files w.log c
  used : ∀ t c, Ev.used t c ∈ w.log → w.runtime = some c
  good : AllGood valid files w.log
  lockedOf : w.locked = true → w.runtime ≠ none ∨
    ∃ t, w.guard = some t ∧ Holds (w.threads t)

theorem Expected.cons {files : String → Option C} {log : List (Ev C)} {c : C} {e : Ev C}
    (h : Expected files log c) (he : ∀ t p d, e ≠ .kept t p d) : Expected files (e :: log) c := by
  unfold Expected at *
  have hl : lastKept (e :: log) = lastKept log := by
    cases e <;> simp_all [lastKept]
  rw [hl]
  cases hk : lastKept log with
  | some d => rw [hk] at h; exact h
  | none =>
    rw [hk] at h
    obtain ⟨l, r, h1, h2, h3⟩ := h
    exact ⟨e :: l, r, by rw [h1]; rfl, h2, h3⟩

theorem ReadInCall.cons {files : String → Option C} {log : List (Ev C)} {t : Nat} {p : String}
    {c : C} {e : Ev C} (h : ReadInCall files log t p c) (he : e.thread ≠ some t) :
    ReadInCall files (e :: log) t p c := by
  obtain ⟨l, r, h1, h2, h3⟩ := h
  refine ⟨e :: l, r, by rw [h1]; rfl, ?_, h3⟩
  intro x hx
  rcases List.mem_cons.mp hx with hx | hx
  · rw [hx]; exact he
  · exact h2 x hx

theorem Wanted.cons {log : List (Ev C)} {e : Ev C} (h : Wanted log) : Wanted (e :: log) := by
  obtain ⟨t, h⟩ := h
  exact ⟨t, List.mem_cons_of_mem _ h⟩

theorem lastOf_cons {log : List (Ev C)} {e : Ev C} {t : Nat} (he : e.thread ≠ some t) :
    lastOf t (e :: log) = lastOf t log := by
  simp [lastOf, List.find?_cons, he]

theorem content_cons {files : String → Option C} {log : List (Ev C)} {e : Ev C} {p : String}
    (he : ∀ q c, e ≠ .file q c) : content files p (e :: log) = content files p log := by
  cases e <;> simp_all [content]

theorem inv_init (valid : C → Bool) (files : String → Option C) :
    Inv valid files { files := files } := by
  constructor <;> simp [content, Holds, Makes, Wants, lastKept, AllGood]

/-- An event of a thread that only calls. -/
theorem inv_call {valid : C → Bool} {files : String → Option C} {w : World C}
    (h : Inv valid files w) {t : Nat} (ht : w.threads t = .idle) {x : Pc C} {e : Ev C}
    (hx : (∃ p, x = .initWait p ∧ e = .callInit t p) ∨ (x = .useWait ∧ e = .callUse t)) :
    Inv valid files ((w.goto t x).say e) := by
  have hn : ¬ Holds x ∧ ¬ Makes x := by
    rcases hx with ⟨p, rfl, _⟩ | ⟨rfl, _⟩ <;> simp [Holds, Makes]
  have het : e.thread = some t := by
    rcases hx with ⟨p, _, rfl⟩ | ⟨_, rfl⟩ <;> rfl
  have hk : ∀ t p d, e ≠ .kept t p d := by
    rcases hx with ⟨p, _, rfl⟩ | ⟨_, rfl⟩ <;> simp
  have hf : ∀ q d, e ≠ .file q d := by
    rcases hx with ⟨p, _, rfl⟩ | ⟨_, rfl⟩ <;> simp
  have hu : ∀ q d, e ≠ .used q d := by
    rcases hx with ⟨p, _, rfl⟩ | ⟨_, rfl⟩ <;> simp
  have hl : lastKept (e :: w.log) = lastKept w.log := by
    rcases hx with ⟨p, _, rfl⟩ | ⟨_, rfl⟩ <;> rfl
  have hg : Good valid files e w.log := by
    rcases hx with ⟨p, _, rfl⟩ | ⟨_, rfl⟩ <;> trivial
  have hb : x ≠ .idle ∧ (∀ p, x ≠ .initHeld p) ∧ (∀ p c, x ≠ .initParsed p c) ∧ x ≠ .makingHeld ∧
      (∀ c, x ≠ .built c) := by
    rcases hx with ⟨p, rfl, _⟩ | ⟨rfl, _⟩ <;> simp
  have hw : Wants x → e = .callUse t := by
    rcases hx with ⟨p, rfl, _⟩ | ⟨rfl, rfl⟩ <;> simp [Wants]
  have hc : ∀ p, x = .initWait p → e = .callInit t p := by
    rcases hx with ⟨p, rfl, rfl⟩ | ⟨rfl, rfl⟩ <;> simp
  have hh : ¬ Holds (w.threads t) ∧ ¬ Makes (w.threads t) := by rw [ht]; simp [Holds, Makes]
  constructor <;> simp only [World.goto, World.say]
  · intro p; rw [content_cons hf]; exact h.files_ p
  · intro u hu; split at hu
    · exact absurd hu hn.1
    · exact h.mutexHeld u hu
  · intro u hu; split
    · rename_i e; subst e; exact absurd (h.mutexOf u hu) hh.1
    · exact h.mutexOf u hu
  · intro u hu; split at hu
    · exact absurd hu hn.2
    · exact h.guardHeld u hu
  · intro u hu; split
    · rename_i e; subst e; exact absurd (h.guardOf u hu) hh.2
    · exact h.guardOf u hu
  · exact h.free
  · intro a; rw [hl]; exact h.unlocked a
  · intro a; exact (h.lockedW a).cons
  · intro u p hp; split at hp
    · rename_i e'; subst e'
      rcases hp with hp | hp
      · have := hc p hp; subst this; simp [lastOf, Ev.thread]
      · exact absurd hp (hb.2.1 p)
    · rename_i e'; rw [lastOf_cons (by rw [het]; simpa using fun a => e' a.symm)]
      exact h.called u p hp
  · intro u p c hp; split at hp
    · exact absurd hp (hb.2.2.1 p c)
    · rename_i e'
      exact ⟨(h.parsed u p c hp).1,
        (h.parsed u p c hp).2.cons (by rw [het]; simpa using fun a => e' a.symm)⟩
  · intro u hu; split at hu
    · have := hw hu; subst this; exact ⟨t, List.mem_cons_self⟩
    · exact (h.wanted u hu).cons
  · intro u hu; split at hu
    · exact absurd hu hb.2.2.2.1
    · rw [hl]; exact h.heldM u hu
  · intro u c hu; split at hu
    · exact absurd hu (hb.2.2.2.2 c)
    · exact ⟨(h.builtM u c hu).1, (h.builtM u c hu).2.cons hk⟩
  · intro c hc; exact ⟨(h.made c hc).1, (h.made c hc).2.cons hk⟩
  · intro u c hm
    rcases List.mem_cons.mp hm with hm | hm
    · exact absurd hm.symm (hu u c)
    · exact h.used u c hm
  · exact ⟨hg, h.good⟩
  · intro a
    rcases h.lockedOf a with b | ⟨u, b1, b2⟩
    · exact .inl b
    · refine .inr ⟨u, b1, ?_⟩
      have : u ≠ t := by
        intro e; subst e; exact hh.1 b2
      rw [if_neg this]; exact b2

theorem inv_file {valid : C → Bool} {files : String → Option C} {w : World C}
    (h : Inv valid files w) (p : String) (c : Option C) :
    Inv valid files
      ({ w with files := fun q => if q = p then c else w.files q }.say (.file p c)) := by
  constructor <;> simp only [World.say]
  · intro q
    by_cases e : q = p
    · subst e; simp [content]
    · simp only [e, content, if_false]; rw [if_neg (fun a => e a.symm)]; exact h.files_ q
  · exact h.mutexHeld
  · exact h.mutexOf
  · exact h.guardHeld
  · exact h.guardOf
  · exact h.free
  · exact h.unlocked
  · intro a; exact (h.lockedW a).cons
  · intro u q hp; rw [lastOf_cons (by simp [Ev.thread])]; exact h.called u q hp
  · intro u q d hp; exact ⟨(h.parsed u q d hp).1, (h.parsed u q d hp).2.cons (by simp [Ev.thread])⟩
  · intro u hu; exact (h.wanted u hu).cons
  · exact h.heldM
  · intro u d hu; exact ⟨(h.builtM u d hu).1, (h.builtM u d hu).2.cons (by simp)⟩
  · intro d hc; exact ⟨(h.made d hc).1, (h.made d hc).2.cons (by simp)⟩
  · intro u d hm; exact h.used u d (by simpa using hm)
  · exact ⟨trivial, h.good⟩
  · exact h.lockedOf

theorem inv_fault {valid : C → Bool} {files : String → Option C} {w : World C}
    (h : Inv valid files w) (f : Option Fault) : Inv valid files { w with fault := f } :=
  ⟨h.1, h.2, h.3, h.4, h.5, h.6, h.7, h.8, h.9, h.10, h.11, h.12, h.13, h.14, h.15, h.16, h.17⟩

theorem other {w : World C} {valid : C → Bool} {files : String → Option C}
    (h : Inv valid files w) {t u : Nat} (ht : Holds (w.threads t)) (hu : Holds (w.threads u)) :
    u = t := by
  have a := h.mutexHeld t ht
  have b := h.mutexHeld u hu
  rw [a] at b; injection b with b; exact b.symm

theorem inv_initWait {valid : C → Bool} {files : String → Option C} {w : World C}
    (h : Inv valid files w) {t : Nat} {p : String} (ht : w.threads t = .initWait p)
    (hm : w.mutex = none) :
    Inv valid files ({ w with mutex := some t }.goto t (.initHeld p)) := by
  obtain ⟨h1, h2, h3, h4, h5, h6, h7, h8, h9, h10, h11, h12, h13, h14, h15, h16, h17⟩ := h
  constructor <;> simp only [World.goto] <;> grind [Holds, Makes, Wants]

theorem inv_parse {valid : C → Bool} {files : String → Option C} {w : World C}
    (h : Inv valid files w) {t : Nat} {p : String} {c : C} (ht : w.threads t = .initHeld p)
    (hl : w.locked = false) (hf : w.files p = some c) :
    Inv valid files (w.goto t (.initParsed p c)) := by
  have hr : ReadInCall files w.log t p c :=
    ⟨[], w.log, rfl, by simp, h.called t p (.inr ht), by rw [← h.files_]; exact hf⟩
  obtain ⟨h1, h2, h3, h4, h5, h6, h7, h8, h9, h10, h11, h12, h13, h14, h15, h16, h17⟩ := h
  constructor <;> simp only [World.goto] <;> grind [Holds, Makes, Wants]

theorem inv_guard {valid : C → Bool} {files : String → Option C} {w : World C}
    (h : Inv valid files w) {t : Nat} (ht : w.threads t = .useWait)
    (hr : w.runtime = none) (hg : w.guard = none) :
    Inv valid files ({ w with guard := some t }.goto t .making) := by
  obtain ⟨h1, h2, h3, h4, h5, h6, h7, h8, h9, h10, h11, h12, h13, h14, h15, h16, h17⟩ := h
  constructor <;> simp only [World.goto] <;> grind [Holds, Makes, Wants]

theorem inv_making {valid : C → Bool} {files : String → Option C} {w : World C}
    (h : Inv valid files w) {t : Nat} (ht : w.threads t = .making) (hm : w.mutex = none) :
    Inv valid files ({ w with mutex := some t, locked := true }.goto t .makingHeld) := by
  have hlk : w.locked = false := by
    cases e : w.locked with
    | false => rfl
    | true =>
      have hg := h.guardHeld t (by rw [ht]; trivial)
      rcases h.lockedOf e with b | ⟨u, _, b⟩
      · have := h.free b; rw [hg] at this; exact absurd this (by simp)
      · have := h.mutexHeld u b; rw [hm] at this; exact absurd this (by simp)
  obtain ⟨h1, h2, h3, h4, h5, h6, h7, h8, h9, h10, h11, h12, h13, h14, h15, h16, h17⟩ := h
  constructor <;> simp only [World.goto] <;> grind [Holds, Makes, Wants]

theorem inv_build {valid : C → Bool} {files : String → Option C} {w : World C}
    (h : Inv valid files w) {t : Nat} {c : C} (ht : w.threads t = .makingHeld)
    (hc : w.config = some c ∨ w.config = none ∧ w.files defaultPath = some c) :
    Inv valid files ({ w with config := none }.goto t (.built c)) := by
  have he : Expected files w.log c := by
    have hk := (h.heldM t ht).2
    unfold Expected
    rcases hc with hc | ⟨hc, hf⟩
    · rw [← hk, hc]
    · rw [← hk, hc]
      exact ⟨[], w.log, rfl, h.wanted t (by rw [ht]; trivial), by rw [← h.files_]; exact hf⟩
  have hlk := (h.heldM t ht).1
  have ho := fun u => other h (t := t) (u := u) (by rw [ht]; trivial)
  obtain ⟨h1, h2, h3, h4, h5, h6, h7, h8, h9, h10, h11, h12, h13, h14, h15, h16, h17⟩ := h
  constructor <;> simp only [World.goto] <;> grind [Holds, Makes, Wants]

theorem inv_ignored {valid : C → Bool} {files : String → Option C} {w : World C}
    (h : Inv valid files w) {t : Nat} {p : String} (ht : w.threads t = .initHeld p)
    (hl : w.locked = true) :
    Inv valid files (({ w with mutex := none }.goto t .idle).say (.ignored t)) := by
  have ho := fun u => other h (t := t) (u := u) (by rw [ht]; trivial)
  have hw := h.lockedW hl
  have hk : lastKept (Ev.ignored t :: w.log) = lastKept w.log := rfl
  have hc : ∀ p, content files p (Ev.ignored t :: w.log) = content files p w.log := fun _ => rfl
  have hx : ∀ c, Expected files w.log c → Expected files (Ev.ignored t :: w.log) c :=
    fun c a => a.cons (by simp)
  have hr : ∀ u p c, u ≠ t → ReadInCall files w.log u p c →
      ReadInCall files (Ev.ignored t :: w.log) u p c :=
    fun u p c a b => b.cons (by simpa [Ev.thread] using fun e => a e.symm)
  have hlo : ∀ u, u ≠ t → lastOf u (Ev.ignored t :: w.log) = lastOf u w.log :=
    fun u a => lastOf_cons (by simpa [Ev.thread] using fun e => a e.symm)
  have hwc := hw.cons (e := Ev.ignored t)
  obtain ⟨h1, h2, h3, h4, h5, h6, h7, h8, h9, h10, h11, h12, h13, h14, h15, h16, h17⟩ := h
  constructor <;> simp only [World.goto, World.say] <;> try grind [Holds, Makes, Wants]
  · exact ⟨hw, h16⟩

theorem inv_kept {valid : C → Bool} {files : String → Option C} {w : World C}
    (h : Inv valid files w) {t : Nat} {p : String} {c : C} (ht : w.threads t = .initParsed p c)
    (hv : valid c = true) :
    Inv valid files
      (({ w with config := some c, mutex := none }.goto t .idle).say (.kept t p c)) := by
  have ho := fun u => other h (t := t) (u := u) (by rw [ht]; trivial)
  obtain ⟨hl, hread⟩ := h.parsed t p c ht
  have hrt := (h.unlocked hl).2
  have hk : lastKept (Ev.kept t p c :: w.log) = some c := rfl
  have hc : ∀ q, content files q (Ev.kept t p c :: w.log) = content files q w.log := fun _ => rfl
  have hlo : ∀ u, u ≠ t → lastOf u (Ev.kept t p c :: w.log) = lastOf u w.log :=
    fun u a => lastOf_cons (by simpa [Ev.thread] using fun e => a e.symm)
  have hwc : Wanted w.log → Wanted (Ev.kept t p c :: w.log) := fun a => a.cons
  have hnu : ¬ Used w.log := by
    rintro ⟨u, d, hm⟩
    have := h.used u d hm
    rw [hrt] at this; exact absurd this (by simp)
  obtain ⟨h1, h2, h3, h4, h5, h6, h7, h8, h9, h10, h11, h12, h13, h14, h15, h16, h17⟩ := h
  constructor <;> simp only [World.goto, World.say] <;> try grind [Holds, Makes, Wants]
  · exact ⟨⟨hread, hv, hnu⟩, h16⟩

theorem inv_used {valid : C → Bool} {files : String → Option C} {w : World C}
    (h : Inv valid files w) {t : Nat} {c : C} (ht : w.threads t = .useWait)
    (hr : w.runtime = some c) :
    Inv valid files ((w.goto t .idle).say (.used t c)) := by
  have hk : lastKept (Ev.used t c :: w.log) = lastKept w.log := rfl
  have hc : ∀ q, content files q (Ev.used t c :: w.log) = content files q w.log := fun _ => rfl
  have hx : ∀ d, Expected files w.log d → Expected files (Ev.used t c :: w.log) d :=
    fun d a => a.cons (by simp)
  have hrd : ∀ u p d, u ≠ t → ReadInCall files w.log u p d →
      ReadInCall files (Ev.used t c :: w.log) u p d :=
    fun u p d a b => b.cons (by simpa [Ev.thread] using fun e => a e.symm)
  have hlo : ∀ u, u ≠ t → lastOf u (Ev.used t c :: w.log) = lastOf u w.log :=
    fun u a => lastOf_cons (by simpa [Ev.thread] using fun e => a e.symm)
  have hwc : Wanted w.log → Wanted (Ev.used t c :: w.log) := fun a => a.cons
  have hg : Good valid files (Ev.used t c) w.log :=
    ⟨(h.made c hr).2, fun u d a => by
      have := h.used u d a; rw [hr] at this; injection this with e; exact e.symm⟩
  obtain ⟨h1, h2, h3, h4, h5, h6, h7, h8, h9, h10, h11, h12, h13, h14, h15, h16, h17⟩ := h
  constructor <;> simp only [World.goto, World.say] <;> try grind [Holds, Makes, Wants]
  · exact ⟨hg, h16⟩

theorem inv_built {valid : C → Bool} {files : String → Option C} {w : World C}
    (h : Inv valid files w) {t : Nat} {c : C} (ht : w.threads t = .built c) :
    Inv valid files
      (({ w with mutex := none, guard := none, runtime := some c }.goto t .idle).say
        (.used t c)) := by
  have ho := fun u => other h (t := t) (u := u) (by rw [ht]; trivial)
  have hk : lastKept (Ev.used t c :: w.log) = lastKept w.log := rfl
  have hc : ∀ q, content files q (Ev.used t c :: w.log) = content files q w.log := fun _ => rfl
  have hx : ∀ d, Expected files w.log d → Expected files (Ev.used t c :: w.log) d :=
    fun d a => a.cons (by simp)
  have hrd : ∀ u p d, u ≠ t → ReadInCall files w.log u p d →
      ReadInCall files (Ev.used t c :: w.log) u p d :=
    fun u p d a b => b.cons (by simpa [Ev.thread] using fun e => a e.symm)
  have hlo : ∀ u, u ≠ t → lastOf u (Ev.used t c :: w.log) = lastOf u w.log :=
    fun u a => lastOf_cons (by simpa [Ev.thread] using fun e => a e.symm)
  have hwc : Wanted w.log → Wanted (Ev.used t c :: w.log) := fun a => a.cons
  have hgu := h.guardHeld t (by rw [ht]; trivial)
  have hrn : w.runtime = none := by
    cases e : w.runtime with
    | none => rfl
    | some d =>
      have := h.free (by rw [e]; simp); rw [hgu] at this; exact absurd this (by simp)
  have hnu : ∀ u d, Ev.used u d ∉ w.log := by
    intro u d hm
    have := h.used u d hm; rw [hrn] at this; exact absurd this (by simp)
  have hg : Good valid files (Ev.used t c) w.log :=
    ⟨(h.builtM t c ht).2, fun u d a => absurd a (hnu u d)⟩
  have hgo : ∀ u, Makes (w.threads u) → u = t := by
    intro u a
    have := h.guardHeld u a; rw [hgu] at this; injection this with e; exact e.symm
  obtain ⟨h1, h2, h3, h4, h5, h6, h7, h8, h9, h10, h11, h12, h13, h14, h15, h16, h17⟩ := h
  constructor <;> simp only [World.goto, World.say] <;> try grind [Holds, Makes, Wants]
  · exact ⟨hg, h16⟩

theorem inv_stepThread {valid : C → Bool} {files : String → Option C} {w : World C}
    (h : Inv valid files w) (t : Nat) : Inv valid files (stepThread valid w t) := by
  unfold stepThread
  split
  · exact h
  · rename_i p ht
    split
    · rename_i hm; exact inv_initWait h ht hm
    · exact h
  · rename_i p ht
    unfold initHeld
    split
    · rename_i hl; exact inv_ignored h ht hl
    · rename_i hl
      split
      · exact inv_fault h _
      · rename_i c hf; exact inv_parse h ht (by simpa using hl) hf
  · rename_i p c ht
    unfold initParsed
    split
    · rename_i hv; exact inv_kept h ht hv
    · exact inv_fault h _
  · rename_i ht
    unfold useWait
    split
    · rename_i c hr; exact inv_used h ht hr
    · rename_i hr
      split
      · rename_i hg; exact inv_guard h ht hr hg
      · exact h
  · rename_i ht
    split
    · rename_i hm; exact inv_making h ht hm
    · exact h
  · rename_i ht
    unfold makingHeld
    split
    · rename_i c hc; exact inv_build h ht (.inl hc)
    · rename_i hc
      split
      · exact inv_fault h _
      · rename_i c hf
        have := inv_build h ht (.inr ⟨hc, hf⟩)
        have e : { w with config := none } = w := by rw [← hc]
        rw [e] at this; exact this
  · rename_i c ht; exact inv_built h ht

theorem inv_step {valid : C → Bool} {files : String → Option C} {w : World C}
    (h : Inv valid files w) (o : Op C) : Inv valid files (step valid w o) := by
  unfold step
  split
  · exact h
  · cases o with
    | file p c => exact inv_file h p c
    | initCall t p =>
      dsimp only
      split
      · rename_i ht; exact inv_call h ht (.inl ⟨p, rfl, rfl⟩)
      · exact h
    | use t =>
      dsimp only
      split
      · rename_i ht; exact inv_call h ht (.inr ⟨rfl, rfl⟩)
      · exact h
    | step t => exact inv_stepThread h t

theorem inv_foldl {valid : C → Bool} {files : String → Option C} :
    ∀ (ops : List (Op C)) (w : World C), Inv valid files w →
      Inv valid files (ops.foldl (step valid) w)
  | [], _, h => h
  | o :: ops, _, h => inv_foldl ops _ (inv_step h o)

theorem inv_run (valid : C → Bool) (files : String → Option C) (ops : List (Op C)) :
    Inv valid files (run valid files ops) := inv_foldl ops _ (inv_init valid files)

/-! ## Every call returns -/

def Reaches (valid : C → Bool) (w w' : World C) : Prop :=
  ∃ ts, w' = (steps ts).foldl (step valid) w

theorem Reaches.refl {valid : C → Bool} {w : World C} : Reaches valid w w := ⟨[], rfl⟩

theorem Reaches.step {valid : C → Bool} {w w' : World C} (t : Nat) (hf : w.fault = none)
    (h : Reaches valid (stepThread valid w t) w') : Reaches valid w w' := by
  obtain ⟨ts, h⟩ := h
  refine ⟨t :: ts, ?_⟩
  rw [h]
  simp [steps, RuntimeInit.step, hf]

theorem Reaches.trans {valid : C → Bool} {w w' w'' : World C} (h : Reaches valid w w')
    (h' : Reaches valid w' w'') : Reaches valid w w'' := by
  obtain ⟨ts, h⟩ := h
  obtain ⟨us, h'⟩ := h'
  refine ⟨ts ++ us, ?_⟩
  rw [h', h]
  simp [steps]

theorem Reaches.inv {valid : C → Bool} {files : String → Option C} {w w' : World C}
    (h : Reaches valid w w') (hi : Inv valid files w) : Inv valid files w' := by
  obtain ⟨ts, h⟩ := h
  rw [h]; exact inv_foldl _ _ hi

/-- The thread with the mutex gives it back. -/
theorem release {valid : C → Bool} {w : World C} {u : Nat} (hf : w.fault = none)
    (hu : Holds (w.threads u)) :
    ∃ w', Reaches valid w w' ∧ (w'.fault ≠ none ∨
      (w'.fault = none ∧ w'.mutex = none ∧ w'.threads u = .idle ∧
        (∀ v, v ≠ u → w'.threads v = w.threads v) ∧
        (Makes (w.threads u) → w'.runtime ≠ none))) := by
  have parsed : ∀ (w : World C) (p : String) (c : C), w.fault = none →
      w.threads u = .initParsed p c → ∃ w', Reaches valid w w' ∧ (w'.fault ≠ none ∨
      (w'.fault = none ∧ w'.mutex = none ∧ w'.threads u = .idle ∧
        (∀ v, v ≠ u → w'.threads v = w.threads v))) := by
    intro w p c hf ht
    refine ⟨stepThread valid w u, Reaches.step u hf .refl, ?_⟩
    simp only [stepThread, ht, initParsed]
    split
    · right; simp only [World.goto, World.say]; grind
    · left; simp
  have built : ∀ (w : World C) (c : C), w.fault = none →
      w.threads u = .built c → ∃ w', Reaches valid w w' ∧ (w'.fault ≠ none ∨
      (w'.fault = none ∧ w'.mutex = none ∧ w'.threads u = .idle ∧
        (∀ v, v ≠ u → w'.threads v = w.threads v) ∧ w'.runtime ≠ none)) := by
    intro w c hf ht
    refine ⟨stepThread valid w u, Reaches.step u hf .refl, ?_⟩
    simp only [stepThread, ht]
    right; simp only [World.goto, World.say]; grind
  cases ht : w.threads u with
  | initHeld p =>
    have e : stepThread valid w u = initHeld w u p := by simp only [stepThread, ht]
    unfold initHeld at e
    split at e
    · refine ⟨_, Reaches.step u hf .refl, .inr ?_⟩
      rw [e]
      simp only [World.goto, World.say]
      grind [Makes]
    · split at e
      · refine ⟨_, Reaches.step u hf .refl, .inl ?_⟩
        rw [e]; simp
      · rename_i c _
        obtain ⟨w', hr, hw⟩ := parsed (stepThread valid w u) p c (by rw [e]; exact hf)
          (by rw [e]; simp [World.goto])
        refine ⟨w', Reaches.step u hf hr, ?_⟩
        rcases hw with hw | ⟨a, b, c', d⟩
        · exact .inl hw
        · refine .inr ⟨a, b, c', ?_, by simp [Makes]⟩
          intro v hv
          rw [d v hv, e]; simp [World.goto, hv]
  | initParsed p c =>
    obtain ⟨w', hr, hw⟩ := parsed w p c hf ht
    refine ⟨w', hr, ?_⟩
    rcases hw with hw | ⟨a, b, c', d⟩
    · exact .inl hw
    · exact .inr ⟨a, b, c', d, by simp [Makes]⟩
  | makingHeld =>
    have e : stepThread valid w u = makingHeld w u := by simp only [stepThread, ht]
    have hb : (stepThread valid w u).fault ≠ none ∨ (stepThread valid w u).fault = none ∧
        (∃ c, (stepThread valid w u).threads u = .built c) ∧
        ∀ v, v ≠ u → (stepThread valid w u).threads v = w.threads v := by
      rw [e]; unfold makingHeld
      split
      · right; simp only [World.goto]; grind
      · split
        · left; simp
        · right; simp only [World.goto]; grind
    rcases hb with hb | ⟨hb, ⟨c, hc⟩, hv⟩
    · exact ⟨_, Reaches.step u hf .refl, .inl hb⟩
    · obtain ⟨w', hr, hw⟩ := built _ c hb hc
      refine ⟨w', Reaches.step u hf hr, ?_⟩
      rcases hw with hw | ⟨a, b, c', d, f⟩
      · exact .inl hw
      · exact .inr ⟨a, b, c', fun v h => by rw [d v h, hv v h], fun _ => f⟩
  | built c =>
    obtain ⟨w', hr, hw⟩ := built w c hf ht
    refine ⟨w', hr, ?_⟩
    rcases hw with hw | ⟨a, b, c', d, f⟩
    · exact .inl hw
    · exact .inr ⟨a, b, c', d, fun _ => f⟩
  | idle => rw [ht] at hu; exact hu.elim
  | initWait p => rw [ht] at hu; exact hu.elim
  | useWait => rw [ht] at hu; exact hu.elim
  | making => rw [ht] at hu; exact hu.elim

/-- The mutex becomes free, and a thread without it stays where it is. -/
theorem free_mutex {valid : C → Bool} {files : String → Option C} {w : World C}
    (h : Inv valid files w) (hf : w.fault = none) :
    ∃ w', Reaches valid w w' ∧ (w'.fault ≠ none ∨
      (w'.fault = none ∧ w'.mutex = none ∧
        ∀ t, ¬ Holds (w.threads t) → w'.threads t = w.threads t)) := by
  cases hm : w.mutex with
  | none => exact ⟨w, .refl, .inr ⟨hf, hm, fun _ _ => rfl⟩⟩
  | some u =>
    have hu := h.mutexOf u hm
    obtain ⟨w', hr, hw⟩ := release (valid := valid) hf hu
    refine ⟨w', hr, ?_⟩
    rcases hw with hw | ⟨a, b, _, d, _⟩
    · exact .inl hw
    · refine .inr ⟨a, b, fun t ht => d t ?_⟩
      intro e; subst e; exact ht hu

/-- The thread that makes the runtime ends with it. -/
theorem make_ends {valid : C → Bool} {files : String → Option C} {w : World C} {u : Nat}
    (h : Inv valid files w) (hf : w.fault = none) (hu : Makes (w.threads u)) :
    ∃ w', Reaches valid w w' ∧ (w'.fault ≠ none ∨
      (w'.fault = none ∧ w'.threads u = .idle ∧ w'.runtime ≠ none ∧
        ∀ v, w.threads v = .useWait → w'.threads v = .useWait)) := by
  by_cases hh : Holds (w.threads u)
  · obtain ⟨w', hr, hw⟩ := release (valid := valid) hf hh
    refine ⟨w', hr, ?_⟩
    rcases hw with hw | ⟨a, _, c, d, e⟩
    · exact .inl hw
    · refine .inr ⟨a, c, e hu, fun v hv => ?_⟩
      rw [d v (by intro e; subst e; rw [hv] at hu; exact hu), hv]
  · have ht : w.threads u = .making := by
      cases e : w.threads u <;> simp_all [Makes, Holds]
    obtain ⟨w1, hr1, hw1⟩ := free_mutex h hf
    rcases hw1 with hw1 | ⟨a, b, c⟩
    · exact ⟨w1, hr1, .inl hw1⟩
    · have hall := c
      replace c := c u hh
      rw [ht] at c
      have e : stepThread valid w1 u =
          { w1 with mutex := some u, locked := true }.goto u .makingHeld := by
        simp only [stepThread, c, b]
      have e1 : (stepThread valid w1 u).threads u = .makingHeld := by
        rw [e]; simp [World.goto]
      have e2 : (stepThread valid w1 u).fault = none := by rw [e]; exact a
      obtain ⟨w', hr, hw⟩ := release (valid := valid) (u := u) e2 (by rw [e1]; trivial)
      refine ⟨w', hr1.trans (Reaches.step u a hr), ?_⟩
      rcases hw with hw | ⟨a', _, c', d', e'⟩
      · exact .inl hw
      · refine .inr ⟨a', c', e' (by rw [e1]; trivial), fun v hv => ?_⟩
        have hne : v ≠ u := by intro x; subst x; rw [ht] at hv; cases hv
        rw [d' v hne, e]
        simp only [World.goto, hne, if_false]
        rw [hall v (by rw [hv]; simp [Holds]), hv]

theorem use_ends {valid : C → Bool} {w : World C} {t : Nat} (hf : w.fault = none)
    (ht : w.threads t = .useWait) (hr : w.runtime ≠ none) :
    ∃ w', Reaches valid w w' ∧ (w'.fault ≠ none ∨ w'.threads t = .idle) := by
  refine ⟨_, Reaches.step t hf .refl, .inr ?_⟩
  cases h : w.runtime with
  | none => exact absurd h hr
  | some c => simp [stepThread, ht, useWait, h, World.goto, World.say]

theorem call_ends {valid : C → Bool} {files : String → Option C} {w : World C}
    (h : Inv valid files w) (hf : w.fault = none) (t : Nat) :
    ∃ w', Reaches valid w w' ∧ (w'.fault ≠ none ∨ w'.threads t = .idle) := by
  by_cases hh : Holds (w.threads t)
  · obtain ⟨w', hr, hw⟩ := release (valid := valid) hf hh
    exact ⟨w', hr, hw.imp id fun a => a.2.2.1⟩
  · by_cases hm : Makes (w.threads t)
    · obtain ⟨w', hr, hw⟩ := make_ends h hf hm
      exact ⟨w', hr, hw.imp id fun a => a.2.1⟩
    · cases ht : w.threads t with
      | idle => exact ⟨w, .refl, .inr ht⟩
      | initWait p =>
        obtain ⟨w1, hr1, hw1⟩ := free_mutex h hf
        rcases hw1 with hw1 | ⟨a, b, c⟩
        · exact ⟨w1, hr1, .inl hw1⟩
        · replace c := c t hh
          rw [ht] at c
          have e : stepThread valid w1 t = { w1 with mutex := some t }.goto t (.initHeld p) := by
            simp only [stepThread, c, b]
          have e1 : (stepThread valid w1 t).threads t = .initHeld p := by
            rw [e]; simp [World.goto]
          have e2 : (stepThread valid w1 t).fault = none := by rw [e]; exact a
          obtain ⟨w', hr, hw⟩ := release (valid := valid) (u := t) e2 (by rw [e1]; trivial)
          exact ⟨w', hr1.trans (Reaches.step t a hr), hw.imp id fun a => a.2.2.1⟩
      | useWait =>
        cases hr : w.runtime with
        | some c => exact use_ends hf ht (by rw [hr]; simp)
        | none =>
          cases hg : w.guard with
          | none =>
            have e : stepThread valid w t = { w with guard := some t }.goto t .making := by
              simp only [stepThread, ht, useWait, hr, hg]
            have e1 : (stepThread valid w t).threads t = .making := by
              rw [e]; simp [World.goto]
            have e2 : (stepThread valid w t).fault = none := by rw [e]; exact hf
            obtain ⟨w', hr, hw⟩ := make_ends (u := t) (inv_stepThread h t) e2 (by rw [e1]; trivial)
            exact ⟨w', Reaches.step t hf hr, hw.imp id fun a => a.2.1⟩
          | some u =>
            obtain ⟨w1, hr1, hw1⟩ := make_ends h hf (h.guardOf u hg)
            rcases hw1 with hw1 | ⟨a, _, c, d⟩
            · exact ⟨w1, hr1, .inl hw1⟩
            · obtain ⟨w2, hr2, hw2⟩ := use_ends (valid := valid) a (d t ht) c
              exact ⟨w2, hr1.trans hr2, hw2⟩
      | _ => simp_all [Holds, Makes]

/-! ## The thread and its last event -/

def Fits (t : Nat) (x : Pc C) (log : List (Ev C)) : Prop :=
  match x with
  | .idle => Returned t log
  | .initWait p => lastOf t log = some (.callInit t p)
  | .initHeld p => lastOf t log = some (.callInit t p)
  | .initParsed p _ => lastOf t log = some (.callInit t p)
  | _ => lastOf t log = some (.callUse t)

def Answers : Ev C → List (Ev C) → Prop
  | .kept t p _, pre => lastOf t pre = some (.callInit t p)
  | .ignored t, pre => ∃ p, lastOf t pre = some (.callInit t p)
  | .used t _, pre => lastOf t pre = some (.callUse t)
  | _, _ => True

def AllAnswer : List (Ev C) → Prop
  | [] => True
  | e :: pre => Answers e pre ∧ AllAnswer pre

theorem AllAnswer.at_ {e : Ev C} {pre : List (Ev C)} :
    ∀ {post}, AllAnswer (post ++ e :: pre) → Answers e pre
  | [], h => h.1
  | _ :: _, h => AllAnswer.at_ h.2

structure Told (w : World C) : Prop where
  fits : ∀ t, Fits t (w.threads t) w.log
  answers : AllAnswer w.log

theorem Fits.cons {u : Nat} {x : Pc C} {log : List (Ev C)} {e : Ev C} (h : Fits u x log)
    (he : e.thread ≠ some u) : Fits u x (e :: log) := by
  cases x <;> simp_all [Fits, Returned, lastOf_cons]

theorem told_goto {w w' : World C} (h : Told w) {t : Nat} {x : Pc C}
    (hx : Fits t x w.log) (ht : w'.threads = fun u => if u = t then x else w.threads u)
    (hl : w'.log = w.log) : Told w' := by
  refine ⟨fun u => ?_, by rw [hl]; exact h.answers⟩
  rw [ht, hl]
  dsimp only
  split
  · rename_i e; rw [e]; exact hx
  · exact h.fits u

theorem told_say {w w' : World C} (h : Told w) {t : Nat} {x : Pc C} {e : Ev C}
    (het : e.thread = some t) (hx : Fits t x (e :: w.log))
    (ht : w'.threads = fun u => if u = t then x else w.threads u)
    (hl : w'.log = e :: w.log) (ha : Answers e w.log) : Told w' := by
  refine ⟨fun u => ?_, by rw [hl]; exact ⟨ha, h.answers⟩⟩
  rw [ht, hl]
  dsimp only
  split
  · rename_i e; rw [e]; exact hx
  · rename_i n
    exact (h.fits u).cons (by rw [het]; simpa using fun a => n a.symm)

theorem told_stepThread {valid : C → Bool} {w : World C} (h : Told w) (t : Nat) :
    Told (stepThread valid w t) := by
  have hf := h.fits t
  unfold stepThread
  split
  · exact h
  · rename_i p ht
    rw [ht] at hf
    split
    · exact told_goto h (x := .initHeld p) hf rfl rfl
    · exact h
  · rename_i p ht
    rw [ht] at hf
    unfold initHeld
    split
    · exact told_say h (x := .idle) (e := .ignored t) rfl
        (by simp [Fits, Returned, lastOf, Ev.thread]) rfl rfl ⟨p, hf⟩
    · split
      · exact ⟨h.fits, h.answers⟩
      · rename_i c _; exact told_goto h (x := .initParsed p c) hf rfl rfl
  · rename_i p c ht
    rw [ht] at hf
    unfold initParsed
    split
    · exact told_say h (x := .idle) (e := .kept t p c) rfl
        (by simp [Fits, Returned, lastOf, Ev.thread]) rfl rfl hf
    · exact ⟨h.fits, h.answers⟩
  · rename_i ht
    rw [ht] at hf
    unfold useWait
    split
    · rename_i c _
      exact told_say h (x := .idle) (e := .used t c) rfl
        (by simp [Fits, Returned, lastOf, Ev.thread]) rfl rfl hf
    · split
      · exact told_goto h (x := .making) hf rfl rfl
      · exact h
  · rename_i ht
    rw [ht] at hf
    split
    · exact told_goto h (x := .makingHeld) hf rfl rfl
    · exact h
  · rename_i ht
    rw [ht] at hf
    unfold makingHeld
    split
    · rename_i c _; exact told_goto h (x := .built c) hf rfl rfl
    · split
      · exact ⟨h.fits, h.answers⟩
      · rename_i c _; exact told_goto h (x := .built c) hf rfl rfl
  · rename_i c ht
    rw [ht] at hf
    exact told_say h (x := .idle) (e := .used t c) rfl
      (by simp [Fits, Returned, lastOf, Ev.thread]) rfl rfl hf

theorem told_step {valid : C → Bool} {w : World C} (h : Told w) (o : Op C) :
    Told (step valid w o) := by
  unfold step
  split
  · exact h
  · cases o with
    | file p c =>
      exact ⟨fun u => (h.fits u).cons (by simp [Ev.thread]), ⟨trivial, h.answers⟩⟩
    | initCall t p =>
      dsimp only
      split
      · exact told_say h (x := .initWait p) (e := .callInit t p) rfl
          (by simp [Fits, lastOf, Ev.thread]) rfl rfl trivial
      · exact h
    | use t =>
      dsimp only
      split
      · exact told_say h (x := .useWait) (e := .callUse t) rfl
          (by simp [Fits, lastOf, Ev.thread]) rfl rfl trivial
      · exact h
    | step t => exact told_stepThread h t

theorem told_foldl {valid : C → Bool} : ∀ (ops : List (Op C)) (w : World C), Told w →
    Told (ops.foldl (step valid) w)
  | [], _, h => h
  | o :: ops, _, h => told_foldl ops _ (told_step h o)

theorem told_run (valid : C → Bool) (files : String → Option C) (ops : List (Op C)) :
    Told (run valid files ops) :=
  told_foldl ops _ ⟨fun t => by simp [Fits, Returned, lastOf], trivial⟩

/-! ## Files that are all right -/

structure Fine (valid : C → Bool) (w : World C) : Prop where
  files_ : ∀ p, ∃ c, w.files p = some c ∧ valid c = true
  parsed : ∀ t p c, w.threads t = .initParsed p c → valid c = true
  fault_ : w.fault = none

theorem fine_stepThread {valid : C → Bool} {w : World C} (h : Fine valid w) (t : Nat) :
    Fine valid (stepThread valid w t) := by
  have hg : ∀ (w' : World C) (x : Pc C), (∀ p c, x = .initParsed p c → valid c = true) →
      w'.files = w.files → w'.threads = (fun u => if u = t then x else w.threads u) →
      w'.fault = none → Fine valid w' := by
    intro w' x hx e1 e2 e3
    refine ⟨by rw [e1]; exact h.files_, ?_, e3⟩
    intro u p c hu
    rw [e2] at hu
    dsimp only at hu
    split at hu
    · exact hx p c hu
    · exact h.parsed u p c hu
  unfold stepThread
  split
  · exact h
  · rename_i p ht
    split
    · exact hg _ (.initHeld p) (by simp) rfl rfl h.fault_
    · exact h
  · rename_i p ht
    unfold initHeld
    split
    · exact hg _ .idle (by simp) rfl rfl h.fault_
    · obtain ⟨d, hd, hv⟩ := h.files_ p
      rw [hd]
      exact hg _ (.initParsed p d) (by
        intro q c e; injection e with _ e; rw [← e]; exact hv) rfl rfl h.fault_
  · rename_i p c ht
    unfold initParsed
    rw [if_pos (h.parsed t p c ht)]
    exact hg _ .idle (by simp) rfl rfl h.fault_
  · unfold useWait
    split
    · exact hg _ .idle (by simp) rfl rfl h.fault_
    · split
      · exact hg _ .making (by simp) rfl rfl h.fault_
      · exact h
  · split
    · exact hg _ .makingHeld (by simp) rfl rfl h.fault_
    · exact h
  · unfold makingHeld
    split
    · rename_i c _; exact hg _ (.built c) (by simp) rfl rfl h.fault_
    · obtain ⟨d, hd, hv⟩ := h.files_ defaultPath
      rw [hd]
      exact hg _ (.built d) (by simp) rfl rfl h.fault_
  · exact hg _ .idle (by simp) rfl rfl h.fault_

theorem fine_foldl {valid : C → Bool} : ∀ (ops : List (Op C)) (w : World C),
    (∀ p d, Op.file p d ∈ ops → ∃ c, d = some c ∧ valid c = true) → Fine valid w →
    Fine valid (ops.foldl (step valid) w)
  | [], _, _, h => h
  | o :: ops, w, ho, h => by
    refine fine_foldl ops _ (fun p d m => ho p d (List.mem_cons_of_mem _ m)) ?_
    unfold step
    rw [h.fault_]
    dsimp only
    cases o with
    | file p c =>
      obtain ⟨d, hd⟩ := ho p c List.mem_cons_self
      obtain ⟨h1, h2, h3⟩ := h
      refine ⟨fun q => ?_, h2, by simp [World.say]⟩
      by_cases e : q = p
      · exact ⟨d, by simp [World.say, e, hd.1], hd.2⟩
      · obtain ⟨c', hc'⟩ := h1 q
        exact ⟨c', by simp [World.say, e, hc'.1], hc'.2⟩
    | initCall t p =>
      obtain ⟨h1, h2, h3⟩ := h
      dsimp only
      split
      · refine ⟨h1, ?_, h3⟩
        intro u q c hu
        simp only [World.goto, World.say] at hu
        split at hu
        · cases hu
        · exact h2 u q c hu
      · exact ⟨h1, h2, h3⟩
    | use t =>
      obtain ⟨h1, h2, h3⟩ := h
      dsimp only
      split
      · refine ⟨h1, ?_, h3⟩
        intro u q c hu
        simp only [World.goto, World.say] at hu
        split at hu
        · cases hu
        · exact h2 u q c hu
      · exact ⟨h1, h2, h3⟩
    | step t => exact fine_stepThread h t

/-! ## The command line -/

theorem not_key {a : String} (h1 : a ≠ key) (h2 : a ≠ oldKey) : ¬ IsKey a := by
  rintro (h | h)
  · exact h1 h
  · exact h2 h

theorem is_key {a : String} (h : ¬ (a ≠ key ∧ a ≠ oldKey)) : IsKey a := by
  by_cases e : a = key
  · exact .inl e
  · by_cases e' : a = oldKey
    · exact .inr e'
    · exact absurd ⟨e, e'⟩ h

theorem parsePath_key {k : String} (hk : IsKey k) (rest : List String) :
    parsePath (k :: rest) = match rest with
      | [] => some .terminate
      | p :: _ => some (.path p) := by
  unfold parsePath
  by_cases e : k = key
  · rw [if_pos e]; cases rest <;> rfl
  · have e' : k = oldKey := hk.resolve_left e
    rw [if_neg e, if_pos e']; cases rest <;> rfl

theorem parsePath_other {a : String} (h : ¬ IsKey a) (rest : List String) :
    parsePath (a :: rest) = parsePath rest := by
  have h1 : a ≠ key := fun e => h (.inl e)
  have h2 : a ≠ oldKey := fun e => h (.inr e)
  simp [parsePath, h1, h2]

theorem parsePath_pre : ∀ (pre rest : List String), (∀ a ∈ pre, ¬ IsKey a) →
    parsePath (pre ++ rest) = parsePath rest
  | [], _, _ => rfl
  | a :: pre, rest, h => by
    rw [List.cons_append, parsePath_other (h a List.mem_cons_self)]
    exact parsePath_pre pre rest (fun b m => h b (List.mem_cons_of_mem _ m))

/-- The arguments up to the first key. -/
theorem first_key : ∀ args : List String, (∀ a ∈ args, ¬ IsKey a) ∨
    ∃ pre k post, args = pre ++ k :: post ∧ IsKey k ∧ ∀ a ∈ pre, ¬ IsKey a
  | [] => .inl (by simp)
  | a :: args => by
    by_cases h : IsKey a
    · exact .inr ⟨[], a, args, rfl, h, by simp⟩
    · rcases first_key args with h' | ⟨pre, k, post, e, h1, h2⟩
      · left; intro b hb; rcases List.mem_cons.mp hb with hb | hb
        · rw [hb]; exact h
        · exact h' b hb
      · refine .inr ⟨a :: pre, k, post, by rw [e]; rfl, h1, ?_⟩
        intro b hb; rcases List.mem_cons.mp hb with hb | hb
        · rw [hb]; exact h
        · exact h2 b hb

theorem ofArgs_none {args : List String} (h : ∀ a ∈ args, ¬ IsKey a) :
    ofArgs args = .path defaultPath := by
  have : parsePath args = none := by
    have := parsePath_pre args [] h
    rw [List.append_nil] at this; rw [this]; rfl
  simp [ofArgs, this]

theorem ofArgs_key {pre post : List String} {k : String} (hk : IsKey k)
    (h : ∀ a ∈ pre, ¬ IsKey a) : ofArgs (pre ++ k :: post) = match post with
      | [] => .terminate
      | p :: _ => .path p := by
  unfold ofArgs
  rw [parsePath_pre _ _ h, parsePath_key hk]
  cases post <;> rfl

theorem lastKept_mem : ∀ {log : List (Ev C)} {c : C}, lastKept log = some c →
    ∃ post t p pre, log = post ++ Ev.kept t p c :: pre
  | e :: log, c, h => by
    cases e with
    | kept t p d => simp only [lastKept] at h; injection h with h; subst h; exact ⟨[], t, p, log, rfl⟩
    | file => obtain ⟨a, t, p, b, h⟩ := lastKept_mem (log := log) h; exact ⟨_ :: a, t, p, b, by rw [h]; rfl⟩
    | callInit => obtain ⟨a, t, p, b, h⟩ := lastKept_mem (log := log) h; exact ⟨_ :: a, t, p, b, by rw [h]; rfl⟩
    | ignored => obtain ⟨a, t, p, b, h⟩ := lastKept_mem (log := log) h; exact ⟨_ :: a, t, p, b, by rw [h]; rfl⟩
    | callUse => obtain ⟨a, t, p, b, h⟩ := lastKept_mem (log := log) h; exact ⟨_ :: a, t, p, b, by rw [h]; rfl⟩
    | used => obtain ⟨a, t, p, b, h⟩ := lastKept_mem (log := log) h; exact ⟨_ :: a, t, p, b, by rw [h]; rfl⟩

theorem lastKept_of_mem : ∀ {log : List (Ev C)} {t : Nat} {p : String} {c : C},
    Ev.kept t p c ∈ log → ∃ d, lastKept log = some d
  | e :: log, t, p, c, h => by
    cases e with
    | kept t' p' d => exact ⟨d, rfl⟩
    | _ => exact lastKept_of_mem (log := log) (by simpa using h)

end Verif.RuntimeInit
