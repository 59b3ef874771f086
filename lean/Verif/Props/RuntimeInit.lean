import Verif.Proofs.RuntimeInit

/-!
# C121: the configuration in use is the one that was named last before the first use
-/
namespace Verif.Demo.RuntimeInit
open Verif.RuntimeInit

/-- Configurations are numbers, and those from 100 on are not valid. -/
def valid (c : Nat) : Bool := c < 100

/-- Each file says how long its name is, but one is not valid. -/
def files (p : String) : Option Nat := if p = "bad" then some 100 else some p.length

/-- Two initialisations, a use that overlaps the second, and a third one that is too late. -/
def ops : List (Op Nat) :=
  [.initCall 0 "abc", .step 0, .step 0, .step 0, .initCall 0 "abcd", .step 0, .use 1, .step 1,
   .step 1, .step 0, .file "abcd" none, .step 0, .step 1, .step 1, .step 1, .initCall 0 "x",
   .step 0, .step 0, .use 2, .step 2]

/-- Nobody names a file, and the default one is not valid. -/
def badOps : List (Op Nat) :=
  [.file defaultPath (some 100), .use 0, .step 0, .step 0, .step 0, .step 0]

end Verif.Demo.RuntimeInit

namespace Verif.Props.C121
open Verif.RuntimeInit

variable {C : Type}

/-- The path is the argument after the first `--service_instance_manifest` or
`-service_instance_manifest`, whatever the other arguments are.  Without such an argument it is
`./etc/mw_com_config.json`. -/
theorem path_named (args : List String) (p : String) :
    ofArgs args = .path p ↔
      (∃ pre k post, args = pre ++ k :: p :: post ∧ IsKey k ∧ ∀ a ∈ pre, ¬ IsKey a) ∨
      ((∀ a ∈ args, ¬ IsKey a) ∧ p = "./etc/mw_com_config.json") := by
  constructor
  · intro h
    rcases first_key args with hn | ⟨pre, k, post, e, hk, hp⟩
    · rw [ofArgs_none hn] at h; injection h with h; exact .inr ⟨hn, h.symm⟩
    · rw [e, ofArgs_key hk hp] at h
      cases post with
      | nil => cases h
      | cons q post =>
        injection h with h; subst h
        exact .inl ⟨pre, k, post, e, hk, hp⟩
  · rintro (⟨pre, k, post, e, hk, hp⟩ | ⟨hn, e⟩)
    · rw [e, ofArgs_key hk hp]
    · rw [ofArgs_none hn, e]; rfl

example : ofArgs ["prog", "-v", "-service_instance_manifest", "a.json",
    "--service_instance_manifest", "b.json"] = .path "a.json" := by decide +kernel

/-- The process ends if and only if such an argument is the first of its kind and the last of
all. -/
theorem path_missing (args : List String) :
    ofArgs args = .terminate ↔
      ∃ pre k, args = pre ++ [k] ∧ IsKey k ∧ ∀ a ∈ pre, ¬ IsKey a := by
  constructor
  · intro h
    rcases first_key args with hn | ⟨pre, k, post, e, hk, hp⟩
    · rw [ofArgs_none hn] at h; cases h
    · rw [e, ofArgs_key hk hp] at h
      cases post with
      | nil => exact ⟨pre, k, e, hk, hp⟩
      | cons q post => cases h
  · rintro ⟨pre, k, e, hk, hp⟩
    rw [e, ofArgs_key hk hp]

example : ofArgs ["prog", "--service_instance_manifest"] = .terminate := by decide +kernel

/-- Who gets the runtime gets it with the configuration of the last initialisation that was
kept, or without any with what the default file said after the runtime was first asked for.
This is so at the time of the use and stays so for ever. -/
theorem used_is_expected (valid : C → Bool) (files : String → Option C) (ops : List (Op C))
    (post pre : List (Ev C)) (t : Nat) (c : C)
    (h : (run valid files ops).log = post ++ .used t c :: pre) :
    Expected files pre c ∧ Expected files (run valid files ops).log c ∧
      lastOf t pre = some (.callUse t) := by
  have hi := inv_run valid files ops
  have hg := hi.good
  have ha := (told_run valid files ops).answers
  rw [h] at hg ha
  refine ⟨(AllGood.at_ hg).1, ?_, AllAnswer.at_ ha⟩
  exact (hi.made c (hi.used t c (by rw [h]; simp))).2

open Verif.Demo.RuntimeInit in
example : lastKept (run valid files ops).log = some 4 ∧
    (run valid files ops).log.head? matches some (.used 2 4) := by decide +kernel

/-- All get the same configuration. -/
theorem one_runtime (valid : C → Bool) (files : String → Option C) (ops : List (Op C))
    (t u : Nat) (c d : C) (hc : Ev.used t c ∈ (run valid files ops).log)
    (hd : Ev.used u d ∈ (run valid files ops).log) : c = d := by
  have hi := inv_run valid files ops
  have a := hi.used t c hc
  have b := hi.used u d hd
  rw [a] at b; injection b

/-- An initialisation that is kept has read its file in the call, the configuration is valid,
and nobody has got the runtime before. -/
theorem kept_is_read (valid : C → Bool) (files : String → Option C) (ops : List (Op C))
    (post pre : List (Ev C)) (t : Nat) (p : String) (c : C)
    (h : (run valid files ops).log = post ++ .kept t p c :: pre) :
    ReadInCall files pre t p c ∧ valid c = true ∧ ¬ Used pre := by
  have hg := (inv_run valid files ops).good
  rw [h] at hg
  exact AllGood.at_ hg

/-- An initialisation is ignored only if some thread has asked for the runtime before. -/
theorem ignored_only_after_use (valid : C → Bool) (files : String → Option C) (ops : List (Op C))
    (post pre : List (Ev C)) (t : Nat)
    (h : (run valid files ops).log = post ++ .ignored t :: pre) :
    Wanted pre ∧ ∃ p, lastOf t pre = some (.callInit t p) := by
  have hg := (inv_run valid files ops).good
  have ha := (told_run valid files ops).answers
  rw [h] at hg ha
  exact ⟨AllGood.at_ hg, AllAnswer.at_ ha⟩

open Verif.Demo.RuntimeInit in
example : (run valid files ops).log.any (fun e => e matches .ignored 0) ∧
    (run valid files ops).log.any (fun e => e matches .kept 0 "abcd" 4) := by decide +kernel

/-- Each call returns if the threads go on, or the process ends. -/
theorem call_returns (valid : C → Bool) (files : String → Option C) (ops : List (Op C))
    (t : Nat) :
    ∃ ts, (run valid files (ops ++ steps ts)).fault ≠ none ∨
      Returned t (run valid files (ops ++ steps ts)).log := by
  by_cases hf : (run valid files ops).fault = none
  · obtain ⟨w', ⟨ts, e⟩, hw⟩ := call_ends (inv_run valid files ops) hf t
    refine ⟨ts, ?_⟩
    have hr : run valid files (ops ++ steps ts) = w' := by
      rw [e]; simp [run, List.foldl_append]
    have hT := (told_run valid files (ops ++ steps ts)).fits t
    rw [hr] at hT ⊢
    rcases hw with hw | hw
    · exact .inl hw
    · rw [hw] at hT; exact .inr hT
  · exact ⟨[], .inl (by simpa [steps] using hf)⟩

/-- The process does not end if all files are all right. -/
theorem goes_on (valid : C → Bool) (files : String → Option C) (ops : List (Op C))
    (hf : ∀ p, ∃ c, files p = some c ∧ valid c = true)
    (ho : ∀ p d, Op.file p d ∈ ops → ∃ c, d = some c ∧ valid c = true) :
    (run valid files ops).fault = none :=
  (fine_foldl ops _ ho ⟨hf, by simp, rfl⟩).fault_

example : (∀ p : String, ∃ c, (fun _ => some 7 : String → Option Nat) p = some c ∧
    Verif.Demo.RuntimeInit.valid c = true) := fun _ => ⟨7, rfl, by decide⟩

/-- The configuration in use is valid, if an initialisation was kept.  Missing: without one it
is that of the default file, which nobody checks. -/
theorem used_is_valid_partial (valid : C → Bool) (files : String → Option C) (ops : List (Op C))
    (t u : Nat) (p : String) (c d : C) (hc : Ev.used t c ∈ (run valid files ops).log)
    (hd : Ev.kept u p d ∈ (run valid files ops).log) : valid c = true := by
  have hi := inv_run valid files ops
  have he := (hi.made c (hi.used t c hc)).2
  obtain ⟨d', hk⟩ := lastKept_of_mem hd
  unfold Expected at he
  rw [hk] at he
  dsimp only at he
  subst he
  obtain ⟨post, v, q, pre, hl⟩ := lastKept_mem hk
  exact (kept_is_read valid files ops post pre v q c hl).2.1

/-- **Violated.**  The runtime is used with a configuration that is not valid: `Initialize`
checks what it has parsed, but the default file is not checked (runtime.cpp 195-200). -/
theorem used_is_valid_fails :
    ¬ ∀ (valid : Nat → Bool) (files : String → Option Nat) (ops : List (Op Nat)) (t : Nat)
      (c : Nat), Ev.used t c ∈ (run valid files ops).log → valid c = true := by
  intro h
  have := h Verif.Demo.RuntimeInit.valid Verif.Demo.RuntimeInit.files
    Verif.Demo.RuntimeInit.badOps 0 100 (by
      have e : (run Verif.Demo.RuntimeInit.valid Verif.Demo.RuntimeInit.files
        Verif.Demo.RuntimeInit.badOps).log =
        [.used 0 100, .callUse 0, .file defaultPath (some 100)] := rfl
      rw [e]; simp)
  exact absurd this (by decide)

end Verif.Props.C121
