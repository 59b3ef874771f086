import Verif.Proofs.OfferAlone
/-! C75: offering a service makes it visible, and stopping the offer makes it invisible. The theorems named `_partial` are about
histories in which the calls for one instance do not overlap and no two processes offer the same instance at the same time;
`concurrent_offers_break` shows that this is needed. -/
namespace Verif.Demo.C75
open Verif.Offer

/-- Thread 0 belongs to process 0, all others to process 1. -/
def cfg : Cfg := fun t => if t = 0 then 0 else 1

/-- Process 0 offers instance 7 with both qualities. -/
def offered : List Op := .start 0 100 :: .offer 0 7 true :: alone 0 11

theorem offered_orderly : OrderlyRun cfg init offered := by
  refine ⟨trivial, ⟨?_, fun _ _ => rfl⟩, orderly_alone _ _ _ _⟩
  rintro ⟨t, h⟩
  cases h

end Verif.Demo.C75

namespace Verif.Props.C75
open Verif.Offer Verif.Demo.C75

/-- While a process offers an instance in a quality, there is exactly one flag file of this instance and quality: its own. -/
theorem offered_is_visible_partial (c : Cfg) (ops : List Op) (ho : OrderlyRun c init ops) (p i : Nat) (q : Qual)
    (h : q ∈ offers (run c init ops).log p i) :
    ∃ d, ∀ f : File, (f ∈ (run c init ops).files ∧ f.inst = i ∧ f.q = q) ↔ f = ⟨i, q, p, d⟩ := by
  have hd := disc_run (disc_init c) ops ho
  rw [hd.tblQ] at h
  cases ht : (run c init ops).tbl p i with
  | none => rw [ht] at h; cases h
  | some o => rw [ht] at h; exact ⟨o.dis, hd.mine p i o ht q h⟩

/-- A flag file of an instance for which no call is running belongs to a process that offers the instance in this quality, unless it
is left over from a process that has ended or from a failed change of permissions. -/
theorem visible_is_offered_partial (c : Cfg) (ops : List Op) (ho : OrderlyRun c init ops) (f : File)
    (hf : f ∈ (run c init ops).files) (hb : ¬ (run c init ops).Busy f.inst) (hl : ¬ LeftOver (run c init ops).log f) :
    f.q ∈ offers (run c init ops).log f.pid f.inst := by
  rcases (acc_run (acc_init c) ops).held f hf with h | ⟨o, h1, -, h2⟩ | ⟨t, h1⟩
  · exact absurd h hl
  · rw [(disc_run (disc_init c) ops ho).tblQ, h1]; exact h2
  · refine absurd ⟨t, ?_⟩ hb
    obtain ⟨-, h2⟩ := h1
    cases hpc : (run c init ops).pc t <;> rw [hpc] at h2 <;> first | exact h2.elim | (rw [h2.1]; rfl)

/-- In every history, however the calls overlap: a flag file that is not left over is one that its process still knows of, in its
table of offers or in a call for the instance that is running. -/
theorem every_file_has_an_owner (c : Cfg) (ops : List Op) (f : File) (hf : f ∈ (run c init ops).files)
    (hl : ¬ LeftOver (run c init ops).log f) :
    (∃ o, (run c init ops).tbl f.pid f.inst = some o ∧ o.dis = f.dis ∧ f.q ∈ o.quals) ∨
      ∃ t, c t = f.pid ∧ ((run c init ops).pc t).inst = some f.inst := by
  rcases (acc_run (acc_init c) ops).held f hf with h | h | ⟨t, h1⟩
  · exact absurd h hl
  · exact .inl h
  · refine .inr ⟨t, h1.1.symm, ?_⟩
    obtain ⟨-, h2⟩ := h1
    cases hpc : (run c init ops).pc t <;> rw [hpc] at h2 <;> first | exact h2.elim | (rw [h2.1]; rfl)

/-- When no process offers an instance and no call for it is running, all flag files that remain of it are left over. -/
theorem stopped_is_invisible_partial (c : Cfg) (ops : List Op) (ho : OrderlyRun c init ops) (i : Nat)
    (hb : ¬ (run c init ops).Busy i) (hn : ∀ p, offers (run c init ops).log p i = []) (f : File)
    (hf : f ∈ (run c init ops).files) (hi : f.inst = i) : LeftOver (run c init ops).log f := by
  refine Classical.byContradiction fun hl => ?_
  have := visible_is_offered_partial c ops ho f hf (by rw [hi]; exact hb) hl
  rw [hi, hn] at this
  cases this

/-- No two processes offer the same instance. -/
theorem one_provider_partial (c : Cfg) (ops : List Op) (ho : OrderlyRun c init ops) (p p' i : Nat)
    (h : offers (run c init ops).log p i ≠ []) (h' : offers (run c init ops).log p' i ≠ []) : p = p' := by
  obtain ⟨q, hq⟩ := List.exists_mem_of_ne_nil _ h
  obtain ⟨q', hq'⟩ := List.exists_mem_of_ne_nil _ h'
  exact (disc_run (disc_init c) ops ho).excl p p' i q q' hq hq'

/-- No process terminates itself as long as the file system does not refuse to remove a flag file. -/
theorem no_termination_partial (c : Cfg) (ops : List Op) (ho : OrderlyRun c init ops) (hr : RemovableRun c init ops) (p : Nat) :
    Ev.terminated p ∉ (run c init ops).log := fun hm => by
  cases term_run (disc_init c) ops ho hr p hm

/-- OfferService succeeds and makes the instance visible in all its qualities, whatever flag files are left over, when no file
operation fails, the calls of the process have all returned, and the process has not offered the instance without stopping both
qualities since. -/
theorem offer_succeeds_partial (c : Cfg) (ops : List Op) (t i : Nat) (b : Bool) (ho : OrderlyRun c init (ops ++ [.offer t i b]))
    (hup : (run c init ops).up (c t) = true) (hidle : ∀ t', c t' = c t → (run c init ops).pc t' = .idle)
    (hreg : registered (run c init ops).log (c t) i = false) :
    ∃ n log, let s := run c init (ops ++ .offer t i b :: List.replicate n (.next t true))
      s.pc t = .idle ∧ s.log = .offered (c t) i b :: log ∧
      ∀ q ∈ (if b then [Qual.b, Qual.qm] else [Qual.qm]), ∃ d, ∀ f : File,
        (f ∈ s.files ∧ f.inst = i ∧ f.q = q) ↔ f = ⟨i, q, c t, d⟩ := by
  have split : ∀ (a b : List Op) (s : St), OrderlyRun c s (a ++ b) ↔ OrderlyRun c s a ∧ OrderlyRun c (run c s a) b := by
    intro a
    induction a with
    | nil => intro b s; exact ⟨fun h => ⟨trivial, h⟩, fun h => h.2⟩
    | cons o os ih =>
      intro b s
      exact ⟨fun h => ⟨⟨h.1, ((ih b _).mp h.2).1⟩, ((ih b _).mp h.2).2⟩, fun h => ⟨h.1.1, (ih b _).mpr ⟨h.1.2, h.2⟩⟩⟩
  have ho1 := ((split _ _ _).mp ho).1
  have hd := disc_run (disc_init c) ops ho1
  have hfit := fit_run (fit_init c) ops
  have ht : (run c init ops).tbl (c t) i = none := by
    have := hd.reg (c t) i
    rw [hreg] at this
    cases hx : (run c init ops).tbl (c t) i with
    | none => rfl
    | some o => rw [hx] at this; cases this
  have hl : (run c init ops).lock (c t) = false := by
    cases hx : (run c init ops).lock (c t) with
    | false => rfl
    | true =>
      obtain ⟨t', i', d, qs, h1, h2⟩ := hfit.lock _ hx
      rw [hidle t' h1] at h2
      cases h2
  have hs : step c (run c init ops) (.offer t i b) = { run c init ops with
      dis := upd (run c init ops).dis (c t) ((run c init ops).dis (c t) + 1)
      pc := upd (run c init ops).pc t (.list (firstJob i ((run c init ops).dis (c t)) b)) } := by
    unfold step
    dsimp only
    rw [if_neg (by rw [hup, hidle t rfl, hl]; simp), ht]
  obtain ⟨n, log, h1, h2⟩ := offer_alone (c := c) (b := b) (i := i) (d := (run c init ops).dis (c t)) (t := t)
    (s := step c (run c init ops) (.offer t i b)) (fit_step hfit _) (by rw [hs]; exact upd_self _ _ _) (by rw [hs]; exact hl)
    (by rw [hs]; exact ht)
  have hrun : run c init (ops ++ .offer t i b :: List.replicate n (.next t true)) =
      run c (step c (run c init ops) (.offer t i b)) (alone t n) := by rw [run_append]; rfl
  refine ⟨n, log, ?_, ?_, ?_⟩
  · rw [hrun]; exact h1
  · rw [hrun]; exact h2
  · intro q hq
    refine offered_is_visible_partial c _ ?_ (c t) i q ?_
    · exact (split _ _ _).mpr ⟨ho1, ((split _ _ _).mp ho).2.1, orderly_alone _ _ _ _⟩
    · rw [hrun, h2]
      show q ∈ (if c t = c t ∧ i = i then _ else _)
      rw [if_pos ⟨rfl, rfl⟩]
      exact hq

/-! The hypotheses are met: process 0 offers instance 7; then it ends and process 1 offers it, over the left-over files. -/

example : OrderlyRun cfg init offered ∧ offers (run cfg init offered).log 0 7 = [.b, .qm] ∧
    (run cfg init offered).files = [⟨7, .qm, 0, 100⟩, ⟨7, .b, 0, 100⟩] :=
  ⟨offered_orderly, by decide +kernel, by decide +kernel⟩

example : (run cfg init (offered ++ [.stop 0 7 true, .next 0 true, .next 0 true, .next 0 true])).files = [] ∧
    offers (run cfg init (offered ++ [.stop 0 7 true, .next 0 true, .next 0 true, .next 0 true])).log 0 7 = [] := by decide +kernel

example : (run cfg init (offered ++ [.crash 0, .start 1 200, .offer 1 7 true] ++ alone 1 12)).files =
    [⟨7, .qm, 1, 200⟩, ⟨7, .b, 1, 200⟩] := by decide +kernel

/-- Two calls of OfferService for one instance in the same process: both return success, and then there is no flag file. A later
StopOfferService terminates the process. -/
theorem concurrent_offers_break : ∃ (c : Cfg) (ops : List Op),
    (run c init ops).log.count (.offered 1 7 false) = 2 ∧ (run c init ops).files = [] ∧ (∀ t, (run c init ops).pc t = .idle) ∧
    Ev.terminated 1 ∈ (run c init (ops ++ [.stop 1 7 true, .next 1 true])).log := by
  refine ⟨cfg, [.start 1 5, .offer 1 7 false, .offer 2 7 false] ++ alone 1 5 ++ alone 2 6 ++ [.next 1 true] ++ alone 2 3,
    by decide +kernel, by decide +kernel, ?_, by decide +kernel⟩
  rintro (_ | _ | _ | t)
  · decide +kernel
  · decide +kernel
  · decide +kernel
  · rfl

/-- OfferService returns an error because the permissions could not be set, and the flag file stays: the instance is visible although
it was never offered. -/
theorem failed_offer_leaves_file : ∃ (c : Cfg) (ops : List Op),
    (run c init ops).log.head? = some (.failed 0 7) ∧ (run c init ops).files = [⟨7, .qm, 0, 100⟩] ∧
    ∀ b, Ev.offered 0 7 b ∉ (run c init ops).log :=
  ⟨cfg, [.start 0 100, .offer 0 7 false] ++ alone 0 4 ++ [.next 0 false, .next 0 true], by decide +kernel, by decide +kernel,
    by decide +kernel⟩

/-- A provider of both qualities ends, and another process offers the instance in QM only: the ASIL-B flag file of the ended process
stays next to the new one. -/
theorem qm_offer_keeps_stale_b : ∃ (c : Cfg) (ops : List Op),
    (run c init ops).log.head? = some (.offered 1 7 false) ∧ (run c init ops).up 0 = false ∧
    (run c init ops).files = [⟨7, .qm, 1, 200⟩, ⟨7, .b, 0, 100⟩] :=
  ⟨cfg, offered ++ [.crash 0, .start 1 200, .offer 1 7 false] ++ alone 1 7, by decide +kernel, by decide +kernel, by decide +kernel⟩

/-- After StopOfferService for QM the service cannot be offered again, although nothing of it is offered any more. -/
theorem qm_stop_blocks_offer : ∃ (c : Cfg) (ops : List Op),
    offers (run c init ops).log 0 7 = [] ∧ (run c init ops).files = [] ∧
    (step c (run c init ops) (.offer 0 7 false)).log = .failed 0 7 :: (run c init ops).log :=
  ⟨cfg, [.start 0 100, .offer 0 7 false] ++ alone 0 6 ++ [.stop 0 7 false, .next 0 true, .next 0 true], by decide +kernel,
    by decide +kernel, by decide +kernel⟩

end Verif.Props.C75
