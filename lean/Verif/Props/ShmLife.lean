import Verif.Proofs.ShmLifeConnect
import Verif.Proofs.ShmLifeOffer
/-! C78, C79, C80: the shared memory of a service instance while providers and consumers come and go. -/
namespace Verif.Props.C78
open Verif Verif.ShmLife

/-- Whatever the provider does, and wherever processes end: the memory of a connected consumer is the memory that the paths name, and it
is initialised; in every run in which no consumer is between opening and locking the marker file when the provider removes its name, and
nobody opens the memory in a process in which a proxy is being destroyed. -/
theorem works_partial (c : Cfg) (ops : List Op) (h : Orderly c ops) (x : Nat) (hx : Connected (run c init ops) x) :
    Works (run c init ops) x := by
  have hi := inv_orderly h
  have hp := hi.px x
  have hl := (hp.act (by rw [hx]; rfl)).1
  have key : ∀ p, (run c init ops).px x |>.held p |> fun o => o ≠ none := by
    intro p
    cases p
    · exact hp.ctl (by rw [hx]; rfl)
    · exact hp.dat (by rw [hx]; rfl)
  intro p
  cases e : ((run c init ops).px x).held p with
  | none => exact absurd e (key p)
  | some o =>
    refine ⟨o, rfl, hp.held hl p o e, ?_⟩
    cases p with
    | dat => exact hp.rdy hl o e
    | ctl =>
      cases er : (run c init ops).ready o with
      | true => rfl
      | false =>
        cases ed : ((run c init ops).px x).held .dat with
        | none => exact absurd ed (key .dat)
        | some d =>
          have h1 := hi.unr.ctl o (hp.held hl .ctl o e) er
          have h2 := hp.held hl .dat d ed
          rw [h1] at h2; cases h2

/-- All connected consumers, and a provider that offers the service, use the same memory, in such runs. -/
theorem same_memory_partial (c : Cfg) (ops : List Op) (h : Orderly c ops) (x : Nat) (hx : Connected (run c init ops) x) :
    (∀ y, Connected (run c init ops) y → ((run c init ops).px y).held = ((run c init ops).px x).held) ∧
    (Offered (run c init ops) → (run c init ops).sk.held = ((run c init ops).px x).held) := by
  have hi := inv_orderly h
  refine ⟨fun y hy => ?_, fun ho => ?_⟩
  · funext p
    obtain ⟨o, a, b, _⟩ := works_partial c ops h x hx p
    obtain ⟨o', a', b', _⟩ := works_partial c ops h y hy p
    rw [a, a', ← b, ← b']
  · funext p
    obtain ⟨o, a, b, _⟩ := works_partial c ops h x hx p
    have key : (run c init ops).sk.held p ≠ none := by
      cases p
      · exact hi.sk.ctl (by rw [ho]; rfl)
      · exact hi.sk.dat (by rw [ho]; rfl)
    cases e : (run c init ops).sk.held p with
    | none => exact absurd e key
    | some o' => rw [a, ← b, (hi.sk.held p o' (Or.inl (by rw [ho]; simp)) e).1]

/-- As long as a consumer stays connected, the paths name the same memory, although providers may end, stop and offer again
meanwhile, in such runs. -/
theorem stays_same_partial (c : Cfg) (ops more : List Op) (h : Orderly c (ops ++ more)) (x : Nat)
    (hx : ∀ pre, pre <+: more → Connected (run c init (ops ++ pre)) x) (h0 : Orderly c ops) :
    (run c init (ops ++ more)).shm = (run c init ops).shm := by
  have hh : ((run c init (ops ++ more)).px x).held = ((run c init ops).px x).held := by
    rw [run_append]
    exact held_run x more _ (fun pre hp => by rw [← run_append]; exact hx pre hp)
  have c0 := hx [] (List.nil_prefix)
  rw [List.append_nil] at c0
  have c1 := hx more (List.prefix_refl _)
  funext p
  obtain ⟨o, a, b, _⟩ := works_partial c ops h0 x c0 p
  obtain ⟨o', a', b', _⟩ := works_partial c _ h x c1 p
  rw [b, b', ← a, ← a', hh]

def two : Cfg := ⟨2, id⟩

/-- A consumer opens the marker file; meanwhile the provider stops, which removes that file, and offers the service again; the
consumer locks the removed file and connects; the provider stops. -/
def orphan : List Op :=
  offerNew 9 ++ [.pxStart 0 true] ++ stopUnused ++ .skOffer :: List.replicate 13 (.skNext true) ++ List.replicate 6 (.pxNext 0 true) ++
    stopUnused

/-- A connected consumer of which the memory has been removed. -/
theorem removed_in_use : ¬∀ c ops x, Connected (run c init ops) x → Works (run c init ops) x := by
  intro h
  obtain ⟨o, _, hs, _⟩ := h two orphan 0 (by unfold Connected; decide +kernel) .dat
  have : (run two init orphan).shm .dat = none := by decide +kernel
  rw [this] at hs; cases hs

/-- The service is offered again after that: the provider and the connected consumer use different memory. -/
theorem apart_from_provider : ¬∀ c ops x, Connected (run c init ops) x → Offered (run c init ops) →
    (run c init ops).sk.held = ((run c init ops).px x).held := by
  intro h
  have := congrFun (h two (orphan ++ .skOffer :: List.replicate 13 (.skNext true)) 0 (by unfold Connected; decide +kernel)
    (by unfold Offered; decide +kernel)) .dat
  revert this
  decide +kernel

def oneProcess : Cfg := ⟨2, fun _ => 0⟩

/-- Two consumers in one process. While the proxy of consumer 0 is being destroyed, its lock is released and its memory is not: the
provider stops and offers again, and consumer 1 connects. -/
def leaving : List Op :=
  offerNew 9 ++ connect 0 ++ [.pxDestroy 0] ++ stopUnused ++ .skOffer :: List.replicate 13 (.skNext true) ++
    .pxStart 1 true :: List.replicate 4 (.pxNext 1 true)

/-- Consumer 1 gets the old memory, and no marker file had been removed while it was open. -/
theorem stale_memory : ¬∀ c ops x, Connected (run c init ops) x → Offered (run c init ops) →
    (run c init ops).sk.held = ((run c init ops).px x).held := by
  intro h
  have := congrFun (h oneProcess leaving 1 (by unfold Connected; decide +kernel) (by unfold Offered; decide +kernel)) .dat
  revert this
  decide +kernel

end Verif.Props.C78

namespace Verif.Demo.C78
open Verif Verif.ShmLife Verif.Props.C78

/-- Consumer 0 connects; the process of the provider ends; a provider in another process offers the service again; consumer 1 connects;
the provider stops. -/
def before : List Op := offerNew 9 ++ connect 0
def after : List Op := .crash 9 :: (offerUsed 8 ++ connect 1 ++ stopUsed)

example : Orderly two (before ++ after) := orderly_check (by decide +kernel)
example : Orderly two before := orderly_check (by decide +kernel)

example : ∀ pre, pre <+: after → Connected (run two init (before ++ pre)) 0 := by
  intro pre hp
  obtain ⟨n, hn, rfl⟩ : ∃ n, n ≤ after.length ∧ pre = after.take n := ⟨pre.length, hp.length_le, (List.prefix_iff_eq_take.mp hp)⟩
  have key : ∀ n < 20, ((run two init (before ++ after.take n)).px 0).pc = .conn := by decide +kernel
  exact key n (by have : after.length = 19 := rfl; omega)

/-- Both are connected while the second provider offers the service. -/
example : let s := run two init (before ++ after.take 17)
    s.sk.pc = .offered ∧ (s.px 0).pc = .conn ∧ (s.px 1).pc = .conn ∧ s.shm .dat = some 2 ∧ s.shm .ctl = some 1 := by decide +kernel

/-- Without the process of the provider ending, too: a service that is used by a consumer is stopped and offered again by a new
skeleton object. -/
example : Orderly two (before ++ stopUsed ++ .skDestroy :: offerUsed 9) ∧
    (run two init (before ++ stopUsed ++ .skDestroy :: offerUsed 9)).sk.held .dat = some 2 :=
  ⟨orderly_check (by decide +kernel), by decide +kernel⟩

end Verif.Demo.C78

namespace Verif.Props.C79
open Verif Verif.ShmLife Verif.Props.C78

/-- The library does not end a process, in every run as above in which the service is offered only by skeleton objects that hold no
memory from an earlier offer, no process ends while it has a lock file, nobody waits 500 ms for a lock file that somebody has, and no
proxy is being destroyed in the process of the provider while this removes left-over files. -/
theorem survives_partial (c : Cfg) (ops : List Op) (ho : Orderly c ops) (ht : Tidy c ops) : Survived (run c init ops) :=
  (tinv_tidy ho ht).ended

/-- A lock file that exists is in use, in such runs. -/
theorem lock_file_owned_partial (c : Cfg) (ops : List Op) (ho : Orderly c ops) (ht : Tidy c ops) (p : Part)
    (hl : (run c init ops).lockf p = true) : Owns (run c init ops) p := (tinv_tidy ho ht).own p hl

/-- After any history, wherever processes have ended: when no consumer uses the service and none in process `q` has memory of it, a
new skeleton object in `q` can offer it, with new and initialised memory, whatever files have been left behind. -/
theorem can_offer (c : Cfg) (ops : List Op) (q : Nat) (hn : (run c init ops).sk.pc = .none) (hu : Unused (run c init ops))
    (hq : Clean c (run c init ops) q) :
    Offered (run c init (ops ++ offerNew q)) ∧
    (∀ p, ∃ o, (run c init (ops ++ offerNew q)).sk.held p = some o ∧ (run c init (ops ++ offerNew q)).shm p = some o ∧
      (run c init (ops ++ offerNew q)).ready o = true) ∧
    (run c init (ops ++ offerNew q)).ended = (run c init ops).ended := by
  rw [run_append]
  generalize run c init ops = s at *
  have e : run c s (offerNew q) = run c { s with sk := { noSk with pc := .idle, proc := q } }
      (.skOffer :: List.replicate 13 (.skNext true)) := by
    simp only [offerNew, run, List.foldl_cons, step, hn, if_true]
  rw [e]
  obtain ⟨h1, h2, h3⟩ := offer_fresh (c := c) (s := { s with sk := { noSk with pc := .idle, proc := q } }) hu hq rfl (fun _ => rfl)
  refine ⟨h1, fun p => ?_, h3.ended⟩
  obtain ⟨o, _, a⟩ := h2 p
  exact ⟨o, a⟩

/-- When consumers are connected and nobody has a lock file, a new skeleton object can offer the service with the memory of these
consumers, in the runs above. -/
theorem can_take_over_partial (c : Cfg) (ops : List Op) (q x : Nat) (ho : Orderly c ops) (hn : (run c init ops).sk.pc = .none)
    (hx : Connected (run c init ops) x) (hq : Clean c (run c init ops) q) (hf : ∀ p, (run c init ops).lockf p = false) :
    Offered (run c init (ops ++ offerUsed q)) ∧
    (run c init (ops ++ offerUsed q)).sk.held = ((run c init ops).px x).held ∧
    (run c init (ops ++ offerUsed q)).shm = (run c init ops).shm ∧
    (run c init (ops ++ offerUsed q)).px = (run c init ops).px := by
  have hw := works_partial c ops ho x hx
  have hi := inv_orderly ho
  rw [run_append]
  generalize run c init ops = s at *
  have hp := hi.px x
  obtain ⟨hl, hu, hne⟩ := hp.act (by rw [hx]; rfl)
  obtain ⟨i, hus⟩ : ∃ i, s.usage = some i := by cases e : s.usage with | none => exact absurd e hne | some i => exact ⟨i, rfl⟩
  have e : run c s (offerUsed q) = run c { s with sk := { noSk with pc := .idle, proc := q } }
      (.skOffer :: List.replicate 7 (.skNext true)) := by
    simp only [offerUsed, run, List.foldl_cons, step, hn, if_true]
  rw [e]
  obtain ⟨h1, h2, h3, h4, h5⟩ := offer_reuse (c := c) (s := { s with sk := { noSk with pc := .idle, proc := q } }) (x := x) hus (hi.lkN hl)
    hl (hu.trans hus) hq rfl (fun _ => rfl) hf
    (fun p => by obtain ⟨o, _, b, _⟩ := hw p; dsimp only; rw [b]; simp)
  refine ⟨h1, ?_, h3, h5.px⟩
  rw [h2]
  funext p
  obtain ⟨o, a, b, _⟩ := hw p
  dsimp only; rw [a, b]

/-- A consumer can connect to a service that is offered, and uses the memory of the provider then.  (Missing: disorderly runs; lock
files left behind by processes that have ended, see `killed_consumer_ends_others`.) -/
theorem can_connect_partial (c : Cfg) (ops : List Op) (x : Nat) (ho : Orderly c (ops ++ connect x)) (hp : Offered (run c init ops))
    (hx : x < c.n) (hn : ((run c init ops).px x).pc = .none) (hf : ∀ p, (run c init ops).lockf p = false) :
    Connected (run c init (ops ++ connect x)) x ∧ Works (run c init (ops ++ connect x)) x ∧
    ((run c init (ops ++ connect x)).px x).held = (run c init ops).sk.held := by
  have hi := inv_orderly (orderly_prefix ho)
  have hc : Connected (run c init (ops ++ connect x)) x := by
    rw [run_append]
    generalize run c init ops = s at *
    obtain ⟨hu, hne⟩ := hi.sk.file (by rw [hp]; rfl)
    obtain ⟨i, hus⟩ := Option.ne_none_iff_exists'.1 hne
    refine connect_done hx hn hus (hi.sk.free (by rw [hp]; rfl)) ?_ hf
    intro p
    have : s.sk.held p ≠ none := by
      cases p
      · exact hi.sk.ctl (by rw [hp]; rfl)
      · exact hi.sk.dat (by rw [hp]; rfl)
    obtain ⟨o, hh⟩ := Option.ne_none_iff_exists'.1 this
    rw [(hi.sk.held p o (Or.inl (by rw [hp]; simp)) hh).1]; rfl
  have hw := C78.works_partial c _ ho x hc
  refine ⟨hc, hw, ?_⟩
  have hsk : (run c init (ops ++ connect x)).sk = (run c init ops).sk ∧
      (run c init (ops ++ connect x)).shm = (run c init ops).shm := by
    rw [run_append] at hc ⊢; exact connect_frame hc
  funext p
  obtain ⟨o, h1, h2, _⟩ := hw p
  have : (run c init ops).sk.held p ≠ none := by
    cases p
    · exact hi.sk.ctl (by rw [hp]; rfl)
    · exact hi.sk.dat (by rw [hp]; rfl)
  obtain ⟨o', hh⟩ := Option.ne_none_iff_exists'.1 this
  have h3 := (hi.sk.held p o' (Or.inl (by rw [hp]; simp)) hh).1
  rw [hsk.2, h3] at h2
  rw [h1, hh, h2]

/-- While a consumer is connected another one can connect, whatever the provider does or has failed to do, and uses the same memory.
(Missing: disorderly runs; lock files in use or left behind.) -/
theorem can_join_partial (c : Cfg) (ops : List Op) (x y : Nat) (ho : Orderly c (ops ++ connect x)) (hy : Connected (run c init ops) y)
    (hx : x < c.n) (hn : ((run c init ops).px x).pc = .none) (hf : ∀ p, (run c init ops).lockf p = false) :
    Connected (run c init (ops ++ connect x)) x ∧ Works (run c init (ops ++ connect x)) x ∧
    ((run c init (ops ++ connect x)).px x).held = ((run c init ops).px y).held := by
  have hi := inv_orderly (orderly_prefix ho)
  have hwy := C78.works_partial c _ (orderly_prefix ho) y hy
  obtain ⟨hl, _, hne⟩ := (hi.px y).act (by rw [hy]; rfl)
  have hc : Connected (run c init (ops ++ connect x)) x := by
    rw [run_append]
    generalize run c init ops = s at *
    obtain ⟨i, hus⟩ := Option.ne_none_iff_exists'.1 hne
    refine connect_done hx hn hus ?_ ?_ hf
    · cases e : s.sk.lk with
      | false => rfl
      | true => have := hi.excl (Or.inl e) y; rw [hl] at this; cases this
    · intro p; obtain ⟨o, _, h2, _⟩ := hwy p; rw [h2]; rfl
  have hw := C78.works_partial c _ ho x hc
  refine ⟨hc, hw, ?_⟩
  have hsh : (run c init (ops ++ connect x)).shm = (run c init ops).shm := by
    rw [run_append] at hc ⊢; exact (connect_frame hc).2
  funext p
  obtain ⟨o, h1, h2, _⟩ := hw p
  obtain ⟨o', h3, h4, _⟩ := hwy p
  rw [hsh, h4] at h2
  rw [h1, h3, h2]

/-- A consumer is connected when the provider stops, and disconnects; then the same skeleton object offers the service again. -/
def again : List Op := offerNew 9 ++ connect 0 ++ stopUsed ++ [.pxDestroy 0, .pxNext 0 true] ++ .skOffer :: List.replicate 13 (.skNext true)

/-- The library ends the process of the provider. -/
theorem offering_again_ends_process : Orderly two again ∧ (run two init again).ended 9 = true :=
  ⟨orderly_check (by decide +kernel), by decide +kernel⟩

/-- OfferService fails, as the second memory object cannot be created; then the same skeleton object tries again. -/
def retry : List Op := .skCreate 9 :: .skOffer :: List.replicate 9 (.skNext true) ++ .skNext false :: .skOffer ::
  List.replicate 13 (.skNext true)

/-- The library ends the process of the provider. -/
theorem retry_ends_process : Orderly two retry ∧ (run two init (retry.take 12)).sk.pc = .idle ∧
    (run two init (retry.take 12)).ended 9 = false ∧ (run two init retry).ended 9 = true :=
  ⟨orderly_check (by decide +kernel), by decide +kernel⟩

/-- The process of a consumer ends while it opens the memory: from then on the lock file exists, and the next consumer waits for it. -/
def killed : List Op := offerNew 9 ++ [.pxStart 0 true, .pxNext 0 true, .pxNext 0 true, .crash 0] ++
  [.pxStart 1 true, .pxNext 1 true, .pxNext 1 false]

/-- The library ends the process of the next consumer, although the provider offers the service all the time. -/
theorem killed_consumer_ends_others : Orderly two killed ∧ Offered (run two init killed) ∧ (run two init killed).ended 1 = true ∧
    ¬Owns (run two init (killed.take 21)) .ctl :=
  ⟨orderly_check (by decide +kernel), by unfold Offered; decide +kernel, by decide +kernel,
    owns_of (c := two) (fun x hx => inv_orderly (c := two) (ops := killed.take 21) (orderly_check (by decide +kernel)) |>.out x hx)
      (by decide +kernel)⟩

/-- So the restrictions of `survives_partial` are needed: it does not hold with those of `works_partial` alone. -/
theorem not_always_survived : ¬∀ c ops, Orderly c ops → Survived (run c init ops) := by
  intro h
  have := h two again offering_again_ends_process.1 9
  rw [offering_again_ends_process.2] at this
  cases this

end Verif.Props.C79

namespace Verif.Demo.C79
open Verif Verif.ShmLife Verif.Props.C78 Verif.Demo.C78

example : Orderly two (before ++ after) ∧ Tidy two (before ++ after) := ⟨orderly_check (by decide +kernel), tidy_check (by decide +kernel)⟩

/-- A lock file in use. -/
example : Tidy two (before.take 9) ∧ (run two init (before.take 9)).lockf .ctl = true := ⟨tidy_check (by decide +kernel), by decide +kernel⟩

/-- A provider has ended while it created the memory, another one while it removed what was left. -/
def debris : List Op := (offerNew 9).take 10 ++ .crash 9 :: (offerNew 8).take 5 ++ [.crash 8]

example : let s := run two init debris
    s.sk.pc = .none ∧ s.shm .ctl = some 1 ∧ s.lockf .ctl = false ∧ s.lockf .dat = false ∧ s.ready 1 = false := by decide +kernel
example : Unused (run two init debris) := by
  intro x
  have h := (inv_orderly (c := two) (ops := debris) (orderly_check (by decide +kernel))).out
  rcases Nat.lt_or_ge x 2 with hx | hx
  · exact (by decide +kernel : ∀ x < 2, ((run two init debris).px x).lk = false) x hx
  · rw [h x hx]; rfl

/-- `can_take_over_partial`: consumer 0 is connected and the process of the provider has ended. -/
example : let s := run two init (before ++ [.crash 9])
    s.sk.pc = .none ∧ (s.px 0).pc = .conn ∧ s.lockf .ctl = false ∧ s.lockf .dat = false := by decide +kernel
example : Clean two (run two init (before ++ [.crash 9])) 8 := by
  intro x p hx
  subst hx
  have h := (inv_orderly (c := two) (ops := before ++ [.crash 9]) (orderly_check (by decide +kernel))).out
  rw [h 8 (by decide)]; rfl

/-- `can_connect_partial`, `can_join_partial`: consumer 1 connects beside consumer 0. -/
example : Orderly two (before ++ connect 1) ∧ (run two init before).sk.pc = .offered ∧ ((run two init before).px 1).pc = .none ∧
    (run two init before).lockf .ctl = false ∧ (run two init before).lockf .dat = false :=
  ⟨orderly_check (by decide +kernel), by decide +kernel⟩

/-- `can_join_partial`: the process of the provider has ended. -/
example : Orderly two (before ++ .crash 9 :: connect 1) ∧ ((run two init (before ++ [.crash 9])).px 0).pc = .conn :=
  ⟨orderly_check (by decide +kernel), by decide +kernel⟩

end Verif.Demo.C79

namespace Verif.Props.C80
open Verif Verif.ShmLife Verif.Props.C78

/-- When StopOfferService has got as far as removing the marker file, the memory is removed, and after its last step the marker file is
removed, whatever consumers do meanwhile, in the runs above. -/
theorem removed_partial (c : Cfg) (ops : List Op) (ok : Bool) (h : Orderly c ops) (hp : (run c init ops).sk.pc = .sUnlink) :
    (∀ p, (run c init (ops ++ [.skNext ok])).shm p = none) ∧ (run c init (ops ++ [.skNext ok])).usage = none ∧
    (run c init (ops ++ [.skNext ok])).sk.pc = .idle ∧ ∀ p, (run c init (ops ++ [.skNext ok])).sk.held p = none := by
  have hr := rinv_orderly h
  have hi := inv_orderly h
  rw [run_append]
  generalize run c init ops = s at *
  simp only [run, List.foldl_cons, List.foldl_nil, step, skNext, hp]
  refine ⟨fun p => ?_, trivial, trivial, fun p => ?_⟩
  · cases p
    · exact hr.ctl (by simp [hp])
    · exact hr.dat (by simp [hp])
  · cases p
    · exact hi.sk.noCtl (by rw [hp]; rfl)
    · exact hi.sk.noDat (by rw [hp]; rfl)

/-- StopOfferService without consumers removes the memory and the marker file, in the runs above. -/
theorem stop_removes_partial (c : Cfg) (ops : List Op) (h : Orderly c ops) (hp : Offered (run c init ops))
    (hu : Unused (run c init ops)) :
    (∀ p, (run c init (ops ++ stopUnused)).shm p = none) ∧ (run c init (ops ++ stopUnused)).usage = none := by
  have hi := inv_orderly h
  rw [run_append]
  have := stop_unused hi hp hu
  exact ⟨this.2.2.1, this.2.1⟩

/-- StopOfferService while a consumer is connected leaves the memory and the marker file alone, in the runs above. -/
theorem stop_keeps_partial (c : Cfg) (ops : List Op) (h : Orderly c ops) (hp : Offered (run c init ops)) (x : Nat)
    (hx : Connected (run c init ops) x) :
    (run c init (ops ++ stopUsed)).sk.pc = .idle ∧ (run c init (ops ++ stopUsed)).shm = (run c init ops).shm ∧
    (run c init (ops ++ stopUsed)).usage = (run c init ops).usage ∧ Works (run c init (ops ++ stopUsed)) x := by
  have hw := works_partial c ops h x hx
  have hi := inv_orderly h
  rw [run_append]
  generalize run c init ops = s at *
  obtain ⟨hl, hu, hne⟩ := (hi.px x).act (by rw [hx]; rfl)
  have hf := hi.sk.file (by rw [hp]; rfl)
  have hin : inUse c { s with sk := { s.sk with pc := .sTry } } = true := inUse_true.mpr ⟨x, hi.lkN hl, hl, hu.trans hf.1.symm⟩
  have e : run c s stopUsed = { s with sk := { s.sk with pc := .idle } } := by
    have hp' : s.sk.pc = .offered := hp
    simp only [stopUsed, run, List.foldl_cons, List.foldl_nil, step, hp', if_true, skNext]
    rw [if_pos hin]
  rw [e]
  exact ⟨rfl, rfl, rfl, hw⟩

/-- Once a provider has stopped while a consumer was connected, nothing removes the memory when this consumer leaves. -/
theorem left_behind : ∃ ops, Orderly two ops ∧ Unused (run two init ops) ∧ (run two init ops).sk.pc = .none ∧
    (run two init ops).shm .dat ≠ none := by
  refine ⟨offerNew 9 ++ connect 0 ++ stopUsed ++ [.skDestroy, .pxDestroy 0, .pxNext 0 true], orderly_check (by decide +kernel), ?_, by
    decide +kernel, by decide +kernel⟩
  intro x
  have h := (inv_orderly (c := two) (ops := offerNew 9 ++ connect 0 ++ stopUsed ++ [.skDestroy, .pxDestroy 0, .pxNext 0 true])
    (orderly_check (by decide +kernel))).out
  rcases Nat.lt_or_ge x 2 with hx | hx
  · exact (by decide +kernel : ∀ x < 2, ((run two init (offerNew 9 ++ connect 0 ++ stopUsed ++
      [.skDestroy, .pxDestroy 0, .pxNext 0 true])).px x).lk = false) x hx
  · rw [h x hx]; rfl

end Verif.Props.C80

namespace Verif.Demo.C80
open Verif Verif.ShmLife Verif.Props.C78 Verif.Demo.C78

/-- Consumer 0 has been connected and has gone; then the provider stops, while consumer 1 tries to connect. -/
def ops : List Op := before ++ [.pxDestroy 0, .pxNext 0 true]

example : Orderly two (ops ++ stopUnused.take 5) ∧ (run two init (ops ++ stopUnused.take 5)).sk.pc = .sUnlink :=
  ⟨orderly_check (by decide +kernel), by decide +kernel⟩
example : Orderly two ops ∧ (run two init ops).sk.pc = .offered ∧ ((run two init ops).px 0).lk = false :=
  ⟨orderly_check (by decide +kernel), by decide +kernel⟩
example : Orderly two before ∧ (run two init before).sk.pc = .offered ∧ ((run two init before).px 0).pc = .conn :=
  ⟨orderly_check (by decide +kernel), by decide +kernel⟩

end Verif.Demo.C80
