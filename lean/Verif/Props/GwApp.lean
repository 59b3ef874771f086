import Verif.Proofs.GwAppAgain
/-! C43, C44, C45: the gateway application. -/
namespace Verif.Props.C43
open Verif.GwApp

/-- Whatever the peer sends, in any order and interleaved with anything local: a skeleton is created, offered, stopped or
notified only for service instances of the configured list. -/
theorem only_listed (received : List Nat) (ops : List Op) (n : Nat)
    (h : .created n ∈ (run (init received) ops).log ∨ .offered n ∈ (run (init received) ops).log ∨
      .stopped n ∈ (run (init received) ops).log ∨ ∃ e, .notified n e ∈ (run (init received) ops).log) : n ∈ received := by
  have hw : Wl received (run (init received) ops) := run_wl (init_wl received) ops
  rcases h with h | h | h | ⟨e, h⟩ <;> exact hw.log _ h

/-- A peer's notification reaches only an event that the skeleton has. -/
theorem only_known_events (received : List Nat) (ops : List Op) (n e : Nat) (h : .notified n e ∈ (run (init received) ops).log) :
    ∃ es, (run (init received) ops).skeletons n = some es ∧ e ∈ es :=
  run_known (fun _ _ h => by cases h) ops n e h

/-- No skeleton is kept for another instance. -/
theorem no_other_skeleton (received : List Nat) (ops : List Op) (n : Nat) (h : n ∉ received) :
    (run (init received) ops).skeletons n = none := by
  have hw : Wl received (run (init received) ops) := run_wl (init_wl received) ops
  cases hs : (run (init received) ops).skeletons n with
  | none => rfl
  | some x => exact absurd (hw.skel n (by rw [hs]; simp)) h

/-- A request to provide an instance that is not listed changes nothing. -/
theorem refused (received : List Nat) (ops : List Op) (n : Nat) (es : List Nat) (c f : Bool) (h : n ∉ received) :
    step (run (init received) ops) (.peerProvide n es c f) = run (init received) ops := by
  have hw : Wl received (run (init received) ops) := run_wl (init_wl received) ops
  have : isAccepted (run (init received) ops) n = false := by
    simp only [isAccepted, hw.recv, List.any_eq_false, beq_iff_eq]
    rintro x hx rfl
    exact h hx
  simp [step, peerProvide, this]

/-- A listed one is created and offered (when the middleware below succeeds). -/
theorem provided (received : List Nat) (ops : List Op) (n : Nat) (es : List Nat) (h : n ∈ received)
    (hd : (run (init received) ops).dead = none) (hp : (run (init received) ops).pc = .idle)
    (hs : (run (init received) ops).skeletons n = none) :
    (step (run (init received) ops) (.peerProvide n es true true)).log =
      .offered n :: .created n :: (run (init received) ops).log := by
  have hw : Wl received (run (init received) ops) := run_wl (init_wl received) ops
  have : isAccepted (run (init received) ops) n = true := by
    simp only [isAccepted, hw.recv, List.any_eq_true, beq_iff_eq]
    exact ⟨n, h, rfl⟩
  unfold step peerProvide
  simp [hd, hp, hs, this]

def demo : List Op := [.peerProvide 5 [0, 1] true true, .peerProvide 7 [0] true true, .peerOffer 5 true, .peerNotify 7 1 0 true,
  .peerNotify 5 1 1 true, .peerOffer 7 true]
example : (run (init [4, 5]) demo).log = [.notified 5 1, .offered 5, .offered 5, .created 5] := by decide +kernel
example : (run (init [4, 5]) demo).dead = none ∧ (run (init [4, 5]) demo).pc = .idle ∧
    (run (init [4, 5]) demo).skeletons 4 = none ∧ 4 ∈ [4, 5] ∧ 7 ∉ [4, 5] := by decide +kernel

end Verif.Props.C43

namespace Verif.Props.C44
open Verif.GwApp

/-- Every abort has one of these causes: the peer named an element type other than EVENT; a service disappeared that had not
been forwarded; an access raced with a failed forwarding or with a change of the subscriptions. -/
theorem abort_causes (received : List Nat) (ops : List Op) :
    ((run (init received) ops).dead = some .notAnEvent → OddType ops) ∧
    ((run (init received) ops).dead = some .proxyMissing → LostProxy ops) ∧
    ((run (init received) ops).dead = some .race → (∃ n, NotForwarded n ops) ∨ Met (init received) ops) := by
  have h := (run_causes received ops).why
  refine ⟨?_, ?_, ?_⟩ <;> intro hd <;> rw [hd] at h <;> exact h

/-- If the peer names only events, every reported service could be forwarded, only services reported as available disappear
and no subscription changes during a re-registration, then the gateway never aborts.
Missing for the full statement: each of the four restrictions is needed (below). -/
theorem never_aborts_partial (received : List Nat) (ops : List Op)
    (htype : ∀ n ty e, (.peerUnregister n ty e ∈ ops ∨ ∃ b, .peerNotify n ty e b ∈ ops) → ty = eventType)
    (hfwd : ∀ n es c k, .available n es c k ∈ ops → c = true ∧ k = true)
    (havail : ∀ pre n k post, ops = pre ++ .unavailable n k :: post → ∃ es c k', .available n es c k' ∈ pre)
    (hmet : ∀ pre n e on k post, ops = pre ++ .subscription n e on k :: post → iterates (run (init received) pre) n = false) :
    (run (init received) ops).dead = none := by
  obtain ⟨h1, h2, h3⟩ := abort_causes received ops
  have hnf : ∀ n pre, (∀ o ∈ pre, o ∈ ops) → ¬ NotForwarded n pre := by
    rintro n pre hsub ⟨es, c, k, hm, hh⟩
    have := hfwd n es c k (hsub _ hm)
    rcases hh with hh | hh
    · rw [hh] at this; simp at this
    · rw [hh] at this; simp at this
  cases hd : (run (init received) ops).dead with
  | none => rfl
  | some d =>
    exfalso
    cases d with
    | notAnEvent =>
      obtain ⟨n, ty, e, hne, hm⟩ := h1 hd
      exact hne (htype n ty e hm)
    | proxyMissing =>
      obtain ⟨pre, n, k, post, he, hh⟩ := h2 hd
      rcases hh with hh | hh
      · obtain ⟨es, c, k', hm⟩ := havail pre n k post he
        exact hh es c k' hm
      · exact hnf n pre (fun o ho => by rw [he]; exact List.mem_append_left _ ho) hh
    | race =>
      rcases h3 hd with ⟨n, hh⟩ | ⟨pre, n, e, on, k, post, he, hh⟩
      · exact hnf n ops (fun o ho => ho) hh
      · have := hmet pre n e on k post he
        rw [hh] at this; simp at this

/-- Finding: one message of the peer ends the gateway, if a forwarded service is up (unregister) or a received one (notify). -/
theorem peer_aborts_by_unregister :
    ∃ ops, (∀ o ∈ ops, o = .available 1 [0] true true ∨ o = .peerUnregister 1 2 0 ∨ o = .continue true) ∧
      (run (init [5]) ops).dead = some .notAnEvent :=
  ⟨[.available 1 [0] true true, .peerUnregister 1 2 0, .continue true], by simp, by decide +kernel⟩

theorem peer_aborts_by_notify :
    (run (init [5]) [.peerProvide 5 [0] true true, .peerNotify 5 0 0 true]).dead = some .notAnEvent := by decide +kernel

/-- Finding: the peer does not acknowledge the forwarding, later the service disappears: the gateway aborts.  The same happens
when the proxy could not be created. -/
theorem lost_acknowledgement_aborts :
    (run (init []) [.available 1 [0] true false, .unavailable 1 true]).dead = some .proxyMissing ∧
    (run (init []) [.available 1 [0] false true, .unavailable 1 true]).dead = some .proxyMissing := by decide +kernel

/-- Finding: unsynchronised accesses.  The dispatch thread uses a proxy that a thread of the middleware erased after the
lookup; the set of subscriptions changes while the dispatch thread iterates over it. -/
theorem proxy_race :
    (run (init []) [.available 1 [0] true true, .peerRegister 1 1 0, .available 1 [0] true false, .continue true]).dead =
      some .race := by decide +kernel
theorem subscription_race :
    (run (init [5]) [.peerProvide 5 [0, 1] true true, .subscription 5 0 true true, .peerProvide 5 [0, 1] true true,
      .subscription 5 1 true true]).dead = some .race := by decide +kernel

/-- A longer calm run. -/
def calm : List Op :=
  [.available 1 [0] true true, .peerProvide 5 [0, 1] true true, .subscription 5 0 true true, .peerRegister 1 1 0,
   .continue true, .unavailable 1 true, .peerProvide 5 [0, 1] true true, .continue true, .continue true,
   .subscription 5 0 false true, .available 1 [0] true true, .peerUnregister 1 1 0, .continue true, .peerNotify 5 1 0 true]
example : (run (init [5]) calm).dead = none ∧ (run (init [5]) calm).log =
    [.notified 5 0, .unsubscribed 1 0, .provide 1 true, .unregister 5 0 true, .reregister 5 0 true, .offered 5, .stopOffer 1,
     .subscribed 1 0, .register 5 0 true, .offered 5, .created 5, .provide 1 true] := by decide +kernel
example : (∀ n ty e, (.peerUnregister n ty e ∈ calm ∨ ∃ b, .peerNotify n ty e b ∈ calm) → ty = eventType) ∧
    (∀ n es c k, .available n es c k ∈ calm → c = true ∧ k = true) ∧
    (∀ pre n k post, calm = pre ++ .unavailable n k :: post → ∃ es c k', .available n es c k' ∈ pre) ∧
    (∀ pre n e on k post, calm = pre ++ .subscription n e on k :: post → iterates (run (init [5]) pre) n = false) := by
  refine ⟨?_, ?_, ?_, ?_⟩
  · simp only [calm, eventType, List.mem_cons, List.mem_nil_iff]
    intro n ty e h
    simp at h
    rcases h with h | h <;> exact h.2.1
  · intro n es c k h
    simp only [calm, List.mem_cons, List.mem_nil_iff, Op.available.injEq, reduceCtorEq, false_or, or_false] at h
    rcases h with h | h <;> exact ⟨h.2.2.1, h.2.2.2⟩
  · intro pre n k post h
    obtain ⟨h1, h2, h3⟩ := split_at h
    generalize pre.length = i at *
    subst h2
    have : i < 14 := h1
    have key : ∀ i < 14, ∀ x, calm[i]? = some x → (match x with
        | .unavailable n _ => (calm.take i).any (fun o => match o with | .available m _ _ _ => m == n | _ => false)
        | _ => true) = true := by decide +kernel
    have := key i this _ h3
    simp only [List.any_eq_true] at this
    obtain ⟨x, hx1, hx2⟩ := this
    split at hx2
    · rename_i m es c k'
      simp only [beq_iff_eq] at hx2
      subst hx2
      exact ⟨es, c, k', hx1⟩
    · simp at hx2
  · intro pre n e on k post h
    obtain ⟨h1, h2, h3⟩ := split_at h
    generalize pre.length = i at *
    subst h2
    have : i < 14 := h1
    have key : ∀ i < 14, ∀ x, calm[i]? = some x → (match x with
        | .subscription n _ _ _ => !iterates (run (init [5]) (calm.take i)) n
        | _ => true) = true := by decide +kernel
    have := key i this _ h3
    simpa using this

end Verif.Props.C44

namespace Verif.Props.C45
open Verif.GwApp

/-- In every execution and for every event: the registrations caused by subscription changes exceed the unregistrations by
none or one, so they alternate and at most one is outstanding. -/
theorem one_outstanding (received : List Nat) (ops : List Op) (n e : Nat) :
    (run (init received) ops).log.countP (isUnregister n e) ≤ (run (init received) ops).log.countP (isRegister n e) ∧
    (run (init received) ops).log.countP (isRegister n e) ≤ (run (init received) ops).log.countP (isUnregister n e) + 1 := by
  have := (run_regs received ops).count n e
  split at this <;> omega

/-- After a report of the subscription state a registration is outstanding iff the report said that there are consumers. -/
theorem follows_subscription (received : List Nat) (ops : List Op) (n e : Nat) (on k : Bool)
    (hd : (run (init received) (ops ++ [.subscription n e on k])).dead = none) :
    (run (init received) (ops ++ [.subscription n e on k])).log.countP (isRegister n e) =
      (run (init received) (ops ++ [.subscription n e on k])).log.countP (isUnregister n e) + (if on then 1 else 0) := by
  have h := (run_regs received (ops ++ [.subscription n e on k])).count n e
  rw [run_snoc] at hd h ⊢
  rw [h]
  congr 1
  generalize run (init received) ops = s at *
  have hs : s.dead = none := by
    cases hsd : s.dead with
    | none => rfl
    | some d => simp [step, hsd] at hd
  simp only [step, hs, Option.isSome_none, Bool.false_eq_true, if_false, subscription] at hd ⊢
  cases on with
  | true =>
    simp only [if_true] at hd ⊢
    by_cases hm : e ∈ s.active n
    · simp only [hm, if_true]
    · simp only [hm, if_false] at hd ⊢
      by_cases hi : iterates s n = true
      · simp [hi] at hd
      · simp [hi, upd_self]
  | false =>
    simp only [Bool.false_eq_true, if_false] at hd ⊢
    by_cases hm : e ∈ s.active n
    · simp only [hm, if_true] at hd ⊢
      by_cases hi : iterates s n = true
      · simp [hi] at hd
      · simp [hi, upd_self]
    · simp only [hm, if_false]

/-- A repeated registration is sent only for an event whose registration is outstanding. -/
theorem repeated_only_if_outstanding (received : List Nat) (ops : List Op) (n e : Nat) (ok : Bool) (l1 l2 : List Ev)
    (h : (run (init received) ops).log = l1 ++ .reregister n e ok :: l2) :
    l2.countP (isRegister n e) = l2.countP (isUnregister n e) + 1 := by
  have hj := (run_regs received ops).just
  rw [h] at hj
  exact (justified_append hj).1

/-- And at most once for every message of the peer that provides the service. -/
theorem repeated_once_per_provide (received : List Nat) (ops : List Op) (n e : Nat) :
    (run (init received) ops).log.countP (isReregister n e) ≤ ops.countP (isProvideOf n) := by
  have := (run_regs received ops).reps n e
  omega

/-- And not less: when the peer provides a service for which a skeleton exists, every event whose registration is outstanding
at that moment is registered again before the dispatch thread is idle again, whatever else happens meanwhile (unless the
process ends, see C44). -/
theorem all_registered_again (received : List Nat) (pre post : List Op) (n e : Nat) (es : List Nat) (c f : Bool)
    (hi : (run (init received) pre).pc = .idle) (hs : (run (init received) pre).skeletons n ≠ none)
    (ho : (run (init received) pre).log.countP (isRegister n e) =
      (run (init received) pre).log.countP (isUnregister n e) + 1)
    (hd : (run (init received) (pre ++ .peerProvide n es c f :: post)).dead = none)
    (hf : (run (init received) (pre ++ .peerProvide n es c f :: post)).pc = .idle) :
    (run (init received) pre).log.countP (isReregister n e) <
      (run (init received) (pre ++ .peerProvide n es c f :: post)).log.countP (isReregister n e) := by
  have hr : n ∈ received := (run_wl (init_wl received) pre).skel n hs
  have hrecv := (run_wl (init_wl received) pre).recv
  have hc := (run_regs received pre).count n e
  have hrun : run (init received) (pre ++ .peerProvide n es c f :: post) =
      run (step (run (init received) pre) (.peerProvide n es c f)) post := by simp [run, List.foldl_append]
  rw [hrun] at hd hf ⊢
  generalize run (init received) pre = s at *
  have hdead : s.dead = none := step_dead _ (run_dead post hd)
  have hact : e ∈ s.active n := by
    by_cases hm : e ∈ s.active n
    · exact hm
    · rw [if_neg hm] at hc; omega
  have hacc : isAccepted s n = true := by
    simp only [isAccepted, List.any_eq_true, beq_iff_eq]
    exact ⟨n, by rw [hrecv]; exact hr, rfl⟩
  have hag : Again n e (s.log.countP (isReregister n e)) (step s (.peerProvide n es c f)) := by
    right
    cases hsk : s.skeletons n with
    | none => exact absurd hsk hs
    | some es' =>
      simp only [step, hdead, Option.isSome_none, Bool.false_eq_true, if_false, hi, if_true, peerProvide, hacc, Bool.not_true,
        hsk]
      refine ⟨?_, s.active n, rfl, hact⟩
      cases f
      · exact Nat.le_refl _
      · exact le_push ..
  rcases run_again hag post with h | ⟨_, l, h, _⟩
  · exact h
  · rw [hf] at h; cases h

def demo : List Op :=
  [.peerProvide 5 [0, 1] true true, .subscription 5 0 true true, .subscription 5 0 true true, .subscription 5 1 true true,
   .peerProvide 5 [0, 1] true false, .continue true, .continue true, .continue true, .subscription 5 0 false true,
   .subscription 5 0 false true]
example : (run (init [5]) demo).log = [.unregister 5 0 true, .reregister 5 0 true, .reregister 5 1 true, .register 5 1 true,
    .register 5 0 true, .offered 5, .created 5] ∧ (run (init [5]) demo).dead = none := by decide +kernel

example : (run (init [5]) (demo.take 4)).pc = .idle ∧ (run (init [5]) (demo.take 4)).skeletons 5 ≠ none ∧
    (run (init [5]) (demo.take 4)).log.countP (isRegister 5 1) = (run (init [5]) (demo.take 4)).log.countP (isUnregister 5 1) + 1 ∧
    (run (init [5]) (demo.take 8)).dead = none ∧ (run (init [5]) (demo.take 8)).pc = .idle := by decide +kernel

/-- Finding: a registration that fails is not repeated when further consumers subscribe; the event stays without updates. -/
theorem failed_registration_is_not_repeated (k : Nat) :
    (run (init [5]) ([.peerProvide 5 [0] true true, .subscription 5 0 true false] ++
      List.replicate k (.subscription 5 0 true true))).log = [.register 5 0 false, .offered 5, .created 5] := by
  have : ∀ k (s : St), s.dead = none → 0 ∈ s.active 5 → run s (List.replicate k (.subscription 5 0 true true)) = s := by
    intro k
    induction k with
    | zero => intro s _ _; rfl
    | succ k ih =>
      intro s hd ha
      have e : step s (.subscription 5 0 true true) = s := by simp [step, hd, subscription, ha]
      show run (step s (.subscription 5 0 true true)) (List.replicate k _) = s
      rw [e]; exact ih s hd ha
  simp only [run, List.foldl_append]
  have h2 := this k (run (init [5]) [.peerProvide 5 [0] true true, .subscription 5 0 true false]) (by decide) (by decide)
  simp only [run] at h2
  rw [h2]
  decide

end Verif.Props.C45
