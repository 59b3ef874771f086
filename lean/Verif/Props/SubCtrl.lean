import Verif.Proofs.SubCtrlProps
/-!
C13, C14, C17 - the shared subscription state of an event.
The theorems range over every schedule of Subscribe and Unsubscribe calls, crashes and recoveries of any
number `m` of proxies, with spurious failures of the weak compare-and-swap at any point.
-/
namespace Verif.Props.SubSpec
open Verif Verif.Sub

variable {maxSlots : BitVec 16} {maxSubs : BitVec 8} {enforce : Bool} {m : Nat} {s : St}

end Verif.Props.SubSpec

namespace Verif.Props.C13
open Verif Verif.Sub Verif.Props.SubSpec
variable {maxSlots : BitVec 16} {maxSubs : BitVec 8} {enforce : Bool} {m : Nat} {s : St}

/-- C13: at every moment at most `max_subscribers` proxies are subscribed. -/
theorem max_subscribers (hr : Reachable maxSlots maxSubs enforce m s) : numSubs s ≤ maxSubs.toNat := by
  obtain ⟨h, _, h2, _⟩ := hr.inv
  have := numSubs_le h
  have := h.maxSubs
  rw [← h2]; omega

/-- C13: if the limit is enforced, the sample counts of the subscribed proxies never add up to more than the
number of slots. -/
theorem max_samples (hr : Reachable maxSlots maxSubs true m s) : numSamples s ≤ maxSlots.toNat := by
  obtain ⟨h, _, _, h3, h4⟩ := hr.inv
  have := numSamples_le h
  have := h.maxSlots h4
  rw [← h3]; omega

/-- Proxies 0 and 1 subscribe concurrently; 1 loses the race and tries again. -/
def demo : List Op :=
  [.subscribe 0 3, .subscribe 1 4, .go 0 false, .go 1 false, .go 0 false, .go 1 false, .go 0 false,
   .go 1 false, .go 1 true, .go 1 false, .go 1 false, .go 1 false]

example : numSubs (run (init 10 5 true 3) demo) = 2 ∧ numSamples (run (init 10 5 true 3) demo) = 7 := by
  decide +kernel

/-- C13: an undisturbed Subscribe of a proxy that is not subscribed succeeds exactly if both limits allow it,
otherwise it reports which limit was hit and changes nothing. -/
theorem subscribe_decision (hr : Reachable maxSlots maxSubs enforce m s) {p n : Nat} (hp : p < m) (hn : n ≤ 255)
    (hidle : (s.px p).pc = .idle) (hns : (s.px p).want = none) {s' : St}
    (hs' : s' = run s [.subscribe p n, .go p false, .go p false, .go p false]) :
    (s'.px p).pc = .idle ∧
    (if (subsOf s.word).toNat ≥ maxSubs.toNat then
      (s'.px p).want = none ∧ (s'.px p).res = some (if maxSubs = 0#8 then .updateRetryFailure else .maxSubscribersOverflow) ∧
        s'.word = s.word
    else if enforce = true ∧ (samplesOf s.word).toNat + n > maxSlots.toNat then
      (s'.px p).want = none ∧ (s'.px p).res = some .slotOverflow ∧ s'.word = s.word
    else (s'.px p).want = some n ∧ (s'.px p).res = some .success ∧
      (subsOf s'.word).toNat = (subsOf s.word).toNat + 1 ∧
      (samplesOf s'.word).toNat = (samplesOf s.word).toNat + n) := by
  obtain ⟨h, h1, h2, h3, h4⟩ := hr.inv
  subst h1 h2 h3 h4
  have hx := h.px p hp
  unfold PInv at hx
  rw [hidle, hns] at hx
  obtain ⟨hb, he, hc⟩ := hx
  have hn' : ¬ n > 255 := by omega
  have hlim := h.samples_lt
  have hs1 := h.subs
  have hs2 := h.samples
  have hms := h.maxSubs
  have hm8 := s.maxSubs.isLt
  by_cases h0 : s.maxSubs = 0#8
  · have hz : s.maxSubs.toNat = 0 := by rw [h0]; rfl
    rw [if_pos (by omega)]
    subst hs'
    simp [run, step, hp, hidle, hns, startSub, hn', hb, he, subNext, subRetries, hz, proxyStep, h0]
  · have hpos : 0 < s.maxSubs.toNat := by
      rcases Nat.eq_zero_or_pos s.maxSubs.toNat with h | h
      · exact absurd (BitVec.eq_of_toNat_eq h) h0
      · exact h
    by_cases h1 : (subsOf s.word).toNat ≥ s.maxSubs.toNat
    · rw [if_pos h1]
      subst hs'
      simp [run, step, hp, hidle, hns, startSub, hn', hb, he, subNext, subRetries, hpos, proxyStep, h0, h1]
    · rw [if_neg h1]
      by_cases h2 : s.enforce = true ∧ (samplesOf s.word).toNat + n > s.maxSlots.toNat
      · rw [if_pos h2]
        subst hs'
        simp [run, step, hp, hidle, hns, startSub, hn', hb, he, subNext, subRetries, hpos, proxyStep, h1, h2]
      · rw [if_neg h2]
        have hw : s'.word = create (subsOf s.word + 1#8) (samplesOf s.word + BitVec.ofNat 16 n) ∧
            (s'.px p).pc = .idle ∧ (s'.px p).want = some n ∧ (s'.px p).res = some .success := by
          subst hs'
          simp [run, step, hp, hidle, hns, startSub, hn', hb, he, subNext, subRetries, hpos, proxyStep, h1, h2]
        refine ⟨hw.2.1, hw.2.2.1, hw.2.2.2, ?_, ?_⟩
        · rw [hw.1, subsOf_create, BitVec.toNat_add]
          have : (1#8).toNat = 1 := rfl
          rw [this]; omega
        · rw [hw.1, samplesOf_create, BitVec.toNat_add, BitVec.toNat_ofNat]; omega

example : Reachable 10 5 true 3 (run (init 10 5 true 3) demo) ∧
    ((run (init 10 5 true 3) demo).px 2).pc = .idle ∧ ((run (init 10 5 true 3) demo).px 2).want = none :=
  ⟨⟨demo, rfl⟩, by decide +kernel⟩

/-- C13: the caller asserts that Subscribe never reports too many subscribers, because each proxy owns one of
`max_subscribers` transaction logs. With at most that many proxies the assertion indeed never fails. -/
theorem no_subscriber_overflow (hr : Reachable maxSlots maxSubs enforce m s) (hm : m ≤ maxSubs.toNat) {p : Nat}
    (hp : p < m) : (s.px p).res ≠ some .maxSubscribersOverflow := by
  obtain ⟨ops, rfl⟩ := hr
  have : ∀ s : St, Inv s → s.m ≤ s.maxSubs.toNat → (∀ p, p < s.m → (s.px p).res ≠ some .maxSubscribersOverflow) →
      ∀ p, p < (run s ops).m → ((run s ops).px p).res ≠ some .maxSubscribersOverflow := by
    induction ops with
    | nil => intro s _ _ h; exact h
    | cons op ops ih =>
      intro s h hm hres
      have hc := step_const s op
      refine ih (step s op) (step_inv h op) (by rw [hc.1, hc.2.1]; exact hm) ?_
      rw [hc.1]
      exact step_no_overflow h hm hres op
  exact this _ (init_inv _ _ _ _) hm (fun q _ => by simp [init, Proxy.fresh]) p
    (by rw [(run_const _ _).1]; exact hp)

end Verif.Props.C13

namespace Verif.Props.C14
open Verif Verif.Sub Verif.Props.SubSpec
variable {maxSlots : BitVec 16} {maxSubs : BitVec 8} {enforce : Bool} {m : Nat} {s : St}

/-- C14: whenever no call is in progress and every crashed proxy was recovered, the shared word holds exactly
the number of subscribed proxies and the sum of their sample counts. -/
theorem exact_at_rest (hr : Reachable maxSlots maxSubs enforce m s) (hrest : ∀ p, p < m → busy s p = false) :
    (subsOf s.word).toNat = numSubs s ∧ (samplesOf s.word).toNat = numSamples s := by
  obtain ⟨h, h1, _⟩ := hr.inv
  subst h1
  rw [h.subs, h.samples]
  constructor
  · exact count_congr (fun j hj => idle_counted h hj (hrest j hj))
  · apply sumTo_congr
    intro j hj
    have h1 := idle_counted h hj (hrest j hj)
    unfold sampleCount
    rw [h1]
    split
    · rename_i hi; rw [(isSub_counted h hj hi).2]; rfl
    · rfl

/-- C14: at any other moment it is off by at most one for every proxy with a call in progress. -/
theorem bounds (hr : Reachable maxSlots maxSubs enforce m s) :
    numSubs s ≤ (subsOf s.word).toNat ∧ (subsOf s.word).toNat ≤ numSubs s + count (busy s) m := by
  obtain ⟨h, h1, _⟩ := hr.inv
  subst h1
  rw [h.subs]
  refine ⟨numSubs_le h, ?_⟩
  unfold numSubs subs
  have : ∀ k, k ≤ s.m → count (fun p => (s.px p).counted) k ≤ count (isSub s) k + count (busy s) k := by
    intro k
    induction k with
    | zero => intro _; simp [count]
    | succ k ih =>
      intro hk
      have := ih (by omega)
      simp only [count]
      cases hbk : busy s k
      · simp only [idle_counted h (show k < s.m by omega) hbk, Bool.false_eq_true, if_false]; omega
      · simp only [if_true]; split <;> omega
  exact this s.m (Nat.le_refl _)

/-- C14: no proxy is ever terminated because of an underflow of the shared state. -/
theorem no_underflow (hr : Reachable maxSlots maxSubs enforce m s) {p : Nat} (hp : p < m) :
    (s.px p).pc ≠ .underflow := by
  obtain ⟨h, h1, _⟩ := hr.inv
  subst h1
  intro he
  have := h.px p hp
  unfold PInv at this
  rw [he] at this
  exact this

/-- Not covered by C14: another proxy that subscribes and unsubscribes at the wrong moments makes Unsubscribe
run into its retry limit, which terminates the process. -/
theorem contention_terminates :
    ∃ ops : List Op, (∀ op ∈ ops, ∀ p, op ≠ .go p true) ∧ ((run (init 10 2 true 2) ops).px 0).pc = .retryLimit := by
  let round : List Op :=
    [.go 0 false, .subscribe 1 1, .go 1 false, .go 1 false, .go 1 false, .go 0 false,
     .go 0 false, .unsubscribe 1, .go 1 false, .go 1 false, .go 1 false, .go 0 false]
  refine ⟨[.subscribe 0 1, .go 0 false, .go 0 false, .go 0 false, .unsubscribe 0] ++ round ++ round ++ round, ?_, ?_⟩
  · simp [round]
  · decide +kernel

example : (∀ p, p < 3 → busy (run (init 10 5 true 3) C13.demo) p = false) ∧
    numSubs (run (init 10 5 true 3) C13.demo) = 2 := by decide +kernel

end Verif.Props.C14

namespace Verif.Props.C17
open Verif Verif.Sub Verif.Props.SubSpec
variable {maxSlots : BitVec 16} {maxSubs : BitVec 8} {enforce : Bool} {m : Nat} {s : St}

/-- C17: whatever crashed before, once every proxy is at rest - alive, or its log rolled back successfully -
the shared word accounts exactly for the subscribed proxies. -/
theorem exact_after_recovery (hr : Reachable maxSlots maxSubs enforce m s)
    (hrest : ∀ p, p < m → (s.px p).pc = .idle) :
    (subsOf s.word).toNat = numSubs s ∧ (samplesOf s.word).toNat = numSamples s :=
  C14.exact_at_rest hr (fun p hp => by simp [busy, hrest p hp])

/-- C17: rolling back a log that records a complete subscription, undisturbed, frees it and takes exactly one
subscriber with its sample count out of the shared word. -/
theorem rollback_subscribed (hr : Reachable maxSlots maxSubs enforce m s) {p : Nat} (hp : p < m)
    (hdead : (s.px p).pc = .crashed) (hb : (s.px p).b = true) (he : (s.px p).e = true) {s' : St}
    (hs' : s' = run s [.recover p, .go p false, .go p false, .go p false]) :
    (s'.px p).pc = .idle ∧ (s'.px p).want = none ∧ (s'.px p).b = false ∧ (s'.px p).e = false ∧
    (subsOf s.word).toNat = (subsOf s'.word).toNat + 1 ∧
    (samplesOf s.word).toNat = (samplesOf s'.word).toNat + (s.px p).logged := by
  obtain ⟨h, h1, h2, h3, h4⟩ := hr.inv
  subst h1 h2 h3 h4
  have hx := dead_inv (h.px p hp)
  have hc := hx.2.1 hb he
  have hl := hx.1 hc
  have hpos := count_pos (p := fun q => (s.px q).counted) hp hc
  have hge := sumTo_ge (f := fun q => if (s.px q).counted then (s.px q).logged else 0) hp
  simp only [hc, if_true] at hge
  have hs1 := h.subs
  have hs2 := h.samples
  have hlim := h.samples_lt
  have hms := h.maxSubs
  have hm8 := s.maxSubs.isLt
  unfold Sub.subs at hs1 hlim hms
  unfold Sub.samples at hs2 hlim
  have hr3 : 0 < 3 * s.maxSubs.toNat := by omega
  have hz : ¬ (subsOf s.word).toNat = 0 := by omega
  have hlt : ¬ (samplesOf s.word).toNat < (s.px p).logged := by omega
  have key : s'.word = create (subsOf s.word - 1#8) (samplesOf s.word - BitVec.ofNat 16 (s.px p).logged) ∧
      (s'.px p).pc = .idle ∧ (s'.px p).want = none ∧ (s'.px p).b = false ∧ (s'.px p).e = false := by
    subst hs'
    have hmax : 0 < s.maxSubs.toNat := by omega
    simp [run, step, hp, hdead, Pc.alive, rollback, hb, he, startUn, unNext, unRetries, hmax, proxyStep, hz, hlt]
  refine ⟨key.2.1, key.2.2.1, key.2.2.2.1, key.2.2.2.2, ?_, ?_⟩
  · rw [key.1, subsOf_create, BitVec.toNat_sub]
    have : (1#8).toNat = 1 := rfl
    rw [this]; omega
  · rw [key.1, samplesOf_create, BitVec.toNat_sub, BitVec.toNat_ofNat]; omega

/-- C17: a log that was left in the middle of a Subscribe or Unsubscribe is refused and nothing is changed in
the shared word; an empty log is given back at once. -/
theorem rollback_otherwise {p : Nat} (hp : p < s.m) (hdead : (s.px p).pc = .crashed)
    (hne : ¬ ((s.px p).b = true ∧ (s.px p).e = true)) :
    (step s (.recover p)).word = s.word ∧
    ((s.px p).b ≠ (s.px p).e → ((step s (.recover p)).px p).pc = .rbFailed) ∧
    ((s.px p).b = false → (s.px p).e = false → ((step s (.recover p)).px p).pc = .idle) := by
  simp only [step, hdead, Pc.alive, hp, true_and]
  cases hb : (s.px p).b <;> cases he : (s.px p).e <;> simp_all [rollback]

/-- Proxy 0 subscribes and dies; proxy 1 subscribes; proxy 2 dies inside Subscribe, before it changed the
shared word. -/
def demo : List Op :=
  [.subscribe 0 3, .go 0 false, .go 0 false, .go 0 false, .crash 0, .subscribe 1 4, .go 1 false, .go 1 false,
   .go 1 false, .subscribe 2 1, .go 2 false, .crash 2]

example : ((run (init 10 5 true 3) demo).px 0).pc = .crashed ∧ ((run (init 10 5 true 3) demo).px 0).b = true ∧
    ((run (init 10 5 true 3) demo).px 0).e = true ∧ ((run (init 10 5 true 3) demo).px 2).pc = .crashed ∧
    ((run (init 10 5 true 3) demo).px 2).b ≠ ((run (init 10 5 true 3) demo).px 2).e ∧
    samplesOf (run (init 10 5 true 3) demo).word = 7#16 := by decide +kernel

/-- Proxy 0 subscribes and dies, proxy 1 subscribes, the log of proxy 0 is rolled back. -/
def demo2 : List Op :=
  [.subscribe 0 3, .go 0 false, .go 0 false, .go 0 false, .crash 0, .subscribe 1 4, .go 1 false, .go 1 false,
   .go 1 false, .recover 0, .go 0 false, .go 0 false, .go 0 false]

example : (∀ p, p < 2 → ((run (init 10 5 true 2) demo2).px p).pc = .idle) ∧
    numSamples (run (init 10 5 true 2) demo2) = 4 := by decide +kernel

end Verif.Props.C17
