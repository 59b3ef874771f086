import Verif.Proofs.QnxPoll

namespace Verif.Demo.C111
open Verif.QnxPoll Verif.QnxPollSpec

/-- Two clients; the first one goes, and a third one takes its slot while a pulse for it is under way. -/
def ops : List Op :=
  [.register 10, .register 20, .send 0 false, .send 1 true, .unregister 0, .register 30, .send 2 true]

/-- `n` times a client goes and another one comes. -/
def change (n : Nat) : List Op := (List.replicate n [.cleanup 0, .register 0]).flatten

theorem wrapped (n : Nat) : ∃ v c, run start ([.register 0, .send 0 false] ++ change n) =
    ⟨[⟨some n, n % 2 ^ 16, n, n⟩], [(n, 0)], v, [⟨0, 0, false⟩], c⟩ ∧ v.length = n + 1 := by
  induction n with
  | zero => exact ⟨[some (0, 0)], [], by decide +kernel, rfl⟩
  | succ n ih =>
    obtain ⟨v, c, h1, h2⟩ := ih
    have e : [.register 0, .send 0 false] ++ change (n + 1) =
        ([.register 0, .send 0 false] ++ change n) ++ [Op.cleanup 0, .register 0] := by
      simp [change, List.replicate_succ', List.flatten_append]
    rw [e]
    unfold run at h1 ⊢
    rw [List.foldl_append, h1]
    exact ⟨v ++ [some (0, n + 1)], c ++ [.disconnect n],
      by simp [step, cleanup, unselect, register, h2, List.findIdx?_cons], by simp [h2]⟩

end Verif.Demo.C111

namespace Verif.Props.C111
open Verif.QnxPoll Verif.QnxPollSpec Verif.QnxPollProofs Verif.Demo.C111

/-- **C111**: what is packed into the value of a pulse is unpacked again, for all values of the three
fields. -/
theorem pulse_value_round_trip (index sig nonce : Nat) (h1 : index < 2 ^ 32) (h2 : sig < 2 ^ 16) (h3 : nonce < 2 ^ 16) :
    unpack (pack index sig nonce) = (index, sig, nonce) ∧ pack index sig nonce < 2 ^ 64 :=
  ⟨unpack_pack index sig nonce h1 h2 h3, Nat.mod_lt _ (by decide)⟩

example : unpack (pack 4000000000 1 65535) = (4000000000, 1, 65535) := by decide +kernel

/-- **C111**: a pulse that was sent to an endpoint and is handled while the endpoint is registered makes
exactly the callback it was sent for: whatever registered and unregistered in between. -/
theorem reaches_its_endpoint (ops : List Op) (n : Nat) (p : Pulse) (hp : (run start ops).pulses[n]? = some p)
    (hr : Registered (run start ops) p.to) :
    (take (run start ops) n).calls = (run start ops).calls ++ [meant p] ∧
    (take (run start ops) n).pulses = (run start ops).pulses.eraseIdx n := by
  unfold take
  rw [hp]
  dsimp only
  rw [target_live (inv_run ops) (List.mem_of_getElem? hp) hr]
  exact ⟨rfl, rfl⟩

example : (run start ops).pulses[1]? = some ⟨pack 1 1 0, 1, true⟩ ∧ Registered (run start ops) 1 :=
  ⟨by decide +kernel, 20, by decide +kernel⟩

/-- **C111**: a registered endpoint gets a pulse to send to its server, unless there are `2^32 - 1`
endpoints at the same time. -/
theorem pulse_is_sent (ops : List Op) (id : Nat) (ping : Bool) (hr : Registered (run start ops) id)
    (ha : Announced (run start ops) id) :
    ∃ v, (send (run start ops) id ping).pulses = (run start ops).pulses ++ [⟨v, id, ping⟩] := by
  obtain ⟨⟨i, u⟩, hv⟩ := ha
  obtain ⟨o, ho⟩ := hr
  unfold send
  rw [if_pos (List.any_eq_true.2 ⟨(id, o), ho, by simp⟩), hv]
  exact ⟨_, rfl⟩

/-- Fewer than `2^32 - 1` registrations are all given a slot. -/
theorem slot_is_given (ops : List Op) (hfew : (run start ops).vals.length < 2 ^ 32 - 1) (owner : Nat) :
    Announced (register (run start ops) owner) (run start ops).vals.length := by
  have h := inv_run ops
  have hle : (run start ops).slots.length ≤ (run start ops).vals.length := slots_le ops
  unfold register Announced
  dsimp only
  split
  · rename_i i hi
    obtain ⟨hlt, -, -⟩ := List.findIdx?_eq_some_iff_getElem.1 hi
    rw [List.getElem?_eq_getElem hlt]
    exact ⟨_, by simp; rfl⟩
  · rw [if_neg (by omega)]
    exact ⟨_, by simp; rfl⟩

/-- **C111** (partial): a pulse that is still under way when its endpoint is unregistered does nothing.
Missing: it is not so when there were `2^16` registrations in between (`nonce_wraps_fails`). -/
theorem stale_is_ignored_partial (ops : List Op) (n : Nat) (p : Pulse)
    (hp : (run start ops).pulses[n]? = some p) (hr : ¬ Registered (run start ops) p.to)
    (hnew : since (run start ops) p.to < 2 ^ 16) :
    (take (run start ops) n).calls = (run start ops).calls := by
  unfold take
  rw [hp]
  dsimp only
  cases ht : target (run start ops) p.value with
  | none => simp
  | some c =>
    obtain ⟨i, u, hv, _⟩ := (inv_run ops).pul p (List.mem_of_getElem? hp)
    have := (List.getElem?_eq_some_iff.1 hv).1
    exact absurd (target_of (inv_run ops) (List.mem_of_getElem? hp) (by unfold since at hnew; omega) ht).2 hr

example : (run start ops).pulses[0]? = some ⟨0, 0, false⟩ ∧ ¬ Registered (run start ops) 0 ∧
    since (run start ops) 0 = 2 ∧ (take (run start ops) 0).calls = [.disconnect 0] :=
  ⟨by decide +kernel, by
    rintro ⟨o, ho⟩
    have : (run start ops).eps = [(1, 20), (2, 30)] := by decide +kernel
    rw [this] at ho; simp at ho, by decide +kernel, by decide +kernel⟩

/-- **C111**: two endpoints that are registered at the same time never have a pulse value in common. -/
theorem values_differ (ops : List Op) (id id' : Nat) (ping ping' : Bool) (p p' : Pulse)
    (hr : Registered (run start ops) id) (hr' : Registered (run start ops) id')
    (hp : (send (run start ops) id ping).pulses = (run start ops).pulses ++ [p])
    (hp' : (send (run start ops) id' ping').pulses = (run start ops).pulses ++ [p'])
    (he : p.value = p'.value) : id = id' ∧ ping = ping' := by
  have hto : ∀ {i b q}, (send (run start ops) i b).pulses = (run start ops).pulses ++ [q] → q.to = i ∧ q.ping = b ∧
      ∃ v, q = ⟨v, i, b⟩ := by
    intro i b q hq
    unfold send at hq
    split at hq
    · split at hq
      · simp at hq; subst hq; exact ⟨rfl, rfl, _, rfl⟩
      · simp at hq
    · simp at hq
  obtain ⟨a1, a2, v, rfl⟩ := hto hp
  obtain ⟨b1, b2, v', rfl⟩ := hto hp'
  have k1 := target_live (inv_send (inv_run ops) id ping) (p := ⟨v, id, ping⟩) (by rw [hp]; simp) (reg_send hr)
  have k2 := target_live (inv_send (inv_run ops) id' ping') (p := ⟨v', id', ping'⟩) (by rw [hp']; simp) (reg_send hr')
  dsimp only at he
  subst he
  rw [target_send] at k1 k2
  rw [k1] at k2
  unfold meant at k2
  cases ping <;> cases ping' <;> simp at k2 ⊢ <;> exact k2

example : Registered (run start ops) 1 ∧ Registered (run start ops) 2 :=
  ⟨⟨20, by decide +kernel⟩, 30, by decide +kernel⟩

/-- **C111**: callbacks are made for registered endpoints only: the callback of a pulse is that of an
endpoint that is registered when it is handled. -/
theorem only_registered (ops : List Op) (n : Nat) (c : Call)
    (h : (take (run start ops) n).calls = (run start ops).calls ++ [c]) :
    ∃ id, Registered (run start ops) id ∧ (c = .input id ∨ c = .ping id) := by
  unfold take at h
  split at h
  · simp at h
  · rename_i p hp
    dsimp only at h
    cases ht : target (run start ops) p.value with
    | none => simp [ht] at h
    | some x =>
      simp [ht] at h
      subst h
      exact target_reg (inv_run ops) ht

/-- **C111**: an endpoint is told once that it is disconnected: when it is unregistered or cleaned up, and
not before. -/
theorem disconnected_once (ops : List Op) (id : Nat) (hold : id < (run start ops).vals.length) :
    (Registered (run start ops) id → .disconnect id ∉ (run start ops).calls) ∧
    (¬ Registered (run start ops) id → (run start ops).calls.count (.disconnect id) = 1) := by
  obtain ⟨h1, h2, h3⟩ := (cal_run ops).once id
  exact ⟨fun hr => List.count_eq_zero.1 (h1 hr), fun hr => h2 hr hold⟩

example : (run start ops).calls.count (.disconnect 0) = 1 := by decide +kernel

/-- **C111**: after that it gets no further callback. -/
theorem nothing_after_disconnect (ops : List Op) (id : Nat) (a b : List Call)
    (h : (run start ops).calls = a ++ .disconnect id :: b) : .input id ∉ b ∧ .ping id ∉ b :=
  (cal_run ops).after a b id h

example : (run start (ops ++ [.take 1, .take 1])).calls = [] ++ .disconnect 0 :: [.ping 1, .ping 2] := by decide +kernel

/-- **C111**: cleaning up an owner unregisters its endpoints and no other. -/
theorem cleaned_up (ops : List Op) (owner id : Nat) :
    Registered (cleanup (run start ops) owner) id ↔ ∃ o, o ≠ owner ∧ (id, o) ∈ (run start ops).eps := by
  rw [cleanup_eq (inv_run ops)]
  unfold Registered
  simp [List.mem_filter, and_comm]

example : (cleanup (run start ops) 20).eps = [(2, 30)] := by decide +kernel

/-- **C111**: unregistering removes one endpoint and no other. -/
theorem unregistered (ops : List Op) (id id' : Nat) :
    Registered (unregister (run start ops) id) id' ↔ Registered (run start ops) id' ∧ id' ≠ id := by
  by_cases hr : Registered (run start ops) id
  · rw [unregister_eq (inv_run ops) id hr]
    unfold Registered
    simp [List.mem_filter]
  · rw [unregister_not id hr]
    exact ⟨fun h => ⟨h, fun e => hr (e ▸ h)⟩, fun h => h.1⟩

/-- **C111**, **Violated.** The nonce has 16 bits: after 65536 registrations in the same slot a pulse
that is still under way for the first one makes a callback of the last one. -/
theorem nonce_wraps_fails :
    ∃ ops : List Op, ∃ p : Pulse, ∃ id, (run start ops).pulses[0]? = some p ∧ p.to ≠ id ∧
      ¬ Registered (run start ops) p.to ∧
      (take (run start ops) 0).calls = (run start ops).calls ++ [.input id] := by
  obtain ⟨v, c, h1, h2⟩ := wrapped (2 ^ 16)
  refine ⟨[.register 0, .send 0 false] ++ change (2 ^ 16), ⟨0, 0, false⟩, 2 ^ 16, ?_, by decide, ?_, ?_⟩
  · rw [h1]; rfl
  · rw [h1]
    rintro ⟨o, ho⟩
    simp at ho
  · rw [h1]; rfl

end Verif.Props.C111
