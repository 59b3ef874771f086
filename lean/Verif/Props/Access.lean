import Verif.Proofs.Access

namespace Verif.Demo.C103
open Verif.Ident Verif.Access

/-- A deployment with these permissions. -/
def dep (strict : Bool) (consumers providers : List (Quality × List Uid)) : Lola :=
  { id := some 1, shmSize := none, ctlBSize := none, ctlQmSize := none, events := [], fields := [], methods := []
    strict, consumers, providers, interVm := false, forwarded := false }

end Verif.Demo.C103

namespace Verif.Props.C103
open Verif.Json Verif.Ident Verif.Access Verif.Spec.Ident Verif.Spec.Access

/-- Who connects is allowed: the consumer by the permissions of the provider, and the provider by those of the
consumer, for this quality; or both are the same user. -/
theorem only_allowed_connect (p : Lola) (pu : Uid) (c : Lola) (cu : Uid) (q : Quality)
    (h : connects p pu c cu q = true) : cu = pu ∨ (Consumer p q cu ∧ Provider c q pu) := by
  obtain ⟨h1, h2⟩ := (connects_iff p pu c cu q).mp h
  rcases h1 with h1 | ⟨h1, -⟩
  · exact Or.inl h1
  · rcases h2 with h2 | ⟨h2, -⟩
    · exact Or.inl h2.symm
    · exact Or.inr ⟨h1, h2⟩

/-- A consumer that the provider lists for the quality connects to a provider that the consumer lists, or does not
restrict. -/
theorem listed_connect (p : Lola) (pu : Uid) (c : Lola) (cu : Uid) (q : Quality) (l : List Uid)
    (hl : find p.consumers q = some l) (hm : cu ∈ l)
    (hp : (∃ k, find c.providers q = some k ∧ pu ∈ k) ∨ (find c.providers q = none ∧ c.strict = false)) :
    connects p pu c cu q = true := by
  rw [connects_iff]
  refine ⟨Or.inr ⟨?_, Or.inl ⟨(q, l), find_mem hl, hm⟩⟩, Or.inr ?_⟩
  · unfold Consumer Allowed
    rw [hl]
    cases l with
    | nil => cases hm
    | cons v l => exact hm
  · unfold Provider Allowed
    rcases hp with ⟨k, hk, hpu⟩ | ⟨hk, hs⟩
    · rw [hk]
      cases k with
      | nil => cases hpu
      | cons v k => exact ⟨hpu, by simp⟩
    · rw [hk]; exact ⟨hs, by simp⟩

example : connects (Demo.C103.dep false [(.qm, [1000, 1001]), (.b, [1001])] []) 15 (Demo.C103.dep false [] [(.qm, [15])]) 1000 .qm = true :=
  by decide +kernel

/-- The memory for control of a quality can be read and written just by the owner and the allowed consumers of this
quality: those of QM only cannot touch the one of ASIL-B. -/
theorem control_is_separate (d : Lola) (owner : Uid) (q : Quality) (u : Uid) :
    ((createShm owner (controlPermissions d q)).canRead u = true ↔ u = owner ∨ Consumer d q u) ∧
    ((createShm owner (controlPermissions d q)).canWrite u = true ↔ u = owner ∨ Consumer d q u) :=
  control_access d owner q u

example : (createShm 15 (controlPermissions (Demo.C103.dep false [(.qm, [1000]), (.b, [1001])] []) .b)).canWrite 1000 = false :=
  by decide +kernel

/-- The memory for data can be written by its owner only. -/
theorem data_is_read_only (d : Lola) (owner u : Uid) :
    (createShm owner (dataPermissions d)).canWrite u = true ↔ u = owner := data_write d owner u

/-- Who reads the data is an allowed consumer of some quality. -/
theorem data_is_for_consumers (d : Lola) (owner u : Uid) (h : (createShm owner (dataPermissions d)).canRead u = true)
    (hm : IsMap d.consumers) : u = owner ∨ ∃ q, Consumer d q u := by
  rcases (data_read d owner u).mp h with h | ⟨⟨q, l⟩, hp, hu⟩ | ⟨hs, hl⟩
  · exact Or.inl h
  · refine Or.inr ⟨q, ?_⟩
    unfold Consumer Allowed
    rw [find_of_mem hm hp]
    cases l with
    | nil => cases hu
    | cons v l => exact hu
  · refine Or.inr ⟨.qm, ?_⟩
    unfold Consumer Allowed
    cases hf : find d.consumers .qm with
    | none => exact hs
    | some l =>
      have := hl _ (find_mem hf)
      have this : l = [] := this
      subst this
      exact hs

/-- If no quality of the provider is restricted and the checks are not strict, everybody connects to a provider whom
they do not restrict, that is, for whom they have no list. -/
theorem unrestricted_connect_partial (p : Lola) (pu : Uid) (c : Lola) (cu : Uid) (q : Quality) (hs : p.strict = false)
    (hl : ∀ e ∈ p.consumers, e.2 = []) (hc : find c.providers q = none) (hcs : c.strict = false) :
    connects p pu c cu q = true := by
  rw [connects_iff]
  refine ⟨Or.inr ⟨?_, Or.inr ⟨hs, hl⟩⟩, Or.inr ?_⟩
  · unfold Consumer Allowed
    cases hf : find p.consumers q with
    | none => exact hs
    | some l =>
      have this : l = [] := hl _ (find_mem hf)
      subst this
      exact hs
  · unfold Provider Allowed
    rw [hc]
    exact ⟨hcs, by simp⟩

example : connects (Demo.C103.dep false [(.qm, [])] []) 15 (Demo.C103.dep false [] []) 1000 .qm = true := by decide +kernel

/-- With strict checks an instance without list, or with an empty one, is for nobody else. -/
theorem strict_is_closed (p : Lola) (pu : Uid) (c : Lola) (cu : Uid) (q : Quality) (hs : p.strict = true)
    (hl : find p.consumers q = none ∨ find p.consumers q = some []) (h : connects p pu c cu q = true) : cu = pu := by
  rcases only_allowed_connect p pu c cu q h with h | ⟨h, -⟩
  · exact h
  · unfold Consumer Allowed at h
    rcases hl with hl | hl
    · rw [hl, hs] at h; cases h
    · rw [hl, hs] at h; cases h

/-- Who subscribes to methods is an allowed consumer. -/
theorem only_allowed_subscribe (d : Lola) (q : Quality) (u : Uid) (h : subscribes d q u = true) : Consumer d q u := by
  unfold subscribes allowedConsumers at h
  unfold Consumer Allowed
  cases hf : find d.consumers q with
  | none =>
    rw [hf] at h
    cases hs : d.strict with
    | false => rfl
    | true => rw [hs] at h; simp at h
  | some l =>
    rw [hf] at h
    cases l with
    | nil => simp at h
    | cons v l => simpa using h

/-- An allowed consumer may subscribe, unless the list is there and empty. -/
theorem allowed_subscribe_partial (d : Lola) (q : Quality) (u : Uid) (h : Consumer d q u)
    (hn : find d.consumers q ≠ some []) : subscribes d q u = true := by
  unfold Consumer Allowed at h
  unfold subscribes allowedConsumers
  cases hf : find d.consumers q with
  | none => rw [hf] at h; have h : d.strict = false := h; rw [h]; rfl
  | some l =>
    rw [hf] at h hn
    cases l with
    | nil => exact absurd rfl hn
    | cons v l => simpa using h

example : Consumer (Demo.C103.dep false [(.b, [3])] []) .qm 1000 ∧ find (Demo.C103.dep false [(.b, [3])] []).consumers .qm ≠ some [] :=
  ⟨by show Allowed false none 1000; rfl, by decide +kernel⟩

/-- The memory for the calls of a proxy can be used by the users of the proxy and of the skeleton only. -/
theorem calls_are_private (proxy skeleton u : Uid) :
    ((methodShm proxy skeleton).canRead u = true ↔ u = proxy ∨ u = skeleton) ∧
    ((methodShm proxy skeleton).canWrite u = true ↔ u = proxy ∨ u = skeleton) := by
  unfold methodShm
  rw [users_read, users_write]
  simp

/-- The skeleton opens memory for calls just if it is made for it by the user who has subscribed, or is its own. -/
theorem calls_come_from_subscriber (s : Shm) (skeleton proxy : Uid) (h : opensMethodShm s skeleton proxy = true) :
    (s.owner = proxy ∨ s.owner = skeleton) ∧ s.canWrite skeleton = true := by
  unfold opensMethodShm openShm ownerOk uidMatches at h
  simp only [Bool.and_eq_true, Bool.or_eq_true, beq_iff_eq, List.contains_eq_mem, List.mem_singleton, decide_eq_true_eq,
    Bool.not_true, Bool.false_eq_true, false_or] at h
  exact ⟨h.2.symm.imp id id, h.1.2⟩

/-- The memory that a proxy makes is opened. -/
theorem calls_are_opened (proxy skeleton : Uid) : opensMethodShm (methodShm proxy skeleton) skeleton proxy = true := by
  unfold opensMethodShm openShm
  rw [(calls_are_private proxy skeleton skeleton).1.mpr (Or.inr rfl), (calls_are_private proxy skeleton skeleton).2.mpr (Or.inr rfl)]
  simp [ownerOk, uidMatches, methodShm, owner_createShm]

/-- A call is executed just if it comes from the user who has subscribed. -/
theorem only_subscriber_calls (subscribed caller : Uid) : callOk subscribed caller = true ↔ caller = subscribed := by
  unfold callOk
  simp only [bne, Bool.not_not, beq_iff_eq]
  exact eq_comm

/-- **Violated.**  A consumer with an empty list of providers and "file-permissions-on-empty" restricts nobody, but
connects to no provider of another user. -/
theorem empty_provider_list_fails : ∃ p pu c cu q, c.strict = false ∧ find c.providers q = some [] ∧
    Consumer p q cu ∧ Provider c q pu ∧ connects p pu c cu q = false :=
  ⟨Demo.C103.dep false [] [], 15, Demo.C103.dep false [] [(.qm, [])], 1000, .qm, rfl, by decide +kernel,
    by show Allowed false none 1000; rfl, by show Allowed false (some []) 15; rfl, by decide +kernel⟩

/-- **Violated.**  A provider that does not restrict QM but lists users for ASIL-B keeps others from the data: they do
not connect in QM. -/
theorem other_list_restricts_fails : ∃ p pu c cu, p.strict = false ∧ find p.consumers .qm = some [] ∧
    Consumer p .qm cu ∧ Provider c .qm pu ∧ (createShm pu (controlPermissions p .qm)).canWrite cu = true ∧
    connects p pu c cu .qm = false :=
  ⟨Demo.C103.dep false [(.qm, []), (.b, [1001])] [], 15, Demo.C103.dep false [] [], 1000, rfl, by decide +kernel,
    by show Allowed false (some []) 1000; rfl, by show Allowed false none 15; rfl, by decide +kernel, by decide +kernel⟩

/-- **Violated.**  With an empty list of consumers and "file-permissions-on-empty" everybody connects, but nobody may
subscribe to methods. -/
theorem empty_list_refuses_methods_fails : ∃ p q, p.strict = false ∧ find p.consumers q = some [] ∧
    (∀ u, Consumer p q u) ∧ (∀ pu cu, connects p pu (Demo.C103.dep false [] []) cu q = true) ∧ ∀ u, subscribes p q u = false :=
  ⟨Demo.C103.dep false [(.qm, [])] [], .qm, rfl, by decide +kernel, fun u => by show Allowed false (some []) u; rfl,
    fun pu cu => unrestricted_connect_partial _ pu _ cu .qm rfl (by decide +kernel) rfl rfl, fun u => rfl⟩

/-- **Violated.**  A proxy of the same user as the provider connects whatever the lists say, but may not subscribe to
methods if it is not listed. -/
theorem same_user_has_no_methods_fails : ∃ p u q, connects p u (Demo.C103.dep false [] []) u q = true ∧ subscribes p q u = false :=
  ⟨Demo.C103.dep false [(.qm, [1000])] [], 15, .qm, by decide +kernel, by decide +kernel⟩

end Verif.Props.C103
