import Verif.Proofs.LogRollback
/-!
C19: the transaction logs a dead consumer left behind are rolled back when its successor creates proxies.

English property: after a proxy for a service instance is created by a restarted consumer, every transaction log left
behind by its previous incarnation for that element is either rolled back and free again, or an error was reported.

The code does not provide this: one proxy creation rolls back one log per event (`one_creation_is_not_enough`).
What is proved instead: it holds after as many successful creations as there were old logs.
-/
namespace Verif.Props.C19
open Verif.Rollback

/-- After at least one proxy creation, and as many as the previous incarnation left logs for any one event, all of
them successful, every old log of every event is rolled back and free again, and no log of another application was
touched. Missing for the full property: it takes one creation per old log instead of one. -/
theorem old_logs_recovered_partial (id : Nat) (hid : id ≠ 0) (ev0 : List (List Node)) (N : Nat) (hN : 1 ≤ N)
    (hmany : ∀ ev ∈ ev0, ownLogs id ev ≤ N)
    (hok : ∀ o ∈ (run id { events := ev0, prepared := false } (List.replicate N .create)).2, o = .ok) :
    List.Forall₂ (List.Forall₂ (Recovered id)) ev0
      (run id { events := ev0, prepared := false } (List.replicate N .create)).1.events := by
  obtain ⟨N, rfl⟩ : ∃ M, N = M + 1 := ⟨N - 1, by omega⟩
  simp only [List.replicate_succ, run, step, Option.toList, List.singleton_append, List.mem_cons] at hok ⊢
  obtain ⟨h1, h2⟩ := create_first hid (hok _ (.inl rfl))
  have h3 := creates_mid hid N 1 _ h2 h1 (fun o ho => hok o (.inr ho))
  generalize (run id _ (List.replicate N .create)).1.events = evN at h3
  clear hok h1 h2
  induction h3 with
  | nil => exact .nil
  | cons hm _ ih =>
    refine .cons ?_ (ih (fun ev hev => hmany ev (by simp [hev])))
    obtain ⟨hh, hc⟩ := hm
    have h0 := Nat.le_zero.mp (Nat.le_trans hc (by have := hmany _ (List.mem_cons_self ..); omega))
    clear hc ih hmany
    induction hh with
    | nil => exact .nil
    | cons hxy _ ih2 =>
      simp only [dueCount, List.countP_cons] at h0
      refine .cons ?_ (ih2 (by simp only [dueCount]; omega))
      unfold Half at hxy
      unfold Recovered
      split
      · rename_i hx
        rw [if_pos hx] at hxy
        rcases hxy with hd | hf
        · rw [hd] at h0; simp at h0
        · exact hf
      · rename_i hx; rw [if_neg hx] at hxy; exact hxy

/-- Three events; the dead process (id 7) had two logs in the first, one in the second; process 9 has others. -/
def held : Log := { slots := [(true, true), (false, false), (true, true)], sb := true, se := true, cnt := 2 }
def empty : Log := { slots := [(false, false), (false, false), (false, false)], sb := false, se := false, cnt := 2 }
def before : List (List Node) :=
  [[⟨7, false, held⟩, ⟨9, false, held⟩, ⟨7, false, held⟩], [⟨0, false, empty⟩, ⟨7, false, held⟩], [⟨9, false, held⟩]]

example : (∀ ev ∈ before, ownLogs 7 ev ≤ 2) ∧
    (run 7 { events := before, prepared := false } (List.replicate 2 .create)).2 = [.ok, .ok] ∧
    (run 7 { events := before, prepared := false } (List.replicate 2 .create)).1.events =
      [[⟨0, false, empty⟩, ⟨9, false, held⟩, ⟨0, false, empty⟩], [⟨0, false, empty⟩, ⟨0, false, empty⟩],
        [⟨9, false, held⟩]] := by decide +kernel

/-- The property as stated is false of the code: the creation of a proxy succeeds and one of the two old logs is still
taken, with its sample references and its subscription. -/
theorem one_creation_is_not_enough :
    (run 7 { events := before, prepared := false } [.create]).2 = [.ok] ∧
      (run 7 { events := before, prepared := false } [.create]).1.events.map (·[2]?) =
        [some ⟨7, true, held⟩, none, none] := by
  decide +kernel

/-- Subscriptions made between the creations do not disturb the recovery: with proxy creations and registrations in any
order, the number of old logs still to be rolled back shrinks by one with each successful creation. -/
theorem pending_shrinks (id : Nat) (hid : id ≠ 0) (ops : List Op) : ∀ (p : Proc), p.prepared = true →
    (∀ o ∈ (run id p ops).2, o = .ok) →
    List.Forall₂ (fun a b => dueCount id b = dueCount id a - (run id p ops).2.length)
      p.events (run id p ops).1.events := by
  have main : ∀ (ops : List Op) (p : Proc) (k : Nat) (ev0 : List (List Node)), p.prepared = true →
      List.Forall₂ (fun a b => dueCount id b = dueCount id a - k) ev0 p.events →
      (∀ o ∈ (run id p ops).2, o = .ok) →
      List.Forall₂ (fun a b => dueCount id b = dueCount id a - (k + (run id p ops).2.length))
        ev0 (run id p ops).1.events := by
    intro ops
    induction ops with
    | nil => intro p k ev0 _ h _; simpa [run] using h
    | cons op ops ih =>
      intro p k ev0 hp h hok
      cases op with
      | create =>
        simp only [run, step, Option.toList, List.singleton_append, List.mem_cons, List.length_cons] at hok ⊢
        have h1 := hok _ (.inl rfl)
        have hp' : (create id p).1.prepared = true := by
          unfold create; dsimp only; split <;> rfl
        have hev : List.Forall₂ (fun a b => dueCount id b = dueCount id a - (k + 1)) ev0 (create id p).1.events := by
          unfold create at h1 ⊢
          simp only [hp, if_true] at h1 ⊢
          split at h1
          · cases h1
          · rename_i ev eff hr
            refine forall2_trans ?_ h (rollbackEvents_ok id hid _ _ _ hr)
            rintro x y z e1 ⟨-, e2⟩
            omega
          · cases h1
        have := ih _ (k + 1) ev0 hp' hev (fun o ho => hok o (.inr ho))
        simpa [Nat.add_assoc, Nat.add_comm 1] using this
      | register e =>
        simp only [run, step, Option.toList, List.nil_append] at hok ⊢
        refine ih _ k ev0 (by exact hp) ?_ hok
        show List.Forall₂ _ ev0 (p.events.modify e (registerIn id))
        clear hok hp ih
        generalize p.events = evs at h
        induction h generalizing e with
        | nil => simpa using List.Forall₂.nil
        | cons hx _ ih2 =>
          cases e with
          | zero => simp only [List.modify_zero_cons]; exact .cons (by rw [registerIn_due _ _ hid]; exact hx) ‹_›
          | succ e => simp only [List.modify_succ_cons]; exact .cons hx (ih2 e)
  intro p hp hok
  have := main ops p 0 p.events hp (by rw [List.forall₂_same]; intros; omega) hok
  simpa using this

example : (run 7 (run 7 { events := before, prepared := false } [.create]).1 [.register 0, .create, .register 1]).2 =
    [.ok] := by decide +kernel

/-- A creation reports an error for an event only if the event has old logs left and every one of them has a
transaction of which it is unknown whether it took place; it succeeds if one old log has no such transaction or if
none is left. -/
theorem error_iff (id : Nat) (hid : id ≠ 0) (nodes nodes' : List Node) (eff : List Eff) (ok : Bool)
    (h : rollbackSet id nodes = .done nodes' eff ok) :
    ok = false ↔ (∃ x ∈ nodes, x.id = id ∧ x.rb = true) ∧
      ∀ x ∈ nodes, x.id = id → x.rb = true → ((∃ t ∈ x.log.slots, t.1 ≠ t.2) ∨ x.log.sb ≠ x.log.se) := by
  have hs := (rollbackNodes_spec id hid nodes true).2 _ _ _ h
  have hdue : ∀ x : Node, x.due id = true ↔ (x.id = id ∧ x.rb = true) := by intro x; simp [Node.due]
  constructor
  · intro hf
    obtain ⟨h1, h2⟩ := hs.2.2.1 hf
    have hp := h2 rfl
    obtain ⟨x, hx, hd⟩ := List.countP_pos_iff.mp hp
    exact ⟨⟨x, hx, (hdue x).mp hd⟩, fun y hy e1 e2 => h1 y hy ((hdue y).mpr ⟨e1, e2⟩)⟩
  · rintro ⟨⟨x, hx, hd⟩, hall⟩
    cases ok with
    | false => rfl
    | true =>
      exfalso
      obtain ⟨y, hy, hyd, hna⟩ := hs.2.2.2 rfl (List.countP_pos_iff.mpr ⟨x, hx, (hdue x).mpr hd⟩)
      have := (hdue y).mp hyd
      exact hna (hall y hy this.1 this.2)

/-- Rolling back a log successfully dereferences exactly the samples it recorded as held, each once, and then gives up
its subscription exactly if it recorded one; the log is empty afterwards. It fails exactly for ambiguous logs. -/
theorem effects (l l' : Log) (eff : List Eff) (h : rollbackLog l = .done l' eff true) :
    eff = (heldFrom 0 l.slots).map Eff.deref ++ (if l.sb then [.unsub l.cnt] else []) ∧
      containsTransactions l' = false ∧ ¬ Ambiguous l :=
  have := (rollbackLog_spec l).2.1 _ _ h
  ⟨this.2.2, this.2.1, this.1⟩

/-- `heldFrom 0` lists exactly the slots whose reference was taken and not given back. -/
theorem held_slots (l : Log) (k : Nat) : k ∈ heldFrom 0 l.slots ↔ l.slots[k]? = some (true, true) := by
  simp [mem_heldFrom]

/-- Recovery terminates the process only for a log that holds samples although it has no subscription on record. -/
theorem no_abort (id : Nat) (hid : id ≠ 0) (nodes : List Node) (h : rollbackSet id nodes = .abort) :
    ∃ x ∈ nodes, x.id = id ∧ x.rb = true ∧ x.log.sb = false ∧ x.log.se = false ∧
      ∃ t ∈ x.log.slots, t.1 = true ∨ t.2 = true := by
  obtain ⟨x, hx, hd, ha⟩ := (rollbackNodes_spec id hid nodes true).1 h
  have := (rollbackLog_spec x.log).1.mp ha
  refine ⟨x, hx, ?_, ?_, this.1, this.2.1, ?_⟩
  · simp [Node.due] at hd; exact hd.1
  · simp [Node.due] at hd; exact hd.2
  · simpa [hasRefTransactions] using this.2.2

example : rollbackLog held = .done empty [.deref 0, .deref 2, .unsub 2] true := by decide +kernel
example : rollbackSet 7 [⟨7, true, { held with se := false }⟩, ⟨9, false, held⟩] =
    .done [⟨7, true, { empty with sb := true }⟩, ⟨9, false, held⟩] [.deref 0, .deref 2] false := by decide +kernel

end Verif.Props.C19
