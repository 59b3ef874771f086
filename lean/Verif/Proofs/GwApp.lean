import Verif.Spec.GwApp
/-! Invariants of the gateway application. -/
namespace Verif.GwApp

theorem run_induct (P : List Op → St → Prop) (hs : ∀ pre s o, P pre s → P (pre ++ [o]) (step s o)) (ops pre : List Op) (s : St)
    (h : P pre s) : P (pre ++ ops) (run s ops) := by
  induction ops generalizing pre s with
  | nil => simpa [run] using h
  | cons o ops ih =>
    have := ih (pre ++ [o]) (step s o) (hs pre s o h)
    rw [List.append_assoc] at this
    exact this

theorem split_at {α : Type} {ops pre post : List α} {o : α} (h : ops = pre ++ o :: post) :
    pre.length < ops.length ∧ pre = ops.take pre.length ∧ ops[pre.length]? = some o := by
  subst h; simp

/-! Whitelist -/

def Allowed (r : List Nat) : Ev → Prop
  | .created n => n ∈ r
  | .offered n => n ∈ r
  | .stopped n => n ∈ r
  | .notified n _ => n ∈ r
  | _ => True

structure Wl (r : List Nat) (s : St) : Prop where
  recv : s.received = r
  skel : ∀ n, s.skeletons n ≠ none → n ∈ r
  log : ∀ e ∈ s.log, Allowed r e

theorem wl_push {r : List Nat} {s : St} (h : Wl r s) {e : Ev} (he : Allowed r e) : ∀ x ∈ e :: s.log, Allowed r x := by
  intro x hx
  rcases List.mem_cons.mp hx with rfl | hx
  · exact he
  · exact h.log x hx

theorem step_wl {r : List Nat} {s : St} (h : Wl r s) (o : Op) : Wl r (step s o) := by
  have hskel : ∀ {n : Nat} {es : List Nat}, s.skeletons n = some es → n ∈ r := fun hs => h.skel _ (by rw [hs]; simp)
  unfold step
  split
  · exact h
  · cases o with
    | peerProvide n es c f =>
      dsimp only
      split
      · unfold peerProvide
        split
        · exact h
        · rename_i hacc
          have hn : n ∈ r := by
            simp only [isAccepted, Bool.not_eq_true', Bool.not_eq_false, List.any_eq_true, beq_iff_eq] at hacc
            obtain ⟨x, h1, rfl⟩ := hacc
            rw [h.recv] at h1
            exact h1
          split
          · refine ⟨h.recv, h.skel, ?_⟩
            dsimp only
            split
            · exact wl_push h hn
            · exact h.log
          · split
            · exact h
            · split
              · exact ⟨h.recv, h.skel, wl_push h hn⟩
              · refine ⟨h.recv, ?_, ?_⟩
                · intro m hm
                  dsimp only at hm
                  by_cases he : m = n
                  · rw [he]; exact hn
                  · rw [upd_ne _ _ he] at hm; exact h.skel m hm
                · intro x hx
                  rcases List.mem_cons.mp hx with rfl | hx
                  · exact hn
                  · exact wl_push h (e := .created n) hn x hx
      · exact h
    | peerOffer n b =>
      dsimp only
      split
      · unfold peerOffer
        split
        · exact h
        · split
          · exact ⟨h.recv, h.skel, wl_push h (hskel (by assumption))⟩
          · exact h
      · exact h
    | peerStopOffer n =>
      dsimp only
      split
      · unfold peerStopOffer
        split
        · exact h
        · exact ⟨h.recv, h.skel, wl_push h (hskel (by assumption))⟩
      · exact h
    | peerRegister n ty e =>
      dsimp only
      split
      · unfold peerRegister
        split
        · exact h
        · exact ⟨h.recv, h.skel, h.log⟩
      · exact h
    | peerUnregister n ty e =>
      dsimp only
      split
      · unfold peerUnregister
        split
        · exact h
        · exact ⟨h.recv, h.skel, h.log⟩
      · exact h
    | peerNotify n ty e b =>
      dsimp only
      split
      · unfold peerNotify
        split
        · exact h
        · split
          · exact ⟨h.recv, h.skel, h.log⟩
          · split
            · exact ⟨h.recv, h.skel, wl_push h (hskel (by assumption))⟩
            · exact h
      · exact h
    | «continue» b =>
      dsimp only
      unfold continue'
      repeat' split
      all_goals first
        | exact h
        | exact ⟨h.recv, h.skel, h.log⟩
        | exact ⟨h.recv, h.skel, wl_push h trivial⟩
    | available n es c k =>
      dsimp only
      unfold available
      repeat' split
      all_goals first
        | exact h
        | (unfold propagate; split <;> exact ⟨h.recv, h.skel, wl_push h trivial⟩)
    | unavailable n k =>
      dsimp only
      unfold unavailable
      repeat' split
      all_goals first
        | exact ⟨h.recv, h.skel, h.log⟩
        | exact ⟨h.recv, h.skel, wl_push h trivial⟩
    | subscription n e on k =>
      dsimp only
      unfold subscription
      repeat' split
      all_goals first
        | exact h
        | exact ⟨h.recv, h.skel, h.log⟩
        | exact ⟨h.recv, h.skel, wl_push h trivial⟩

theorem init_wl (r : List Nat) : Wl r (init r) := ⟨rfl, by simp [init], by simp [init]⟩

theorem run_wl {r : List Nat} {s : St} (h : Wl r s) (ops : List Op) : Wl r (run s ops) := by
  induction ops generalizing s with
  | nil => exact h
  | cons o ops ih => exact ih (step_wl h o)

/-- Only events of the skeleton are notified. -/
def NotifiedKnown (s : St) : Prop := ∀ n e, .notified n e ∈ s.log → ∃ es, s.skeletons n = some es ∧ e ∈ es

theorem known_push {s s' : St} (h : NotifiedKnown s) {x : Ev} (hl : s'.log = x :: s.log) (hs : s'.skeletons = s.skeletons)
    (hx : ∀ n e, x = .notified n e → ∃ es, s.skeletons n = some es ∧ e ∈ es) : NotifiedKnown s' := by
  intro n e hm
  rw [hl] at hm
  rw [hs]
  rcases List.mem_cons.mp hm with hm | hm
  · exact hx n e hm.symm
  · exact h n e hm

theorem known_same {s s' : St} (h : NotifiedKnown s) (hl : s'.log = s.log) (hs : s'.skeletons = s.skeletons) : NotifiedKnown s' := by
  intro n e hm
  rw [hl] at hm
  rw [hs]
  exact h n e hm

theorem step_known {s : St} (h : NotifiedKnown s) (o : Op) : NotifiedKnown (step s o) := by
  unfold step
  split
  · exact h
  · cases o with
    | peerProvide n es c f =>
      dsimp only
      unfold peerProvide
      repeat' split
      all_goals first
        | exact h
        | exact known_same h rfl rfl
        | exact known_push h rfl rfl (fun _ _ hx => by cases hx)
        | skip
      · rename_i hs _ _
        intro m e hm
        have hm : .notified m e ∈ s.log := by simpa using hm
        obtain ⟨es', h1, h2⟩ := h m e hm
        have hne : m ≠ n := by rintro rfl; rw [hs] at h1; cases h1
        refine ⟨es', ?_, h2⟩
        show upd s.skeletons n _ m = _
        rw [upd_ne _ _ hne]; exact h1
    | peerNotify n ty e b =>
      dsimp only
      unfold peerNotify
      repeat' split
      all_goals first
        | exact h
        | exact known_same h rfl rfl
        | skip
      rename_i es hs _ hc
      exact known_push h rfl rfl (fun m x hx => by cases hx; exact ⟨es, hs, hc.1⟩)
    | _ =>
      dsimp only
      first
        | unfold peerOffer
        | unfold peerStopOffer
        | unfold peerRegister
        | unfold peerUnregister
        | unfold continue'
        | unfold available propagate
        | unfold unavailable
        | unfold subscription
      repeat' split
      all_goals first
        | exact h
        | exact known_same h rfl rfl
        | exact known_push h rfl rfl (fun _ _ hx => by cases hx)

theorem run_known {s : St} (h : NotifiedKnown s) (ops : List Op) : NotifiedKnown (run s ops) := by
  induction ops generalizing s with
  | nil => exact h
  | cons o ops ih => exact ih (step_known h o)

/-! Causes of an abort -/

structure Live (pre : List Op) (s : St) : Prop where
  prox : ∀ n, s.proxies n = none → (∀ es c k, .available n es c k ∉ pre) ∨ NotForwarded n pre
  reg : ∀ n e, s.pc = .register n e → s.proxies n ≠ none ∨ NotForwarded n pre
  unreg : ∀ n ty e, s.pc = .unregister n ty e → (s.proxies n ≠ none ∨ NotForwarded n pre) ∧ .peerUnregister n ty e ∈ pre

/-- The justification of an abort. -/
def Why (s0 : St) (pre : List Op) : Option Death → Prop
  | none => True
  | some .notAnEvent => OddType pre
  | some .proxyMissing => LostProxy pre
  | some .race => (∃ n, NotForwarded n pre) ∨ Met s0 pre

structure Causes (s0 : St) (pre : List Op) (s : St) : Prop where
  state : s = run s0 pre
  live : s.dead = none → Live pre s
  why : Why s0 pre s.dead

theorem notForwarded_mono {n : Nat} {pre : List Op} (o : Op) (h : NotForwarded n pre) : NotForwarded n (pre ++ [o]) := by
  obtain ⟨es, c, k, h1, h2⟩ := h
  exact ⟨es, c, k, List.mem_append_left _ h1, h2⟩

theorem run_snoc (s0 : St) (pre : List Op) (o : Op) : run s0 (pre ++ [o]) = step (run s0 pre) o := by
  simp [run, List.foldl_append]

theorem why_mono {s0 : St} {pre : List Op} (o : Op) {d : Option Death} (h : Why s0 pre d) : Why s0 (pre ++ [o]) d := by
  cases d with
  | none => trivial
  | some d =>
    cases d with
    | notAnEvent =>
      obtain ⟨n, ty, e, h1, h2⟩ := h
      refine ⟨n, ty, e, h1, ?_⟩
      rcases h2 with h2 | ⟨b, h2⟩
      · exact Or.inl (List.mem_append_left _ h2)
      · exact Or.inr ⟨b, List.mem_append_left _ h2⟩
    | proxyMissing =>
      obtain ⟨p, n, k, q, h1, h2⟩ := h
      exact ⟨p, n, k, q ++ [o], by rw [h1]; simp, h2⟩
    | race =>
      rcases h with ⟨n, h1⟩ | ⟨p, n, e, on, k, q, h1, h2⟩
      · exact Or.inl ⟨n, notForwarded_mono o h1⟩
      · exact Or.inr ⟨p, n, e, on, k, q ++ [o], by rw [h1]; simp, h2⟩

/-- An operation that is not `available` and keeps the proxies and does not start a lookup. -/
theorem live_mono {pre : List Op} {s s' : St} (o : Op) (h : Live pre s) (ho : ∀ n es c k, o ≠ .available n es c k)
    (hp : s'.proxies = s.proxies) (hr : ∀ n e, s'.pc = .register n e → s.pc = .register n e ∨ s.proxies n ≠ none)
    (hu : ∀ n ty e, s'.pc = .unregister n ty e → s.pc = .unregister n ty e ∨ (s.proxies n ≠ none ∧ o = .peerUnregister n ty e)) :
    Live (pre ++ [o]) s' := by
  refine ⟨?_, ?_, ?_⟩
  · intro n hn
    rw [hp] at hn
    rcases h.prox n hn with h1 | h1
    · left
      intro es c k hm
      simp only [List.mem_append, List.mem_singleton] at hm
      rcases hm with hm | hm
      · exact h1 es c k hm
      · exact ho n es c k hm.symm
    · exact Or.inr (notForwarded_mono o h1)
  · intro n e hpc
    rw [hp]
    rcases hr n e hpc with h1 | h1
    · rcases h.reg n e h1 with h1 | h1
      · exact Or.inl h1
      · exact Or.inr (notForwarded_mono o h1)
    · exact Or.inl h1
  · intro n ty e hpc
    rw [hp]
    rcases hu n ty e hpc with h1 | ⟨h1, rfl⟩
    · obtain ⟨h2, h3⟩ := h.unreg n ty e h1
      refine ⟨?_, List.mem_append_left _ h3⟩
      rcases h2 with h2 | h2
      · exact Or.inl h2
      · exact Or.inr (notForwarded_mono o h2)
    · exact ⟨Or.inl h1, by simp⟩

theorem live_same {pre : List Op} {s s' : St} (o : Op) (h : Live pre s) (ho : ∀ n es c k, o ≠ .available n es c k)
    (hp : s'.proxies = s.proxies) (hpc : s'.pc = s.pc) : Live (pre ++ [o]) s' :=
  live_mono o h ho hp (fun n e hh => Or.inl (hpc ▸ hh)) (fun n ty e hh => Or.inl (hpc ▸ hh))

theorem live_idle {pre : List Op} {s s' : St} (o : Op) (h : Live pre s) (ho : ∀ n es c k, o ≠ .available n es c k)
    (hp : s'.proxies = s.proxies) (hpc : (∀ n e, s'.pc ≠ .register n e) ∧ ∀ n ty e, s'.pc ≠ .unregister n ty e) :
    Live (pre ++ [o]) s' :=
  live_mono o h ho hp (fun n e hh => absurd hh (hpc.1 n e)) (fun n ty e hh => absurd hh (hpc.2 n ty e))

theorem step_why {s0 : St} (pre : List Op) (s : St) (o : Op) (hs : s = run s0 pre) (hd : s.dead = none) (h : Live pre s) :
    ((step s o).dead = none → Live (pre ++ [o]) (step s o)) ∧ Why s0 (pre ++ [o]) (step s o).dead := by
  have hdd : ∀ {s' : St}, s'.dead = s.dead → Why s0 (pre ++ [o]) s'.dead := by
    intro s' e; rw [e, hd]; trivial
  unfold step
  rw [hd]
  simp only [Option.isSome_none, Bool.false_eq_true, if_false]
  cases o with
  | peerProvide n es c f =>
    dsimp only
    unfold peerProvide
    repeat' split
    all_goals first
      | exact ⟨fun _ => live_same _ h (by simp) rfl rfl, hdd rfl⟩
      | exact ⟨fun _ => live_idle _ h (by simp) rfl (by simp), hdd rfl⟩
  | peerOffer n b =>
    dsimp only
    unfold peerOffer
    repeat' split
    all_goals exact ⟨fun _ => live_same _ h (by simp) rfl rfl, hdd rfl⟩
  | peerStopOffer n =>
    dsimp only
    unfold peerStopOffer
    repeat' split
    all_goals exact ⟨fun _ => live_same _ h (by simp) rfl rfl, hdd rfl⟩
  | peerRegister n ty e =>
    dsimp only
    unfold peerRegister
    repeat' split
    · exact ⟨fun _ => live_same _ h (by simp) rfl rfl, hdd rfl⟩
    · rename_i x hx
      refine ⟨fun _ => live_mono _ h (by simp) rfl ?_ (by simp), hdd rfl⟩
      intro n' e' hh
      simp only [Pc.register.injEq] at hh
      obtain ⟨rfl, rfl⟩ := hh
      exact Or.inr (by rw [hx]; simp)
    · exact ⟨fun _ => live_same _ h (by simp) rfl rfl, hdd rfl⟩
  | peerUnregister n ty e =>
    dsimp only
    unfold peerUnregister
    repeat' split
    · exact ⟨fun _ => live_same _ h (by simp) rfl rfl, hdd rfl⟩
    · rename_i x hx
      refine ⟨fun _ => live_mono _ h (by simp) rfl (by simp) ?_, hdd rfl⟩
      intro n' ty' e' hh
      simp only [Pc.unregister.injEq] at hh
      obtain ⟨rfl, rfl, rfl⟩ := hh
      exact Or.inr ⟨by rw [hx]; simp, rfl⟩
    · exact ⟨fun _ => live_same _ h (by simp) rfl rfl, hdd rfl⟩
  | peerNotify n ty e b =>
    dsimp only
    unfold peerNotify
    repeat' split
    all_goals first
      | exact ⟨fun _ => live_same _ h (by simp) rfl rfl, hdd rfl⟩
      | skip
    refine ⟨by simp, n, ty, e, by assumption, Or.inr ⟨b, by simp⟩⟩
  | «continue» b =>
    dsimp only
    unfold continue'
    split
    · exact ⟨fun _ => live_same _ h (by simp) rfl rfl, hdd rfl⟩
    · rename_i n e heq
      split
      · rename_i hx
        refine ⟨by simp, Or.inl ⟨n, ?_⟩⟩
        rcases h.reg n e heq with h1 | h1
        · exact absurd hx h1
        · exact notForwarded_mono _ h1
      · split
        · exact ⟨fun _ => live_idle _ h (by simp) rfl (by simp), hdd rfl⟩
        · exact ⟨fun _ => live_idle _ h (by simp) rfl (by simp), hdd rfl⟩
    · rename_i n ty e heq
      obtain ⟨h1, h2⟩ := h.unreg n ty e heq
      split
      · rename_i hx
        refine ⟨by simp, Or.inl ⟨n, ?_⟩⟩
        rcases h1 with h1 | h1
        · exact absurd hx h1
        · exact notForwarded_mono _ h1
      · split
        · exact ⟨by simp, n, ty, e, by assumption, Or.inl (List.mem_append_left _ h2)⟩
        · split
          · exact ⟨fun _ => live_idle _ h (by simp) rfl (by simp), hdd rfl⟩
          · exact ⟨fun _ => live_idle _ h (by simp) rfl (by simp), hdd rfl⟩
    · exact ⟨fun _ => live_idle _ h (by simp) rfl (by simp), hdd rfl⟩
    · exact ⟨fun _ => live_idle _ h (by simp) rfl (by simp), hdd rfl⟩
  | available n es c k =>
    dsimp only
    have hnf : (c = false ∨ k = false) → NotForwarded n (pre ++ [.available n es c k]) :=
      fun hh => ⟨es, c, k, by simp, hh⟩
    have key : ∀ s' : St, s'.pc = s.pc → (∀ m, m ≠ n → s'.proxies m = s.proxies m) →
        (s'.proxies n = none → NotForwarded n (pre ++ [.available n es c k])) → Live (pre ++ [.available n es c k]) s' := by
      intro s' e1 e2 e3
      have lift : ∀ m, s.proxies m ≠ none ∨ NotForwarded m pre →
          s'.proxies m ≠ none ∨ NotForwarded m (pre ++ [.available n es c k]) := by
        intro m hm
        rcases hm with hm | hm
        · by_cases hmn : m = n
          · subst hmn
            by_cases hn : s'.proxies m = none
            · exact Or.inr (e3 hn)
            · exact Or.inl hn
          · rw [e2 m hmn]; exact Or.inl hm
        · exact Or.inr (notForwarded_mono _ hm)
      refine ⟨?_, ?_, ?_⟩
      · intro m hm
        by_cases hmn : m = n
        · subst hmn; exact Or.inr (e3 hm)
        · rw [e2 m hmn] at hm
          rcases h.prox m hm with h1 | h1
          · left
            intro es' c' k' hmem
            simp only [List.mem_append, List.mem_singleton, Op.available.injEq] at hmem
            rcases hmem with hmem | hmem
            · exact h1 es' c' k' hmem
            · exact hmn hmem.1
          · exact Or.inr (notForwarded_mono _ h1)
      · intro m e hp
        rw [e1] at hp
        exact lift m (h.reg m e hp)
      · intro m ty e hp
        rw [e1] at hp
        obtain ⟨h1, h2⟩ := h.unreg m ty e hp
        exact ⟨lift m h1, List.mem_append_left _ h2⟩
    unfold available
    split
    · rename_i x hx
      unfold propagate
      split
      · exact ⟨fun _ => key _ rfl (fun _ _ => rfl) (fun hn => by dsimp only at hn; rw [hx] at hn; simp at hn), hdd rfl⟩
      · rename_i hk
        exact ⟨fun _ => key _ rfl (fun m hm => upd_ne _ _ hm) (fun _ => hnf (Or.inr (by simpa using hk))), hdd rfl⟩
    · split
      · rename_i hc
        exact ⟨fun _ => key _ rfl (fun _ _ => rfl) (fun _ => hnf (Or.inl (by simpa using hc))), hdd rfl⟩
      · unfold propagate
        split
        · exact ⟨fun _ => key _ rfl (fun m hm => upd_ne _ _ hm) (fun hn => by simp [upd_self] at hn), hdd rfl⟩
        · rename_i hk
          exact ⟨fun _ => key _ rfl (fun m hm => by simp [upd_ne _ _ hm]) (fun _ => hnf (Or.inr (by simpa using hk))), hdd rfl⟩
  | unavailable n k =>
    dsimp only
    unfold unavailable
    split
    · rename_i hx
      exact ⟨by simp, pre, n, k, [], by simp, h.prox n hx⟩
    · exact ⟨fun _ => live_same _ h (by simp) rfl rfl, hdd rfl⟩
  | subscription n e on k =>
    dsimp only
    unfold subscription
    repeat' split
    all_goals first
      | exact ⟨fun _ => live_same _ h (by simp) rfl rfl, hdd rfl⟩
      | skip
    all_goals
      rename_i hit
      exact ⟨by simp, Or.inr ⟨pre, n, e, on, k, [], by simp, by rw [← hs]; exact hit⟩⟩

theorem step_causes {s0 : St} (pre : List Op) (s : St) (o : Op) (h : Causes s0 pre s) : Causes s0 (pre ++ [o]) (step s o) := by
  have hst : step s o = run s0 (pre ++ [o]) := by rw [run_snoc, ← h.state]
  cases hd : s.dead with
  | some d =>
    have hs : step s o = s := by unfold step; rw [hd]; rfl
    rw [hs] at hst ⊢
    exact ⟨hst, by rw [hd]; simp, why_mono o h.why⟩
  | none =>
    have := step_why pre s o h.state hd (h.live hd)
    exact ⟨hst, this.1, this.2⟩

theorem run_causes (r : List Nat) (ops : List Op) : Causes (init r) ops (run (init r) ops) := by
  have := run_induct (Causes (init r)) step_causes ops [] (init r) ⟨rfl, fun _ => ⟨by simp, by simp [init], by simp [init]⟩, trivial⟩
  simpa using this

/-! Registrations at the peer -/

/-- A repeated registration is only sent while a registration is outstanding. -/
def Justified : List Ev → Prop
  | [] => True
  | .reregister n e _ :: l => l.countP (isRegister n e) = l.countP (isUnregister n e) + 1 ∧ Justified l
  | _ :: l => Justified l

/-- The elements of the running iteration. -/
def left (s : St) (n : Nat) : List Nat :=
  match s.pc with
  | .reregister m es => if m = n then es else []
  | _ => []

structure Regs (pre : List Op) (s : St) : Prop where
  nodup : ∀ n, (s.active n).Nodup
  count : ∀ n e, s.log.countP (isRegister n e) = s.log.countP (isUnregister n e) + (if e ∈ s.active n then 1 else 0)
  just : Justified s.log
  iter : s.dead = none → ∀ n, (∀ e ∈ left s n, e ∈ s.active n) ∧ (left s n).Nodup
  reps : ∀ n e, s.log.countP (isReregister n e) + (left s n).count e ≤ pre.countP (isProvideOf n)

/-- Events that are not requests for notifications. -/
def Quiet : Ev → Prop
  | .register _ _ _ => False
  | .unregister _ _ _ => False
  | .reregister _ _ _ => False
  | _ => True

theorem quiet_counts {e : Ev} (h : Quiet e) (l : List Ev) (n x : Nat) :
    (e :: l).countP (isRegister n x) = l.countP (isRegister n x) ∧
    (e :: l).countP (isUnregister n x) = l.countP (isUnregister n x) ∧
    (e :: l).countP (isReregister n x) = l.countP (isReregister n x) ∧ (Justified l → Justified (e :: l)) := by
  cases e <;> simp only [Quiet] at h
  all_goals
    refine ⟨?_, ?_, ?_, fun hj => hj⟩ <;> rw [List.countP_cons_of_neg] <;> simp [isRegister, isUnregister, isReregister]

theorem provide_mono (pre : List Op) (o : Op) (n : Nat) : pre.countP (isProvideOf n) ≤ (pre ++ [o]).countP (isProvideOf n) := by
  rw [List.countP_append]; omega

/-- A step that keeps the active events and adds only quiet events. -/
theorem regs_quiet {pre : List Op} {s s' : St} (h : Regs pre s) (o : Op) (ha : s'.active = s.active)
    (hl : s'.log = s.log ∨ (∃ e, Quiet e ∧ s'.log = e :: s.log) ∨ ∃ e e', Quiet e ∧ Quiet e' ∧ s'.log = e :: e' :: s.log)
    (hd : s'.dead = none → s.dead = none) (hleft : ∀ n, left s' n = left s n ∨ left s' n = []) : Regs (pre ++ [o]) s' := by
  have hc : ∀ n x, s'.log.countP (isRegister n x) = s.log.countP (isRegister n x) ∧
      s'.log.countP (isUnregister n x) = s.log.countP (isUnregister n x) ∧
      s'.log.countP (isReregister n x) = s.log.countP (isReregister n x) ∧ (Justified s.log → Justified s'.log) := by
    intro n x
    rcases hl with hl | ⟨e, he, hl⟩ | ⟨e, e', he, he', hl⟩
    · rw [hl]; exact ⟨rfl, rfl, rfl, fun hj => hj⟩
    · rw [hl]; exact quiet_counts he s.log n x
    · rw [hl]
      obtain ⟨a1, a2, a3, a4⟩ := quiet_counts he (e' :: s.log) n x
      obtain ⟨b1, b2, b3, b4⟩ := quiet_counts he' s.log n x
      exact ⟨a1.trans b1, a2.trans b2, a3.trans b3, fun hj => a4 (b4 hj)⟩
  refine ⟨fun n => by rw [ha]; exact h.nodup n, ?_, (hc 0 0).2.2.2 h.just, ?_, ?_⟩
  · intro n e
    rw [(hc n e).1, (hc n e).2.1, ha]; exact h.count n e
  · intro hdd n
    have := h.iter (hd hdd) n
    rcases hleft n with hln | hln
    · rw [hln, ha]; exact this
    · rw [hln]; simp
  · intro n e
    rw [(hc n e).2.2.1]
    have h1 := h.reps n e
    have h2 := provide_mono pre o n
    rcases hleft n with hln | hln
    · rw [hln]; omega
    · rw [hln]; simp only [List.count_nil]; omega

theorem left_of_pc {s s' : St} (h : s'.pc = s.pc) (n : Nat) : left s' n = left s n := by
  unfold left; rw [h]

theorem step_regs (pre : List Op) (s : St) (o : Op) (h : Regs pre s) : Regs (pre ++ [o]) (step s o) := by
  have same : Regs (pre ++ [o]) s := regs_quiet h o rfl (Or.inl rfl) (fun x => x) (fun _ => Or.inl rfl)
  unfold step
  split
  · exact same
  · rename_i hdead
    have hdn : s.dead = none := by simpa using hdead
    cases o with
    | peerProvide n es c f =>
      dsimp only
      split
      · rename_i hpc
        unfold peerProvide
        split
        · exact same
        · split
          · have hleft : ∀ m, left { s with log := if f then .offered n :: s.log else s.log, pc := .reregister n (s.active n) } m =
                if n = m then s.active n else [] := by
              intro m; simp only [left]
            have hcs : ∀ m x, (if f = true then Ev.offered n :: s.log else s.log).countP (isRegister m x) = s.log.countP (isRegister m x) ∧
                (if f = true then Ev.offered n :: s.log else s.log).countP (isUnregister m x) = s.log.countP (isUnregister m x) ∧
                (if f = true then Ev.offered n :: s.log else s.log).countP (isReregister m x) = s.log.countP (isReregister m x) ∧
                (Justified s.log → Justified (if f = true then Ev.offered n :: s.log else s.log)) := by
              intro m x
              split
              · exact quiet_counts (e := .offered n) trivial s.log m x
              · exact ⟨rfl, rfl, rfl, fun hj => hj⟩
            refine ⟨h.nodup, ?_, (hcs 0 0).2.2.2 h.just, ?_, ?_⟩
            · intro m x
              dsimp only
              rw [(hcs m x).1, (hcs m x).2.1]; exact h.count m x
            · intro _ m
              rw [hleft m]
              split
              · rename_i hm; subst hm; exact ⟨fun _ hh => hh, h.nodup n⟩
              · simp
            · intro m x
              rw [hleft m]
              dsimp only
              rw [(hcs m x).2.2.1, List.countP_append]
              have h1 := h.reps m x
              split
              · rename_i hm
                subst hm
                have h2 : (s.active n).count x ≤ 1 := List.nodup_iff_count.mp (h.nodup n) x
                have h3 : [Op.peerProvide n es c f].countP (isProvideOf n) = 1 := by simp [isProvideOf]
                omega
              · simp only [List.count_nil]; omega
          · split
            · exact same
            · split
              · exact regs_quiet h _ rfl (Or.inr (Or.inl ⟨_, by trivial, rfl⟩)) (fun x => x) (fun m => Or.inl (left_of_pc rfl m))
              · exact regs_quiet h _ rfl (Or.inr (Or.inr ⟨_, _, by trivial, by trivial, rfl⟩)) (fun x => x)
                  (fun m => Or.inl (left_of_pc rfl m))
      · exact same
    | peerOffer n b =>
      dsimp only
      unfold peerOffer
      repeat' split
      all_goals first
        | exact same
        | exact regs_quiet h _ rfl (Or.inr (Or.inl ⟨_, by trivial, rfl⟩)) (fun x => x) (fun m => Or.inl (left_of_pc rfl m))
    | peerStopOffer n =>
      dsimp only
      unfold peerStopOffer
      repeat' split
      all_goals first
        | exact same
        | exact regs_quiet h _ rfl (Or.inr (Or.inl ⟨_, by trivial, rfl⟩)) (fun x => x) (fun m => Or.inl (left_of_pc rfl m))
    | peerRegister n ty e =>
      dsimp only
      unfold peerRegister
      repeat' split
      all_goals first
        | exact same
        | exact regs_quiet h _ rfl (Or.inl rfl) (fun x => x) (fun m => Or.inr rfl)
    | peerUnregister n ty e =>
      dsimp only
      unfold peerUnregister
      repeat' split
      all_goals first
        | exact same
        | exact regs_quiet h _ rfl (Or.inl rfl) (fun x => x) (fun m => Or.inr rfl)
    | peerNotify n ty e b =>
      dsimp only
      unfold peerNotify
      repeat' split
      all_goals first
        | exact same
        | exact regs_quiet h _ rfl (Or.inl rfl) (fun x => hdn) (fun m => Or.inl (left_of_pc rfl m))
        | exact regs_quiet h _ rfl (Or.inr (Or.inl ⟨_, by trivial, rfl⟩)) (fun x => x) (fun m => Or.inl (left_of_pc rfl m))
    | «continue» b =>
      dsimp only
      unfold continue'
      split
      · exact same
      · repeat' split
        all_goals first
          | exact regs_quiet h _ rfl (Or.inl rfl) (fun x => hdn) (fun m => Or.inl (left_of_pc rfl m))
          | exact regs_quiet h _ rfl (Or.inl rfl) (fun x => hdn) (fun m => Or.inr rfl)
          | exact regs_quiet h _ rfl (Or.inr (Or.inl ⟨_, by trivial, rfl⟩)) (fun x => hdn) (fun m => Or.inr rfl)
      · repeat' split
        all_goals first
          | exact regs_quiet h _ rfl (Or.inl rfl) (fun x => hdn) (fun m => Or.inl (left_of_pc rfl m))
          | exact regs_quiet h _ rfl (Or.inl rfl) (fun x => hdn) (fun m => Or.inr rfl)
          | exact regs_quiet h _ rfl (Or.inr (Or.inl ⟨_, by trivial, rfl⟩)) (fun x => hdn) (fun m => Or.inr rfl)
      · exact regs_quiet h _ rfl (Or.inl rfl) (fun x => hdn) (fun m => Or.inr rfl)
      · rename_i n e es heq
        have hl0 : ∀ m, left s m = if n = m then e :: es else [] := by
          intro m; simp only [left, heq]
        have hit := h.iter hdn
        have hmem : e ∈ s.active n := (hit n).1 e (by rw [hl0 n]; simp)
        refine ⟨h.nodup, ?_, ⟨?_, h.just⟩, ?_, ?_⟩
        · intro m x
          dsimp only
          rw [List.countP_cons_of_neg (by simp [isRegister]), List.countP_cons_of_neg (by simp [isUnregister])]
          exact h.count m x
        · have := h.count n e
          rw [if_pos hmem] at this
          exact this
        · intro _ m
          have := hit m
          rw [hl0 m] at this
          simp only [left]
          split
          · rename_i hm
            rw [if_pos hm] at this
            exact ⟨fun x hx => this.1 x (List.mem_cons_of_mem _ hx), (List.nodup_cons.mp this.2).2⟩
          · simp
        · intro m x
          have h1 := h.reps m x
          rw [hl0 m] at h1
          simp only [left]
          rw [List.countP_append]
          by_cases hm : n = m
          · subst hm
            rw [if_pos rfl] at h1 ⊢
            rw [List.countP_cons]
            rw [List.count_cons] at h1
            by_cases hx : e = x
            · subst hx
              simp only [isReregister, beq_self_eq_true, Bool.and_self, if_true] at h1 ⊢
              omega
            · have hx' : (e == x) = false := by simpa using hx
              simp only [isReregister, hx', Bool.and_false, Bool.false_eq_true, if_false] at h1 ⊢
              omega
          · rw [if_neg hm] at h1 ⊢
            rw [List.countP_cons_of_neg (by simp [isReregister, hm])]
            omega
    | available n es c k =>
      dsimp only
      unfold available
      repeat' split
      all_goals first
        | exact same
        | (unfold propagate
           split <;> exact regs_quiet h _ rfl (Or.inr (Or.inl ⟨_, by trivial, rfl⟩)) (fun x => x) (fun m => Or.inl (left_of_pc rfl m)))
    | unavailable n k =>
      dsimp only
      unfold unavailable
      split
      · exact regs_quiet h _ rfl (Or.inl rfl) (fun x => hdn) (fun m => Or.inl (left_of_pc rfl m))
      · exact regs_quiet h _ rfl (Or.inr (Or.inl ⟨_, by trivial, rfl⟩)) (fun x => x) (fun m => Or.inl (left_of_pc rfl m))
    | subscription n e on k =>
      have hno : iterates s n = false → ∀ m, m = n → left s m = [] := by
        intro hi m hm
        subst hm
        unfold iterates at hi
        unfold left
        split
        · rename_i heq
          rw [heq] at hi
          rw [if_neg (by simpa using hi)]
        · rfl
      have hprov : ∀ m, (pre ++ [Op.subscription n e on k]).countP (isProvideOf m) = pre.countP (isProvideOf m) := by
        intro m; rw [List.countP_append]; simp [isProvideOf]
      dsimp only
      unfold subscription
      split
      · split
        · exact same
        · split
          · exact regs_quiet h _ rfl (Or.inl rfl) (fun x => hdn) (fun m => Or.inl (left_of_pc rfl m))
          · rename_i hnm hit
            have hleft : ∀ m, left { s with active := upd s.active n (e :: s.active n), log := .register n e k :: s.log } m = left s m :=
              fun m => left_of_pc rfl m
            refine ⟨?_, ?_, h.just, ?_, ?_⟩
            · intro m
              by_cases hm : m = n
              · subst hm; simp only [upd_self, List.nodup_cons]; exact ⟨hnm, h.nodup m⟩
              · simp only [upd_ne _ _ hm]; exact h.nodup m
            · intro m x
              have := h.count m x
              dsimp only
              rw [List.countP_cons, List.countP_cons_of_neg (p := isUnregister m x) (by simp [isUnregister])]
              by_cases hm : m = n
              · subst hm
                simp only [upd_self]
                by_cases hx : x = e
                · subst hx
                  rw [if_neg hnm] at this
                  simp only [isRegister, beq_self_eq_true, Bool.and_self, if_true, List.mem_cons, true_or]
                  omega
                · have hx' : (e == x) = false := by simp; exact fun hh => hx hh.symm
                  simp only [isRegister, hx', Bool.and_false, Bool.false_eq_true, if_false, List.mem_cons, hx, false_or]
                  omega
              · simp only [upd_ne _ _ hm]
                have hm' : (n == m) = false := by simp; exact fun hh => hm hh.symm
                simp only [isRegister, hm', Bool.false_and, Bool.false_eq_true, if_false]
                omega
            · intro hdd m
              rw [hleft m]
              have := h.iter hdn m
              by_cases hm : m = n
              · rw [hno (by simpa using hit) m hm]; simp
              · dsimp only; rw [upd_ne _ _ hm]; exact this
            · intro m x
              rw [hleft m, hprov m]
              dsimp only
              rw [List.countP_cons_of_neg (by simp [isReregister])]
              exact h.reps m x
      · split
        · split
          · exact regs_quiet h _ rfl (Or.inl rfl) (fun x => hdn) (fun m => Or.inl (left_of_pc rfl m))
          · rename_i hnm hit
            have hleft : ∀ m, left { s with active := upd s.active n ((s.active n).filter (fun x => x ≠ e)), log := .unregister n e k :: s.log } m = left s m :=
              fun m => left_of_pc rfl m
            refine ⟨?_, ?_, h.just, ?_, ?_⟩
            · intro m
              by_cases hm : m = n
              · subst hm; simp only [upd_self]; exact (h.nodup m).filter _
              · simp only [upd_ne _ _ hm]; exact h.nodup m
            · intro m x
              have := h.count m x
              dsimp only
              rw [List.countP_cons_of_neg (p := isRegister m x) (by simp [isRegister]), List.countP_cons]
              by_cases hm : m = n
              · subst hm
                simp only [upd_self, List.mem_filter, decide_not, Bool.not_eq_true', decide_eq_false_iff_not]
                by_cases hx : x = e
                · subst hx
                  rw [if_pos hnm] at this
                  simp only [isUnregister, beq_self_eq_true, Bool.and_self, if_true, not_true, and_false, if_false]
                  omega
                · have hx' : (e == x) = false := by simp; exact fun hh => hx hh.symm
                  simp only [isUnregister, hx', Bool.and_false, Bool.false_eq_true, if_false, hx, not_false_eq_true, and_true]
                  omega
              · simp only [upd_ne _ _ hm]
                have hm' : (n == m) = false := by simp; exact fun hh => hm hh.symm
                simp only [isUnregister, hm', Bool.false_and, Bool.false_eq_true, if_false]
                omega
            · intro hdd m
              rw [hleft m]
              have := h.iter hdn m
              by_cases hm : m = n
              · rw [hno (by simpa using hit) m hm]; simp
              · dsimp only; rw [upd_ne _ _ hm]; exact this
            · intro m x
              rw [hleft m, hprov m]
              dsimp only
              rw [List.countP_cons_of_neg (by simp [isReregister])]
              exact h.reps m x
        · exact same

theorem run_regs (r : List Nat) (ops : List Op) : Regs ops (run (init r) ops) := by
  have := run_induct Regs step_regs ops [] (init r)
    ⟨by simp [init], by simp [init], trivial, by simp [init, left], by simp [init, left]⟩
  simpa using this

theorem justified_append {l1 l2 : List Ev} (h : Justified (l1 ++ l2)) : Justified l2 := by
  induction l1 with
  | nil => exact h
  | cons e l ih =>
    apply ih
    cases e <;> simp only [List.cons_append, Justified] at h <;> first | exact h | exact h.2

end Verif.GwApp
