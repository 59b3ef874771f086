import Verif.Proofs.Ssm
/-! The receive handler that is set is registered. -/
namespace Verif.Ssm

/-- Where the handler `x` is. -/
structure At (x : Nat) (s : St) : Prop where
  ptr : s.ptr = some x
  scope : s.scope = some x
  sub : s.st = .subscribed → ∃ k, s.regs = [(k, x, s.pid)]
  pend : s.st = .pending → s.pend = some x ∨ (s.pend = none ∧ ∃ k p, s.regNo = some k ∧ s.regs = [(k, x, p)])
  not : s.st = .notSubscribed → s.pend = some x

structure HInv (a : Asked) (s : St) : Prop where
  base : Inv a.wish s
  count : s.nextH = a.count
  at_ : ∀ x, a.handler = some x → At x s

theorem register_pid (s : St) (h : Nat) : (register s h).pid = s.pid := by
  unfold register unregister; dsimp only; split <;> rfl

theorem reregister_pid (s : St) : (reregister s).pid = s.pid := by
  unfold reregister
  repeat' split
  · exact register_pid s _
  · rfl
  · rfl

/-- Nothing that concerns the handler has changed. -/
theorem At.same {x : Nat} {s t : St} (h : At x s) (h1 : t.ptr = s.ptr) (h2 : t.scope = s.scope) (h3 : t.st = s.st)
    (h4 : t.regs = s.regs) (h5 : t.pend = s.pend) (h6 : t.regNo = s.regNo) (h7 : t.st = .subscribed → t.pid = s.pid) : At x t := by
  refine ⟨h1.trans h.ptr, h2.trans h.scope, ?_, ?_, ?_⟩
  · intro e; rw [h4, h7 e]; exact h.sub (h3.symm.trans e)
  · rw [h3, h4, h5, h6]; exact h.pend
  · rw [h3, h5]; exact h.not

theorem subscribe_at {x : Nat} {s : St} (hi : s.st = .notSubscribed) (h : At x s) (hr : s.regNo = none) (hrs : s.regs = [])
    (n : Nat) (lf sf : Bool) : At x (bindSubscribe s n lf sf).1 := by
  have hp := h.not hi
  have h1 := h.ptr
  have h2 := h.scope
  cases hav : s.avail <;> cases lf <;> cases sf
  all_goals simp only [bindSubscribe, hi, subscribeFresh, registerWaiting, hp, hav, transition, register, unregister, hr, hrs]
  all_goals simp
  all_goals first
    | exact h
    | exact ⟨h1, h2, by simp, by simp, fun _ => rfl⟩
    | exact ⟨h1, h2, by simp, fun _ => .inl rfl, by simp⟩
    | exact ⟨h1, h2, by simp, by simp, fun _ => hp⟩
    | exact ⟨h1, h2, fun _ => ⟨s.nextNo, rfl⟩, by simp, by simp⟩

theorem subscribe_nextH (s : St) (n : Nat) (lf sf : Bool) : (bindSubscribe s n lf sf).1.nextH = s.nextH := by
  unfold bindSubscribe
  split
  · exact (subscribeFresh_hs s n lf sf).1
  · rfl
  · rfl

theorem step_hinv {a : Asked} {s : St} (h : HInv a s) (hd : s.dead = false) (op : Op) (hd' : (step s op).dead = false) :
    HInv (a.step op) (step s op) := by
  have hb := step_inv h.base hd op hd'
  have hc := h.count
  cases op with
  | subscribe n lf sf =>
    refine ⟨hb, ?_, ?_⟩
    · show _ = a.count
      unfold step; rw [if_neg (by simp [hd])]
      dsimp only
      repeat' split
      all_goals first
        | exact hc
        | exact (subscribe_nextH s n lf sf).trans hc
    · intro x hx
      have hx := h.at_ x hx
      unfold step; rw [if_neg (by simp [hd])]
      dsimp only
      split
      · next hst =>
        have hn : a.wish.sub = none := by
          cases hw : a.wish.sub with
          | none => rfl
          | some m =>
            have := (h.base.some m hw).1
            rw [hst] at this
            split at this <;> cases this
        have hrn := (h.base.none hn).2.2.2.2.2.2.2
        have hrs : s.regs = [] := by
          rcases h.base.regs with ⟨-, e⟩ | ⟨k, y, p, e, -⟩
          · exact e
          · rw [hrn] at e; cases e
        split
        · exact hx.same rfl rfl rfl rfl rfl rfl (fun _ => rfl)
        · have hat := subscribe_at hst hx hrn hrs n lf sf
          split
          · exact hat.same rfl rfl rfl rfl rfl rfl (fun _ => rfl)
          · exact hat
      all_goals
        repeat' split
        all_goals exact hx.same rfl rfl rfl rfl rfl rfl (fun _ => rfl)
  | unsubscribe ih ok =>
    have hstep : step s (.unsubscribe ih ok) = if s.flag = false then s
        else if s.st = .notSubscribed then { s with flag := false }
        else { bindUnsubscribe { s with scope := if ih then s.scope else none } ok with flag := false } := by
      unfold step; rw [if_neg (by simp [hd])]
    refine ⟨hb, ?_, ?_⟩
    · show _ = a.count
      rw [hstep]
      split
      · exact hc
      · split
        · exact hc
        · show (bindUnsubscribe _ ok).nextH = _
          unfold bindUnsubscribe
          split
          · exact hc
          · exact (transition_fields _ _ _).2.1.trans hc
    · intro x hx
      have hn : a.wish.sub = none := by
        cases hw : a.wish.sub with
        | none => rfl
        | some m => simp [Asked.step, hw] at hx
      have hf := (h.base.none hn).2.2.2.2.2.2.1
      rw [hstep, if_pos hf]
      simp only [Asked.step, hn, if_true] at hx
      exact h.at_ x hx
  | setHandler =>
    have hstep : step s .setHandler =
        bindSetHandler { s with scope := some s.nextH, ptr := some s.nextH, nextH := s.nextH + 1 } s.nextH := by
      unfold step; rw [if_neg (by simp [hd])]
    refine ⟨hb, ?_, ?_⟩
    · show _ = a.count + 1
      rw [hstep]
      unfold bindSetHandler
      split
      · rw [(register_same _ _).2.2.2.2.2.2.2.2.2.2.2.2.2]; simp [hc]
      · simp [hc]
    · intro x hx
      simp only [Asked.step, Option.some.injEq] at hx
      have hxn : s.nextH = x := hc.trans hx
      subst hxn
      rw [hstep]
      unfold bindSetHandler
      split
      · next hst =>
        have f := register_same { s with scope := some s.nextH, ptr := some s.nextH, nextH := s.nextH + 1 } s.nextH
        obtain ⟨k, g1, g2⟩ := register_regs (s := { s with scope := some s.nextH, ptr := some s.nextH, nextH := s.nextH + 1 })
          s.nextH h.base.regs
        have hp := register_pid { s with scope := some s.nextH, ptr := some s.nextH, nextH := s.nextH + 1 } s.nextH
        refine ⟨f.2.2.2.2.2.2.2.2.2.2.2.1, f.2.2.2.2.2.2.2.2.2.2.2.2.1, fun _ => ⟨k, ?_⟩, ?_, ?_⟩
        · rw [g2, hp]
        · rw [f.1]; dsimp only at hst ⊢; rw [hst]; simp
        · rw [f.1]; dsimp only at hst ⊢; rw [hst]; simp
      · next hst => exact ⟨rfl, rfl, fun e => absurd e hst, fun _ => .inl rfl, fun _ => rfl⟩
  | unsetHandler ih =>
    refine ⟨hb, ?_, ?_⟩
    · show _ = a.count
      unfold step; rw [if_neg (by simp [hd])]
      dsimp only
      split
      · exact hc
      · unfold bindUnsetHandler
        split
        · rw [(unregister_same _).2.2.2.2.2.2.2.2.2.2.2.2.2]; exact hc
        · exact hc
    · intro x hx; simp [Asked.step] at hx
  | stopOffer =>
    have hstep : step s .stopOffer = stopOffer s := by unfold step; rw [if_neg (by simp [hd])]
    rw [hstep] at hb hd' ⊢
    refine ⟨hb, ?_, ?_⟩
    · show _ = a.count
      unfold stopOffer
      split
      · exact hc
      · exact (transition_fields _ _ _).2.1.trans hc
      · exact hc
    · intro x hx
      have hx := h.at_ x hx
      unfold stopOffer at hd' ⊢
      split
      · exact hx.same rfl rfl rfl rfl rfl rfl (fun _ => rfl)
      · next hst =>
        simp only [transition]
        rw [if_neg (by simp)]
        obtain ⟨k, hk⟩ := hx.sub hst
        refine ⟨hx.ptr, hx.scope, by simp, fun _ => .inr ⟨h.base.pend hst, ?_⟩, by simp⟩
        rcases h.base.regs with ⟨-, e⟩ | ⟨k', y, p, e1, e2⟩
        · rw [hk] at e; cases e
        · rw [e2] at hk; cases hk
          exact ⟨k, _, e1, e2⟩
      · next hst => simp [hst] at hd'
  | reOffer pid =>
    have hstep : step s (.reOffer pid) = reOffer s pid := by unfold step; rw [if_neg (by simp [hd])]
    rw [hstep] at hb ⊢
    refine ⟨hb, ?_, ?_⟩
    · show _ = a.count
      unfold reOffer
      split
      · exact hc
      · exact hc
      · dsimp only
        rw [(transition_fields _ _ _).2.1]
        exact (reregister_same { s with avail := true, pid := pid }).2.2.2.2.2.2.2.2.2.2.2.2.2.trans hc
    · intro x hx
      have hx := h.at_ x hx
      unfold reOffer
      split
      · next hst => exact hx.same rfl rfl rfl rfl rfl rfl (by simp [hst])
      · exact hx
      · next hst =>
        dsimp only
        have f := reregister_same { s with avail := true, pid := pid }
        have fp := reregister_pid { s with avail := true, pid := pid }
        have hreg : ∃ k, (reregister { s with avail := true, pid := pid }).regs = [(k, x, pid)] := by
          rcases hx.pend hst with hp | ⟨hp, k, p, h1, h2⟩
          · unfold reregister
            simp only [hp]
            obtain ⟨k, -, g⟩ := register_regs (s := { s with avail := true, pid := pid, pend := some x }) x h.base.regs
            exact ⟨k, g⟩
          · unfold reregister
            simp only [hp, h1, h2]
            exact ⟨k, by simp⟩
        obtain ⟨k, hk⟩ := hreg
        simp only [transition]
        rw [if_neg (by simp)]
        refine ⟨f.2.2.2.2.2.2.2.2.2.2.2.1.trans hx.ptr, f.2.2.2.2.2.2.2.2.2.2.2.2.1.trans hx.scope, fun _ => ⟨k, ?_⟩, by simp,
          by simp⟩
        show (reregister { s with avail := true, pid := pid }).regs = [(k, x, (reregister { s with avail := true, pid := pid }).pid)]
        rw [hk, fp]

theorem run_hinv {a : Asked} {s : St} (h : HInv a s) (hd : s.dead = false) (ops : List Op)
    (hd' : (run s ops).dead = false) : HInv (ops.foldl Asked.step a) (run s ops) := by
  induction ops generalizing a s with
  | nil => exact h
  | cons op ops ih =>
    cases hm : (step s op).dead with
    | true =>
      have : run s (op :: ops) = step s op := run_dead hm ops
      rw [this, hm] at hd'; cases hd'
    | false => exact ih (step_hinv h hd op hm) hm hd'

theorem init_hinv (pid : Nat) :
    HInv { wish := { sub := none, avail := true }, handler := none, count := 0, provider := pid } (init pid) :=
  ⟨init_inv pid, rfl, fun x hx => by cases hx⟩

theorem asked_wish (pid : Nat) (ops : List Op) : (Asked.run pid ops).wish = Wish.run ops := by
  unfold Asked.run Wish.run
  have : ∀ (a : Asked), (ops.foldl Asked.step a).wish = ops.foldl Wish.step a.wish := by
    induction ops with
    | nil => intro a; rfl
    | cons op ops ih => intro a; rw [List.foldl_cons, List.foldl_cons, ih]; cases op <;> rfl
  exact this _

theorem registerWaiting_fields (s : St) : (registerWaiting s).pid = s.pid ∧ (registerWaiting s).scope = s.scope := by
  unfold registerWaiting
  split
  · split
    · next k _ _ => exact ⟨register_pid s k, (register_same s k).2.2.2.2.2.2.2.2.2.2.2.2.1⟩
    · exact ⟨rfl, rfl⟩
  · exact ⟨rfl, rfl⟩

/-- With alternating availability the state machine knows the current provider. -/
theorem step_pid {a : Asked} {s : St} (h : Inv a.wish s) (hd : s.dead = false) (op : Op) (hp : s.pid = a.provider)
    (halt : Alternating a.wish.avail [op]) : (step s op).pid = (a.step op).provider := by
  have tp : ∀ (t : St) n ok, (transition t n ok).pid = t.pid := by
    intro t n ok
    unfold transition enterNotSubscribed unregister
    dsimp only
    repeat' split
    all_goals rfl
  unfold step; rw [if_neg (by simp [hd])]
  cases op with
  | subscribe n lf sf =>
    show _ = a.provider
    rw [← hp]
    have hs : (bindSubscribe s n lf sf).1.pid = s.pid := by
      unfold bindSubscribe subscribeFresh
      repeat' split
      all_goals first
        | rfl
        | (dsimp only; rw [tp]; exact (registerWaiting_fields _).1)
    dsimp only
    repeat' split
    all_goals first
      | rfl
      | exact hs
  | unsubscribe ih ok =>
    show _ = a.provider
    rw [← hp]
    unfold bindUnsubscribe
    dsimp only
    repeat' split
    all_goals first
      | rfl
      | exact tp _ _ _
  | setHandler =>
    show _ = a.provider
    rw [← hp]
    unfold bindSetHandler
    dsimp only
    split
    · exact register_pid _ _
    · rfl
  | unsetHandler ih =>
    show _ = a.provider
    rw [← hp]
    unfold bindUnsetHandler unregister
    dsimp only
    repeat' split
    all_goals rfl
  | stopOffer =>
    show _ = a.provider
    rw [← hp]
    unfold stopOffer
    dsimp only
    split
    · rfl
    · exact tp _ _ _
    · rfl
  | reOffer p =>
    have hav : a.wish.avail = false := halt.1
    show _ = if a.wish.avail then a.provider else p
    rw [hav]
    unfold reOffer
    dsimp only
    split
    · rfl
    · next hst =>
      exfalso
      cases hw : a.wish.sub with
      | none => have := (h.none hw).1; rw [hst] at this; cases this
      | some m => have := (h.some m hw).1; rw [hst, hav] at this; cases this
    · rw [tp]; exact reregister_pid _

theorem run_pid {a : Asked} {s : St} (h : Inv a.wish s) (hd : s.dead = false) (ops : List Op)
    (hd' : (run s ops).dead = false) (hp : s.pid = a.provider) (halt : Alternating a.wish.avail ops) :
    (run s ops).pid = (ops.foldl Asked.step a).provider := by
  induction ops generalizing a s with
  | nil => exact hp
  | cons op ops ih =>
    cases hm : (step s op).dead with
    | true =>
      have : run s (op :: ops) = step s op := run_dead hm ops
      rw [this, hm] at hd'; cases hd'
    | false =>
      have hw : (a.step op).wish = a.wish.step op := by cases op <;> rfl
      have h1 : Alternating a.wish.avail [op] := by
        cases op <;> simp only [Alternating] at halt ⊢
        · exact ⟨halt.1, trivial⟩
        · exact ⟨halt.1, trivial⟩
      have h2 : Alternating (a.step op).wish.avail ops := by
        rw [hw]
        cases op <;> simp only [Alternating, Wish.step] at halt ⊢
        · split
          · exact halt
          · exact halt
        · exact halt
        · exact halt
        · exact halt
        · exact halt.2
        · exact halt.2
      refine ih ?_ hm hd' (step_pid h hd op hp h1) h2
      rw [hw]; exact step_inv h hd op hm

/-! After an Unsubscribe no older handler is called. -/

/-- No handler older than `N` is in a valid scope. -/
def Expired (N : Nat) (s : St) : Prop := N ≤ s.nextH ∧ ∀ h, s.scope = some h → N ≤ h

theorem step_scope (s : St) (op : Op) : ((step s op).scope = s.scope ∨ (step s op).scope = none ∨
    (step s op).scope = some s.nextH) := by
  have tp : ∀ (t : St) n ok, (transition t n ok).scope = t.scope := by
    intro t n ok
    unfold transition enterNotSubscribed unregister
    dsimp only
    repeat' split
    all_goals rfl
  unfold step
  split
  · exact .inl rfl
  · cases op with
    | subscribe n lf sf =>
      left
      have hs : (bindSubscribe s n lf sf).1.scope = s.scope := by
        unfold bindSubscribe subscribeFresh
        repeat' split
        all_goals first
          | rfl
          | (dsimp only; rw [tp]; exact (registerWaiting_fields _).2)
      dsimp only
      repeat' split
      all_goals first
        | rfl
        | exact hs
    | unsubscribe ih ok =>
      have hb : (bindUnsubscribe { s with scope := if ih then s.scope else none } ok).scope = if ih then s.scope else none := by
        unfold bindUnsubscribe
        split
        · rfl
        · rw [tp]
      dsimp only
      split
      · exact .inl rfl
      · split
        · exact .inl rfl
        · cases ih
          · exact .inr (.inl hb)
          · exact .inl hb
    | setHandler =>
      right; right
      unfold bindSetHandler
      dsimp only
      split
      · exact (register_same _ _).2.2.2.2.2.2.2.2.2.2.2.2.1
      · rfl
    | unsetHandler ih =>
      unfold bindUnsetHandler unregister
      dsimp only
      cases ih
      · repeat' split
        all_goals first
          | exact .inl rfl
          | exact .inr (.inl rfl)
      · simp only [if_true]
        repeat' split
        all_goals exact .inl rfl
    | stopOffer =>
      left
      unfold stopOffer
      dsimp only
      split
      · rfl
      · exact tp _ _ _
      · rfl
    | reOffer p =>
      left
      unfold reOffer
      dsimp only
      split
      · rfl
      · rfl
      · rw [tp]; exact (reregister_same _).2.2.2.2.2.2.2.2.2.2.2.2.1

theorem scope_unsubscribe (s : St) (ok : Bool) (hd : s.dead = false) (hf : s.flag = true) (hne : s.st ≠ .notSubscribed) :
    (step s (.unsubscribe false ok)).scope = none := by
  unfold step
  rw [if_neg (by simp [hd])]
  dsimp only
  rw [if_neg (by simp [hf]), if_neg hne]
  unfold bindUnsubscribe
  split
  · rename_i e; exact absurd e hne
  · unfold transition enterNotSubscribed unregister
    simp only [Bool.false_eq_true, if_false]
    repeat' split
    all_goals rfl

theorem step_expired {N : Nat} {s : St} (h : Expired N s) (op : Op) : Expired N (step s op) := by
  have hn : s.nextH ≤ (step s op).nextH := by
    rcases step_handlers s op with ⟨e, -⟩ | ⟨e, -⟩ <;> omega
  refine ⟨Nat.le_trans h.1 hn, ?_⟩
  intro x hx
  rcases step_scope s op with e | e | e
  · exact h.2 x (e.symm.trans hx)
  · rw [e] at hx; cases hx
  · rw [e] at hx; cases hx; exact h.1

theorem run_expired {N : Nat} {s : St} (h : Expired N s) (ops : List Op) : Expired N (run s ops) := by
  induction ops generalizing s with
  | nil => exact h
  | cons op ops ih => exact ih (step_expired h op)

end Verif.Ssm
