import Verif.Spec.Ssm
/-! Invariants of the proxy event. -/
namespace Verif.Ssm

structure Inv (w : Wish) (s : St) : Prop where
  avail : s.avail = w.avail
  none : w.sub = none → s.st = .notSubscribed ∧ s.logs = 0 ∧ s.subs = 0 ∧ s.slots = 0 ∧ s.max = .none ∧ s.guard = false ∧
    s.flag = false ∧ s.regNo = .none
  some : ∀ n, w.sub = some n → s.st = (if w.avail then .subscribed else .pending) ∧ s.logs = 1 ∧ s.subs = 1 ∧
    s.slots = n ∧ s.max = .some n ∧ s.guard = true ∧ s.flag = true ∧ n ≤ 255
  regs : (s.regNo = .none ∧ s.regs = []) ∨ ∃ k h p, s.regNo = .some k ∧ s.regs = [(k, h, p)]
  pend : s.st = .subscribed → s.pend = .none
  trans : s.trans.head?.getD .notSubscribed = s.st

theorem init_inv (pid : Nat) : Inv { sub := none, avail := true } (init pid) := by
  constructor <;> simp [init]

theorem unregister_regs {s : St} (h : (s.regNo = none ∧ s.regs = []) ∨ ∃ k h p, s.regNo = some k ∧ s.regs = [(k, h, p)]) :
    (unregister s).regNo = none ∧ (unregister s).regs = [] := by
  rcases h with ⟨h1, h2⟩ | ⟨k, x, p, h1, h2⟩
  · simp [unregister, h1, h2]
  · simp [unregister, h1, h2]

theorem register_regs {s : St} (x : Nat) (h : (s.regNo = none ∧ s.regs = []) ∨ ∃ k h p, s.regNo = some k ∧ s.regs = [(k, h, p)]) :
    ∃ k, (register s x).regNo = some k ∧ (register s x).regs = [(k, x, s.pid)] := by
  have := unregister_regs h
  have hp : (unregister s).pid = s.pid := by unfold unregister; split <;> rfl
  exact ⟨_, rfl, by simp [register, this.2, hp]⟩

/-- Fields that registration does not touch. -/
def Same (s t : St) : Prop :=
  t.st = s.st ∧ t.avail = s.avail ∧ t.max = s.max ∧ t.guard = s.guard ∧ t.logs = s.logs ∧ t.subs = s.subs ∧
    t.slots = s.slots ∧ t.flag = s.flag ∧ t.trans = s.trans ∧ t.dead = s.dead ∧ t.pend = s.pend ∧ t.ptr = s.ptr ∧
    t.scope = s.scope ∧ t.nextH = s.nextH

theorem unregister_same (s : St) : Same s (unregister s) := by
  unfold unregister Same; split <;> simp

theorem register_same (s : St) (h : Nat) : Same s (register s h) := by
  have := unregister_same s
  unfold register Same at *; simpa using this

theorem reregister_same (s : St) : Same s (reregister s) := by
  unfold reregister
  split
  · exact register_same s _
  · split
    · simp [Same]
    · simp [Same]

theorem reregister_regs {s : St}
    (h : (s.regNo = none ∧ s.regs = []) ∨ ∃ k h p, s.regNo = some k ∧ s.regs = [(k, h, p)]) :
    ((reregister s).regNo = none ∧ (reregister s).regs = []) ∨
      ∃ k h p, (reregister s).regNo = some k ∧ (reregister s).regs = [(k, h, p)] := by
  unfold reregister
  split
  · obtain ⟨k, h1, h2⟩ := register_regs _ h; exact .inr ⟨k, _, _, h1, h2⟩
  · split
    · rename_i k hk
      rcases h with ⟨h1, h2⟩ | ⟨k', x, p, h1, h2⟩
      · rw [h1] at hk; cases hk
      · rw [h1] at hk; cases hk
        exact .inr ⟨k, x, s.pid, h1, by simp [h2]⟩
    · exact h

theorem step_inv {w : Wish} {s : St} (h : Inv w s) (hd : s.dead = false) (op : Op) (hd' : (step s op).dead = false) :
    Inv (w.step op) (step s op) := by
  unfold step at hd' ⊢
  rw [if_neg (by simp [hd])] at hd' ⊢
  cases op with
  | subscribe n lf sf =>
    simp only [Wish.step] at *
    cases hw : w.sub with
    | none =>
      obtain ⟨h1, h2, h3, h4, h5, h6, h7, h8⟩ := h.none hw
      have hr : s.regs = [] := by rcases h.regs with ⟨-, e⟩ | ⟨k, x, p, e, -⟩; exact e; rw [h8] at e; cases e
      simp only [h1] at hd' ⊢
      split at hd'
      · simp at hd'
      · rename_i hn
        rw [if_neg hn]
        simp only [bindSubscribe, h1, subscribeFresh, registerWaiting]
        by_cases hlf : lf = true
        · by_cases hsf : sf = true
          · subst hlf hsf
            simp only [Bool.true_eq_false, if_false, true_and, and_self, if_true]
            have hav := h.avail
            have hreg : ∀ x, (unregister x).regs = x.regs ∨ True := fun _ => .inr trivial
            cases hp : s.pend with
            | none =>
              simp only [transition]
              cases hwa : w.avail <;> rw [hwa] at hav
              · constructor <;> simp [hav, h2, h3, h4, h8, hr, hp, hwa]; omega
              · constructor <;> simp [hav, h2, h3, h4, h8, hr, hp, hwa]; omega
            | some x =>
              simp only [transition]
              cases hwa : w.avail <;> rw [hwa] at hav
              · simp only [hav]
                constructor <;> simp [hav, h2, h3, h4, h8, hr, hp, hwa]; omega
              · simp only [hav, if_true, register, unregister, h8]
                constructor <;> simp [hav, h2, h3, h4, h8, hr, hp, hwa]; omega
          · simp only [hlf, hsf]
            simp
            exact h
        · simp only [hlf]
          simp
          exact h
    | some m =>
      obtain ⟨h1, h2, h3, h4, h5, h6, h7, h8⟩ := h.some m hw
      rw [if_neg (by simp)]
      cases hwa : w.avail
      · simp only [hwa, Bool.false_eq_true, if_false] at h1
        have hs : ({ s with st := .pending, max := .some m, flag := true } : St) = s := by cases s; simp_all
        simp only [h1, h5]
        split
        · rw [hs]; exact h
        · exact h
      · simp only [hwa, if_true] at h1
        have hs : ({ s with st := .subscribed, max := .some m, flag := true } : St) = s := by cases s; simp_all
        simp only [h1, h5] at hd' ⊢
        split
        · rename_i h0; simp [h0] at hd'
        · split
          · rw [hs]; exact h
          · exact h
  | unsubscribe ih ok =>
    simp only [Wish.step] at *
    cases hw : w.sub with
    | none =>
      obtain ⟨h1, h2, h3, h4, h5, h6, h7, h8⟩ := h.none hw
      rw [if_pos h7]
      have : ({ w with sub := none } : Wish) = w := by rw [← hw]
      rw [this]; exact h
    | some m =>
      obtain ⟨h1, h2, h3, h4, h5, h6, h7, h8⟩ := h.some m hw
      have hst : s.st ≠ .notSubscribed := by rw [h1]; split <;> simp
      rw [if_neg (by simp [h7]), if_neg hst] at hd' ⊢
      have hu := unregister_regs h.regs
      have hrn := hu.1
      have e : bindUnsubscribe { s with scope := if ih then s.scope else none } ok =
          transition { s with scope := if ih then s.scope else none } .notSubscribed ok := by
        unfold bindUnsubscribe
        split
        · rename_i e; exact absurd e hst
        · rfl
      rw [e] at hd' ⊢
      cases ok with
      | false => simp [transition, enterNotSubscribed, h6, h5] at hd'
      | true =>
        have hun : ∀ t : St, t.regNo = s.regNo → t.regs = s.regs →
            (unregister t).regs = [] ∧ (unregister t).regNo = none := by
          intro t e1 e2
          have := unregister_regs (s := t) (by rw [e1, e2]; exact h.regs)
          exact ⟨this.2, this.1⟩
        simp only [transition, if_true, enterNotSubscribed, h6, Bool.true_eq_false, if_false, h5, h3, h4, false_or,
          show ¬ ((1 : Nat) = 0) by omega, show ¬ (m < m) by omega, Nat.sub_self, reduceCtorEq] at hd' ⊢
        generalize hq : ({ s with st := .notSubscribed, max := .some m, guard := true, scope := if ih then s.scope else none, subs := 0, slots := 0 } : St) = q at hd' ⊢
        have hun := hun q (by rw [← hq]) (by rw [← hq])
        have hsm := unregister_same q
        unfold Same at hsm
        obtain ⟨f1, f2, f3, f4, f5, f6, f7, f8, f9, f10, f11, f12, f13, f14⟩ := hsm
        have g : (unregister q).logs = 1 := by rw [f5, ← hq]; exact h2
        rw [if_neg (by omega)]
        constructor
        · show (unregister q).avail = _; rw [f2, ← hq]; exact h.avail
        · intro _
          refine ⟨?_, ?_, ?_, ?_, rfl, rfl, rfl, ?_⟩
          · show (unregister q).st = _; rw [f1, ← hq]
          · show (unregister q).logs - 1 = 0; omega
          · show (unregister q).subs = 0; rw [f6, ← hq]
          · show (unregister q).slots = 0; rw [f7, ← hq]
          · show (unregister q).regNo = none; exact hun.2
        · intro n hn; cases hn
        · exact .inl ⟨hun.2, hun.1⟩
        · show (unregister q).st = _ → _; rw [f1, ← hq]; intro e; cases e
        · show (List.head? (State.notSubscribed :: (unregister q).trans)).getD _ = (unregister q).st
          rw [f1, ← hq]; rfl
  | setHandler =>
    simp only [Wish.step, bindSetHandler] at *
    split
    · rename_i hst
      have hsm := register_same { s with scope := some s.nextH, ptr := some s.nextH, nextH := s.nextH + 1 } s.nextH
      unfold Same at hsm
      obtain ⟨f1, f2, f3, f4, f5, f6, f7, f8, f9, f10, f11, f12, f13, f14⟩ := hsm
      obtain ⟨k, r1, r2⟩ := register_regs (s := { s with scope := some s.nextH, ptr := some s.nextH, nextH := s.nextH + 1 })
        s.nextH h.regs
      constructor
      · rw [f2]; exact h.avail
      · intro hw; have := (h.none hw).1; rw [hst] at this; cases this
      · rw [f1, f3, f4, f5, f6, f7, f8]; exact h.some
      · exact .inr ⟨k, _, _, r1, r2⟩
      · rw [f1, f11]; exact h.pend
      · rw [f9, f1]; exact h.trans
    · rename_i hst
      exact ⟨h.avail, h.none, h.some, h.regs, fun e => absurd e hst, h.trans⟩
  | unsetHandler ih =>
    simp only [Wish.step] at *
    split
    · exact h
    · rename_i x hx
      unfold bindUnsetHandler
      split
      · rename_i hst
        have hsm := unregister_same { s with scope := if ih then s.scope else none, ptr := none }
        unfold Same at hsm
        obtain ⟨f1, f2, f3, f4, f5, f6, f7, f8, f9, f10, f11, f12, f13, f14⟩ := hsm
        have hu := unregister_regs (s := { s with scope := if ih then s.scope else none, ptr := none }) h.regs
        constructor
        · rw [f2]; exact h.avail
        · intro hw; have := (h.none hw).1; rw [show s.st = _ from hst] at this; cases this
        · rw [f1, f3, f4, f5, f6, f7, f8]; exact h.some
        · exact .inl hu
        · rw [f1, f11]; exact h.pend
        · rw [f9, f1]; exact h.trans
      · rename_i hst
        exact ⟨h.avail, h.none, h.some, h.regs, fun e => absurd e hst, h.trans⟩
  | stopOffer =>
    simp only [Wish.step, stopOffer] at *
    cases hw : w.sub with
    | none =>
      obtain ⟨h1, h2, h3, h4, h5, h6, h7, h8⟩ := h.none hw
      simp only [h1]
      exact ⟨rfl, fun _ => ⟨rfl, h2, h3, h4, h5, h6, h7, h8⟩, by simp [hw], h.regs, by simp, h.trans.trans h1⟩
    | some m =>
      obtain ⟨h1, h2, h3, h4, h5, h6, h7, h8⟩ := h.some m hw
      cases hwa : w.avail
      · simp only [hwa, Bool.false_eq_true, if_false] at h1
        simp [h1] at hd'
      · simp only [hwa, if_true] at h1
        simp only [h1, transition]
        rw [if_neg (by simp)]
        refine ⟨rfl, by simp, ?_, h.regs, by simp, rfl⟩
        intro n hn; cases hn
        exact ⟨rfl, h2, h3, h4, h5, h6, h7, h8⟩
  | reOffer pid =>
    simp only [Wish.step, reOffer] at *
    cases hw : w.sub with
    | none =>
      obtain ⟨h1, h2, h3, h4, h5, h6, h7, h8⟩ := h.none hw
      simp only [h1]
      exact ⟨rfl, fun _ => ⟨rfl, h2, h3, h4, h5, h6, h7, h8⟩, by simp [hw], h.regs, by simp, h.trans.trans h1⟩
    | some m =>
      obtain ⟨h1, h2, h3, h4, h5, h6, h7, h8⟩ := h.some m hw
      cases hwa : w.avail
      · simp only [hwa, Bool.false_eq_true, if_false] at h1
        simp only [h1, transition]
        rw [if_neg (by simp)]
        have hsm := reregister_same { s with st := .pending, avail := true, pid := pid }
        unfold Same at hsm
        obtain ⟨f1, f2, f3, f4, f5, f6, f7, f8, f9, f10, f11, f12, f13, f14⟩ := hsm
        have hr := reregister_regs (s := { s with st := .pending, avail := true, pid := pid }) h.regs
        refine ⟨f2, by simp, ?_, hr, by simp, rfl⟩
        intro n hn; cases hn
        exact ⟨rfl, f5.trans h2, f6.trans h3, f7.trans h4, f3.trans h5, f4.trans h6, f8.trans h7, h8⟩
      · simp only [hwa, if_true] at h1
        simp only [h1]
        exact ⟨h.avail.trans hwa, by simp, fun n hn => by cases hn; exact ⟨h1, h2, h3, h4, h5, h6, h7, h8⟩,
          h.regs, h.pend, h.trans⟩

theorem dead_stays {s : St} (h : s.dead = true) (op : Op) : step s op = s := by
  unfold step; rw [if_pos h]

theorem run_dead {s : St} (h : s.dead = true) (ops : List Op) : run s ops = s := by
  induction ops with
  | nil => rfl
  | cons op ops ih => simp only [run, List.foldl_cons, dead_stays h] at *; exact ih

theorem run_inv {w : Wish} {s : St} (h : Inv w s) (hd : s.dead = false) (ops : List Op)
    (hd' : (run s ops).dead = false) : Inv (ops.foldl Wish.step w) (run s ops) := by
  induction ops generalizing w s with
  | nil => exact h
  | cons op ops ih =>
    cases hm : (step s op).dead with
    | true =>
      have : run s (op :: ops) = step s op := run_dead hm ops
      rw [this, hm] at hd'; cases hd'
    | false => exact ih (step_inv h hd op hm) hm hd'

/-! Handlers below `N` are gone. -/

/-- No handler older than `N` is callable. -/
def Fresh (N : Nat) (s : St) : Prop := N ≤ s.nextH ∧ ∀ h, s.ptr = some h → N ≤ h

/-- No handler older than `N` is registered or waiting. -/
def Clean (N : Nat) (s : St) : Prop :=
  N ≤ s.nextH ∧ (∀ r ∈ s.regs, N ≤ r.2.1) ∧ ∀ h, s.pend = some h → N ≤ h

theorem unregister_mem (s : St) : ∀ r ∈ (unregister s).regs, r ∈ s.regs := by
  unfold unregister; split
  · intro r hr; exact (List.mem_filter.mp hr).1
  · exact fun _ h => h

theorem register_mem (s : St) (x : Nat) : ∀ r ∈ (register s x).regs, r.2.1 = x ∨ r ∈ s.regs := by
  intro r hr
  simp only [register, List.mem_cons] at hr
  rcases hr with rfl | hr
  · exact .inl rfl
  · exact .inr (unregister_mem s r hr)

theorem reregister_mem (s : St) : ∀ r ∈ (reregister s).regs, s.pend = some r.2.1 ∨ ∃ q ∈ s.regs, q.2.1 = r.2.1 := by
  intro r hr
  unfold reregister at hr
  split at hr
  · rename_i h hp
    rcases register_mem s h r hr with e | e
    · left; rw [e]; exact hp
    · exact .inr ⟨r, e, rfl⟩
  · split at hr
    · rename_i k hk
      obtain ⟨q, hq, rfl⟩ := List.mem_map.mp hr
      refine .inr ⟨q, hq, ?_⟩
      split <;> rfl
    · exact .inr ⟨r, hr, rfl⟩

theorem enter_fields (s : St) (ok : Bool) : (enterNotSubscribed s ok).ptr = s.ptr ∧
    (enterNotSubscribed s ok).nextH = s.nextH ∧ (enterNotSubscribed s ok).pend = s.pend ∧
    ∀ r ∈ (enterNotSubscribed s ok).regs, r ∈ s.regs := by
  unfold enterNotSubscribed
  split
  · exact ⟨rfl, rfl, rfl, fun _ h => h⟩
  · split
    · exact ⟨rfl, rfl, rfl, fun _ h => h⟩
    · rename_i n hn
      split
      · exact ⟨rfl, rfl, rfl, fun _ h => h⟩
      · dsimp only
        have f := unregister_same { s with subs := s.subs - 1, slots := s.slots - n }
        have g := unregister_mem { s with subs := s.subs - 1, slots := s.slots - n }
        unfold Same at f
        split
        · exact ⟨f.2.2.2.2.2.2.2.2.2.2.2.1, f.2.2.2.2.2.2.2.2.2.2.2.2.2, f.2.2.2.2.2.2.2.2.2.2.1, g⟩
        · exact ⟨f.2.2.2.2.2.2.2.2.2.2.2.1, f.2.2.2.2.2.2.2.2.2.2.2.2.2, f.2.2.2.2.2.2.2.2.2.2.1, g⟩

theorem transition_fields (s : St) (new : State) (ok : Bool) : (transition s new ok).ptr = s.ptr ∧
    (transition s new ok).nextH = s.nextH ∧ (transition s new ok).pend = s.pend ∧
    ∀ r ∈ (transition s new ok).regs, r ∈ s.regs := by
  unfold transition
  dsimp only
  split
  · exact enter_fields { s with st := new } ok
  · exact ⟨rfl, rfl, rfl, fun _ h => h⟩

/-- No new handler, and only handlers that were waiting or registered before. -/
def HS (s t : St) : Prop :=
  t.nextH = s.nextH ∧ (t.ptr = s.ptr ∨ t.ptr = none) ∧
    (∀ r ∈ t.regs, s.pend = some r.2.1 ∨ ∃ q ∈ s.regs, q.2.1 = r.2.1) ∧ (t.pend = s.pend ∨ t.pend = none)

theorem HS.triv {s t : St} (h1 : t.nextH = s.nextH) (h2 : t.ptr = s.ptr) (h3 : ∀ r ∈ t.regs, r ∈ s.regs)
    (h4 : t.pend = s.pend) : HS s t :=
  ⟨h1, .inl h2, fun r hr => .inr ⟨r, h3 r hr, rfl⟩, .inl h4⟩

theorem registerWaiting_hs (s : St) : HS s (registerWaiting s) := by
  unfold registerWaiting
  split
  · rename_i x hp
    split
    · have f := register_same s x
      have g := register_mem s x
      unfold Same at f
      refine ⟨f.2.2.2.2.2.2.2.2.2.2.2.2.2, .inl f.2.2.2.2.2.2.2.2.2.2.2.1, ?_, .inr rfl⟩
      intro r hr
      rcases g r hr with e | e
      · left; rw [e]; exact hp
      · exact .inr ⟨r, e, rfl⟩
    · exact .triv rfl rfl (fun _ h => h) rfl
  · exact .triv rfl rfl (fun _ h => h) rfl

theorem subscribeFresh_hs (s : St) (n : Nat) (lf sf : Bool) : HS s (subscribeFresh s n lf sf).1 := by
  unfold subscribeFresh
  split
  · exact .triv rfl rfl (fun _ h => h) rfl
  · split
    · exact .triv rfl rfl (fun _ h => h) rfl
    · dsimp only
      obtain ⟨w1, w2, w3, w4⟩ := registerWaiting_hs { s with guard := true, logs := s.logs + 1, subs := s.subs + 1, slots := s.slots + n }
      generalize registerWaiting { s with guard := true, logs := s.logs + 1, subs := s.subs + 1, slots := s.slots + n } = q at w1 w2 w3 w4 ⊢
      obtain ⟨t1, t2, t3, t4⟩ := transition_fields { q with max := some n } (if q.avail then .subscribed else .pending) true
      refine ⟨t2.trans w1, ?_, fun r hr => w3 r (t4 r hr), ?_⟩
      · rw [t1]; exact w2
      · rw [t3]; exact w4

theorem transition_hs (s : St) (new : State) (ok : Bool) : HS s (transition s new ok) := by
  obtain ⟨t1, t2, t3, t4⟩ := transition_fields s new ok
  exact .triv t2 t1 t4 t3

/-- What one step may do to handlers: a new one is created, or the registered ones were waiting or registered before. -/
theorem step_handlers (s : St) (op : Op) :
    HS s (step s op) ∨
    ((step s op).nextH = s.nextH + 1 ∧ (step s op).ptr = some s.nextH ∧
      (∀ r ∈ (step s op).regs, r.2.1 = s.nextH ∨ r ∈ s.regs) ∧
      ((step s op).pend = s.pend ∨ (step s op).pend = some s.nextH)) := by
  unfold step
  split
  · exact .inl (.triv rfl rfl (fun _ h => h) rfl)
  · cases op with
    | subscribe n lf sf =>
      left
      dsimp only
      split
      · rename_i hst
        split
        · exact .triv rfl rfl (fun _ h => h) rfl
        · have e : bindSubscribe s n lf sf = subscribeFresh s n lf sf := by
            unfold bindSubscribe; split
            · rfl
            · rename_i e; rw [e] at hst; cases hst
            · rename_i e; rw [e] at hst; cases hst
          rw [e]
          have := subscribeFresh_hs s n lf sf
          split
          · exact this
          · exact this
      · repeat' split
        all_goals exact .triv rfl rfl (fun _ h => h) rfl
      · repeat' split
        all_goals exact .triv rfl rfl (fun _ h => h) rfl
    | unsubscribe ih ok =>
      left
      dsimp only
      split
      · exact .triv rfl rfl (fun _ h => h) rfl
      · split
        · exact .triv rfl rfl (fun _ h => h) rfl
        · unfold bindUnsubscribe
          split
          · exact .triv rfl rfl (fun _ h => h) rfl
          · exact transition_hs { s with scope := if ih then s.scope else none } .notSubscribed ok
    | setHandler =>
      right
      simp only [bindSetHandler]
      split
      · have f := register_same { s with scope := some s.nextH, ptr := some s.nextH, nextH := s.nextH + 1 } s.nextH
        have g := register_mem { s with scope := some s.nextH, ptr := some s.nextH, nextH := s.nextH + 1 } s.nextH
        unfold Same at f
        exact ⟨f.2.2.2.2.2.2.2.2.2.2.2.2.2, f.2.2.2.2.2.2.2.2.2.2.2.1, g, .inl f.2.2.2.2.2.2.2.2.2.2.1⟩
      · exact ⟨rfl, rfl, fun r h => .inr h, .inr rfl⟩
    | unsetHandler ih =>
      left
      dsimp only
      split
      · exact .triv rfl rfl (fun _ h => h) rfl
      · unfold bindUnsetHandler
        split
        · have f := unregister_same { s with scope := if ih then s.scope else none, ptr := none }
          have g := unregister_mem { s with scope := if ih then s.scope else none, ptr := none }
          unfold Same at f
          exact ⟨f.2.2.2.2.2.2.2.2.2.2.2.2.2, .inr f.2.2.2.2.2.2.2.2.2.2.2.1, fun r hr => .inr ⟨r, g r hr, rfl⟩,
            .inl f.2.2.2.2.2.2.2.2.2.2.1⟩
        · exact ⟨rfl, .inr rfl, fun r hr => .inr ⟨r, hr, rfl⟩, .inr rfl⟩
    | stopOffer =>
      left
      dsimp only
      unfold stopOffer
      split
      · exact .triv rfl rfl (fun _ h => h) rfl
      · exact transition_hs { s with avail := false } .pending true
      · exact .triv rfl rfl (fun _ h => h) rfl
    | reOffer pid =>
      left
      dsimp only
      unfold reOffer
      split
      · exact .triv rfl rfl (fun _ h => h) rfl
      · exact .triv rfl rfl (fun _ h => h) rfl
      · have f := reregister_same { s with avail := true, pid := pid }
        have g := reregister_mem { s with avail := true, pid := pid }
        unfold Same at f
        dsimp only
        generalize reregister { s with avail := true, pid := pid } = q at f g ⊢
        obtain ⟨t1, t2, t3, t4⟩ := transition_fields { q with pend := none } .subscribed true
        exact ⟨t2.trans f.2.2.2.2.2.2.2.2.2.2.2.2.2, .inl (t1.trans f.2.2.2.2.2.2.2.2.2.2.2.1),
          fun r hr => g r (t4 r hr), .inr t3⟩

theorem step_fresh {N : Nat} {s : St} (h : Fresh N s) (op : Op) : Fresh N (step s op) := by
  rcases step_handlers s op with ⟨h1, h2, -, -⟩ | ⟨h1, h2, -, -⟩
  · refine ⟨by rw [h1]; exact h.1, ?_⟩
    intro x hx
    rcases h2 with e | e
    · rw [e] at hx; exact h.2 x hx
    · rw [e] at hx; cases hx
  · refine ⟨by rw [h1]; have := h.1; omega, ?_⟩
    intro x hx
    rw [h2] at hx; cases hx; exact h.1

theorem step_clean {N : Nat} {s : St} (h : Clean N s) (op : Op) : Clean N (step s op) := by
  obtain ⟨c1, c2, c3⟩ := h
  rcases step_handlers s op with ⟨h1, -, h3, h4⟩ | ⟨h1, -, h3, h4⟩
  · refine ⟨by rw [h1]; exact c1, ?_, ?_⟩
    · intro r hr
      rcases h3 r hr with e | ⟨q, hq, e⟩
      · exact c3 _ e
      · rw [← e]; exact c2 q hq
    · intro x hx
      rcases h4 with e | e
      · rw [e] at hx; exact c3 x hx
      · rw [e] at hx; cases hx
  · refine ⟨by rw [h1]; omega, ?_, ?_⟩
    · intro r hr
      rcases h3 r hr with e | e
      · rw [e]; exact c1
      · exact c2 r e
    · intro x hx
      rcases h4 with e | e
      · rw [e] at hx; exact c3 x hx
      · rw [e] at hx; cases hx; exact c1

theorem run_fresh {N : Nat} {s : St} (h : Fresh N s) (ops : List Op) : Fresh N (run s ops) := by
  induction ops generalizing s with
  | nil => exact h
  | cons op ops ih => exact ih (step_fresh h op)

theorem run_clean {N : Nat} {s : St} (h : Clean N s) (ops : List Op) : Clean N (run s ops) := by
  induction ops generalizing s with
  | nil => exact h
  | cons op ops ih => exact ih (step_clean h op)

end Verif.Ssm
