import Verif.Proofs.Client
import Verif.Spec.Client
/-! Invariants of the client connection model for executions in which no send call is in progress when the connection is
torn down, and the server replies only to requests. -/
namespace Verif.Client

def inFlight (id : Nat) (u : U) : Bool := decide (u = .sending id) || decide (u = .sent id false)

def contOk : Cont → Prop
  | none => True
  | some (cb, res) => ∃ q, cb = some q ∧ res = .reply q

/-- No SendWaitReply is transmitting. -/
def NF (uth : Nat → U) (T : Nat) : Prop := ∀ t < T, ∀ id, inFlight id (uth t) = false
/-- The waiting callback while the engine's thread is not in the send queue. -/
def waitOk (w : Option (Option Nat)) (queue : List Item) (armed : Bool) (out : List Nat) (uth : Nat → U) (T : Nat) : Prop :=
  match w with
  | none => queue = [] ∧ armed = false ∧ out = [] ∧ NF uth T
  | some none => queue ≠ [] ∧ armed = true ∧ out = [] ∧ NF uth T
  | some (some r) => armed = false ∧
      ((out = [r] ∧ NF uth T) ∨
       (out = [] ∧ ∃ t < T, inFlight r (uth t) = true ∧ ∀ t' < T, ∀ id, inFlight id (uth t') = true → t' = t ∧ id = r))

/-- Relation between the engine's thread, the waiting callback, the queue, the asynchronous command and the wire. -/
def engOk (s : St) (T : Nat) : Prop :=
  match s.eng with
  | .xmit m c => contOk c ∧ s.waiting = some (if m.req then some m.id else none) ∧ s.armed = false ∧ s.out = [] ∧
      NF s.uth T
  | .fin m ok c => contOk c ∧ s.waiting = some (if m.req then some m.id else none) ∧ s.armed = false ∧
      s.out = (if m.req = true ∧ ok = true then [m.id] else []) ∧ NF s.uth T
  | .err cb c => contOk c ∧ s.waiting = some none ∧ s.armed = false ∧ s.out = [] ∧ cb.isSome = true ∧ NF s.uth T
  | .errDone c => contOk c ∧ s.waiting = some none ∧ s.armed = false ∧ s.out = [] ∧ NF s.uth T
  | .take => s.armed = false ∧ s.out = [] ∧ s.conn = .stopping ∧ AllQuiet s.uth T
  | .stopCall _ => s.armed = false ∧ s.out = [] ∧ s.waiting = none ∧ s.conn = .stopping ∧ AllQuiet s.uth T
  | .drain => s.armed = false ∧ s.out = [] ∧ s.waiting = none ∧ s.conn = .stopping ∧ AllQuiet s.uth T
  | .deliver cb res => contOk (some (cb, res)) ∧ waitOk s.waiting s.queue s.armed s.out s.uth T
  | .idle => waitOk s.waiting s.queue s.armed s.out s.uth T

structure K (T : Nat) (s : St) : Prop where
  alive : s.dead = false
  eng : engOk s T
  rest : s.conn = .stopped ∨ s.conn = .starting → s.eng = .idle ∧ s.waiting = none ∧ AllQuiet s.uth T

theorem quiet_NF {uth : Nat → U} {T : Nat} (h : AllQuiet uth T) : NF uth T := by
  intro t ht id
  have := h t ht
  unfold inFlight
  revert this
  cases uth t with
  | sent i b => cases b <;> simp [quiet]
  | _ => simp [quiet]

theorem NF_upd {uth : Nat → U} {T t : Nat} {u : U} (h : NF uth T) (hu : ∀ id, inFlight id u = false) : NF (upd uth t u) T := by
  intro t' ht' id
  simp only [upd]; split
  · exact hu id
  · exact h t' ht' id

theorem AllQuiet_upd {uth : Nat → U} {T t : Nat} {u : U} (h : AllQuiet uth T) (hu : quiet u = true) : AllQuiet (upd uth t u) T := by
  intro t' ht'
  simp only [upd]; split
  · exact hu
  · exact h t' ht'

theorem waitOk_upd {w : Option (Option Nat)} {queue : List Item} {armed : Bool} {out : List Nat} {uth : Nat → U} {T t : Nat}
    {u : U} (h : waitOk w queue armed out uth T) (h1 : ∀ id, inFlight id (uth t) = false) (hu : ∀ id, inFlight id u = false) :
    waitOk w queue armed out (upd uth t u) T := by
  unfold waitOk at *
  split at h
  · exact ⟨h.1, h.2.1, h.2.2.1, NF_upd h.2.2.2 hu⟩
  · exact ⟨h.1, h.2.1, h.2.2.1, NF_upd h.2.2.2 hu⟩
  · refine ⟨h.1, ?_⟩
    rcases h.2 with ⟨ha, hb⟩ | ⟨ha, t0, ht0, hb, hc⟩
    · exact .inl ⟨ha, NF_upd hb hu⟩
    · refine .inr ⟨ha, t0, ht0, ?_, ?_⟩
      · have : t0 ≠ t := by rintro rfl; rw [h1] at hb; cases hb
        rw [upd_ne _ _ this]; exact hb
      · intro t' ht' id hi
        simp only [upd] at hi; split at hi
        · rw [hu] at hi; cases hi
        · exact hc t' ht' id hi

theorem waitOk_queue {w : Option (Option Nat)} {queue queue' : List Item} {armed : Bool} {out : List Nat} {uth : Nat → U} {T : Nat}
    (h : waitOk w queue armed out uth T) (hw : w.isSome = true) (hq : queue' ≠ []) :
    waitOk w queue' armed out uth T := by
  unfold waitOk at *
  cases w with
  | none => cases hw
  | some w =>
    cases w with
    | none => exact ⟨hq, h.2⟩
    | some r => exact h

/-- A step of a user thread that changes nothing else but the queue. -/
theorem engOk_user {s s' : St} {T t : Nat} {u : U} (h : engOk s T) (e1 : s'.eng = s.eng) (e2 : s'.waiting = s.waiting)
    (e3 : s'.armed = s.armed) (e4 : s'.out = s.out) (e5 : s'.conn = s.conn) (e6 : s'.uth = upd s.uth t u)
    (h1 : ∀ id, inFlight id (s.uth t) = false) (hu : ∀ id, inFlight id u = false) (hq : quiet u = true)
    (h2 : s'.queue = s.queue ∨ (s.waiting.isSome = true ∧ s'.queue ≠ [])) : engOk s' T := by
  have hw : waitOk s.waiting s.queue s.armed s.out s.uth T → waitOk s.waiting s'.queue s.armed s.out (upd s.uth t u) T := by
    intro h
    rcases h2 with h2 | h2
    · rw [h2]; exact waitOk_upd h h1 hu
    · exact waitOk_queue (waitOk_upd h h1 hu) h2.1 h2.2
  unfold engOk at *
  rw [e1, e2, e3, e4, e5, e6]
  cases he : s.eng <;> rw [he] at h <;> dsimp only at h ⊢
  · exact hw h
  · exact ⟨h.1, h.2.1, h.2.2.1, h.2.2.2.1, NF_upd h.2.2.2.2 hu⟩
  · exact ⟨h.1, h.2.1, h.2.2.1, h.2.2.2.1, NF_upd h.2.2.2.2 hu⟩
  · exact ⟨h.1, h.2.1, h.2.2.1, h.2.2.2.1, h.2.2.2.2.1, NF_upd h.2.2.2.2.2 hu⟩
  · exact ⟨h.1, h.2.1, h.2.2.1, h.2.2.2.1, NF_upd h.2.2.2.2 hu⟩
  · exact ⟨h.1, hw h.2⟩
  · exact ⟨h.1, h.2.1, h.2.2.1, AllQuiet_upd h.2.2.2 hq⟩
  · exact ⟨h.1, h.2.1, h.2.2.1, h.2.2.2.1, AllQuiet_upd h.2.2.2.2 hq⟩
  · exact ⟨h.1, h.2.1, h.2.2.1, h.2.2.2.1, AllQuiet_upd h.2.2.2.2 hq⟩

/-- While no callback waits and a send call is in progress, the engine's thread is outside the queue and the queue is empty. -/
theorem engOk_none {s : St} {T t : Nat} (h : engOk s T) (hw : s.waiting = none) (ht : t < T) (hq : quiet (s.uth t) = false) :
    (s.eng = .idle ∨ ∃ cb res, s.eng = .deliver cb res ∧ contOk (some (cb, res))) ∧
    s.queue = [] ∧ s.armed = false ∧ s.out = [] ∧ NF s.uth T := by
  unfold engOk at h
  have nq : AllQuiet s.uth T → False := fun h => by have := h t ht; rw [hq] at this; cases this
  cases he : s.eng <;> rw [he] at h <;> dsimp only at h
  · rw [hw] at h; exact ⟨.inl rfl, h⟩
  · rw [hw] at h; simp at h
  · rw [hw] at h; simp at h
  · rw [hw] at h; simp at h
  · rw [hw] at h; simp at h
  · rw [hw] at h; exact ⟨.inr ⟨_, _, rfl, h.1⟩, h.2⟩
  · exact (nq h.2.2.2).elim
  · exact (nq h.2.2.2.2).elim
  · exact (nq h.2.2.2.2).elim

/-- Setting the waiting callback while the engine's thread is outside the queue. -/
theorem engOk_set {s s' : St} {T : Nat} (h : s.eng = .idle ∨ ∃ cb res, s.eng = .deliver cb res ∧ contOk (some (cb, res)))
    (e : s'.eng = s.eng) (hw : waitOk s'.waiting s'.queue s'.armed s'.out s'.uth T) : engOk s' T := by
  unfold engOk
  rcases h with h | ⟨cb, res, h, hc⟩
  · rw [e, h]; exact hw
  · rw [e, h]; exact ⟨hc, hw⟩

theorem loopHead_engOk {s : St} {T : Nat} {c : Cont} (hc : contOk c) (hw : s.waiting = none ∨ s.queue ≠ []) (ha : s.armed = false)
    (ho : s.out = []) (hn : NF s.uth T) : engOk (loopHead s c) T := by
  unfold loopHead
  split
  · rename_i hq
    have hw' : s.waiting = none := by rcases hw with h | h; exact h; exact (h hq).elim
    split
    · simp only [engOk, waitOk, hw']; exact ⟨hq, ha, ho, hn⟩
    · simp only [engOk, waitOk, hw']; exact ⟨hc, hq, ha, ho, hn⟩
  · simp only [engOk]; exact ⟨hc, trivial, ha, ho, hn⟩

theorem tryQueue_eq {s s' : St} {id : Nat} {req : Bool} (h : tryQueue s id req = some s') :
    0 < s.pool ∧ s' = { s with pool := s.pool - 1, queue := s.queue ++ [⟨id, req⟩], order := s.order ++ [id] } := by
  unfold tryQueue at h
  split at h
  · cases h
  · injection h with h; exact ⟨by omega, h.symm⟩

theorem noFlight_of {T t : Nat} {uth : Nat → U} (h : NF uth T) (ht : t < T) : ∀ id, inFlight id (uth t) = false := h t ht

theorem inFlight_checked {id k} : ∀ i, inFlight i (.checked id k) = false := by intro i; simp [inFlight]

/-- The three ways a send call ends or goes on. -/
theorem K_queued {T t id : Nat} {req : Bool} {s s' s'' : St} {k : Kind} {u : U} (h : K T s) (ht : t < T)
    (hu : s.uth t = .checked id k) (hw : s.waiting.isSome = true) (hs : tryQueue s id req = some s')
    (e1 : s''.eng = s'.eng) (e2 : s''.waiting = s'.waiting) (e3 : s''.armed = s'.armed) (e4 : s''.out = s'.out)
    (e5 : s''.conn = s'.conn) (e6 : s''.uth = upd s'.uth t u) (e7 : s''.queue = s'.queue) (e8 : s''.dead = s'.dead)
    (hi : ∀ i, inFlight i u = false) (hq : quiet u = true) : K T s'' := by
  obtain ⟨-, e⟩ := tryQueue_eq hs
  subst e
  refine ⟨by rw [e8]; exact h.alive, ?_, ?_⟩
  · exact engOk_user h.eng e1 e2 e3 e4 e5 e6 (by rw [hu]; exact inFlight_checked) hi hq (.inr ⟨hw, by rw [e7]; simp⟩)
  · intro hc
    rw [e5] at hc
    have := h.rest hc
    have h2 := this.2.2 t ht
    rw [hu] at h2; cases h2

theorem K_reject {T t id : Nat} {s s'' : St} {k : Kind} (h : K T s) (ht : t < T)
    (hu : s.uth t = .checked id k)
    (e1 : s''.eng = s.eng) (e2 : s''.waiting = s.waiting) (e3 : s''.armed = s.armed) (e4 : s''.out = s.out)
    (e5 : s''.conn = s.conn) (e6 : s''.uth = upd s.uth t .idle) (e7 : s''.queue = s.queue) (e8 : s''.dead = s.dead) : K T s'' := by
  refine ⟨by rw [e8]; exact h.alive, ?_, ?_⟩
  · exact engOk_user h.eng e1 e2 e3 e4 e5 e6 (by rw [hu]; exact inFlight_checked) (by simp [inFlight]) rfl (.inl e7)
  · intro hc
    rw [e5] at hc
    have := h.rest hc
    have h2 := this.2.2 t ht
    rw [hu] at h2; cases h2

theorem K_armed {T t id : Nat} {req : Bool} {s s' : St} {k : Kind} (h : K T s) (ht : t < T)
    (hu : s.uth t = .checked id k) (hw : s.waiting = none) (hs : tryQueue s id req = some s') : K T (ret (arm s') t id true) := by
  obtain ⟨-, e⟩ := tryQueue_eq hs
  subst e
  obtain ⟨h1, h2, h3, h4, h5⟩ := engOk_none h.eng hw ht (by rw [hu]; rfl)
  refine ⟨by simp [ret, arm, h.alive, h3], ?_, ?_⟩
  · refine engOk_set h1 rfl ?_
    simp only [ret, arm, waitOk]
    exact ⟨by simp, trivial, h4, NF_upd h5 (by simp [inFlight])⟩
  · intro hc
    have := (h.rest hc).2.2 t ht
    rw [hu] at this; cases this

theorem transmit_fields (s : St) (id : Nat) (req ok : Bool) :
    (transmit s id req ok).1.eng = s.eng ∧ (transmit s id req ok).1.waiting = s.waiting ∧
    (transmit s id req ok).1.armed = s.armed ∧ (transmit s id req ok).1.conn = s.conn ∧
    (transmit s id req ok).1.queue = s.queue ∧ (transmit s id req ok).1.dead = s.dead ∧
    (transmit s id req ok).1.out = (if (transmit s id req ok).2 = true ∧ req = true then s.out ++ [id] else s.out) ∧
    (transmit s id req ok).1.wire = (if (transmit s id req ok).2 then s.wire ++ [id] else s.wire) ∧
    (transmit s id req ok).1.order = s.order ∧ (transmit s id req ok).1.got = s.got ∧
    (transmit s id req ok).1.kind = s.kind ∧ (transmit s id req ok).1.pool = s.pool ∧
    (transmit s id req ok).1.leaked = s.leaked := by
  unfold transmit; split <;> cases req <;> simp

theorem K_enterPlain {cfg : Cfg} {T t id : Nat} {s : St} {ok : Bool} (h : K T s) (ht : t < T) (hu : s.uth t = .checked id .plain) :
    K T (enterPlain cfg s t id ok) := by
  have ht' := transmit_fields s id false ok
  unfold enterPlain
  split
  · exact K_reject h ht hu ht'.1 ht'.2.1 ht'.2.2.1 (by simpa [ret] using ht'.2.2.2.2.2.2.1) ht'.2.2.2.1
      (by show upd _ _ _ = _; rw [transmit_uth]) ht'.2.2.2.2.1 ht'.2.2.2.2.2.1
  · split
    · rename_i hw
      split
      · split
        · exact K_reject h ht hu rfl rfl rfl rfl rfl rfl rfl rfl
        · rename_i hs; exact K_armed h ht hu hw hs
      · exact K_reject h ht hu ht'.1 ht'.2.1 ht'.2.2.1 (by simpa [ret] using ht'.2.2.2.2.2.2.1) ht'.2.2.2.1
          (by show upd _ _ _ = _; rw [transmit_uth]) ht'.2.2.2.2.1 ht'.2.2.2.2.2.1
    · rename_i w hw
      split
      · exact K_reject h ht hu rfl rfl rfl rfl rfl rfl rfl rfl
      · rename_i hs
        exact K_queued h ht hu (by rw [hw]; rfl) hs rfl rfl rfl rfl rfl rfl rfl rfl (by simp [inFlight]) rfl

theorem K_enterCb {cfg : Cfg} {T t id : Nat} {s : St} {ok : Bool} (h : K T s) (ht : t < T) (hu : s.uth t = .checked id .cb) :
    K T (enterCb cfg s t id ok) := by
  have ht' := transmit_fields s id true ok
  unfold enterCb
  split
  · rename_i w hw
    split
    · exact K_reject h ht hu rfl rfl rfl rfl rfl rfl rfl rfl
    · rename_i hs
      exact K_queued h ht hu (by rw [hw]; rfl) hs rfl rfl rfl rfl rfl rfl rfl rfl (by simp [inFlight]) rfl
  · rename_i hw
    split
    · split
      · exact K_reject h ht hu rfl rfl rfl rfl rfl rfl rfl rfl
      · rename_i hs; exact K_armed h ht hu hw hs
    · split
      · rename_i hok
        obtain ⟨h1, h2, h3, h4, h5⟩ := engOk_none h.eng hw ht (by rw [hu]; rfl)
        refine ⟨ht'.2.2.2.2.2.1.trans h.alive, ?_, ?_⟩
        · refine engOk_set (s := s) h1 ht'.1 ?_
          simp only [ret, waitOk]
          refine ⟨ht'.2.2.1.trans h3, .inl ⟨?_, ?_⟩⟩
          · rw [ht'.2.2.2.2.2.2.1, h4, hok]; simp
          · rw [transmit_uth]; exact NF_upd h5 (by simp [inFlight])
        · intro hc
          have := (h.rest (by rw [← ht'.2.2.2.1]; exact hc)).2.2 t ht
          rw [hu] at this; cases this
      · exact K_reject h ht hu rfl rfl rfl rfl rfl rfl rfl rfl

theorem K_enterWait {T t id : Nat} {s : St} (h : K T s) (ht : t < T) (hu : s.uth t = .checked id .wait) :
    K T (enterWait s t id) := by
  unfold enterWait
  split
  · rename_i w hw
    split
    · exact K_reject h ht hu rfl rfl rfl rfl rfl rfl rfl rfl
    · rename_i hs
      exact K_queued h ht hu (by rw [hw]; rfl) hs rfl rfl rfl rfl rfl rfl rfl rfl (by simp [inFlight]) rfl
  · rename_i hw
    obtain ⟨h1, h2, h3, h4, h5⟩ := engOk_none h.eng hw ht (by rw [hu]; rfl)
    refine ⟨h.alive, ?_, ?_⟩
    · refine engOk_set (s := s) h1 rfl ?_
      simp only [waitOk]
      refine ⟨h3, .inr ⟨h4, t, ht, by simp [inFlight], ?_⟩⟩
      intro t' ht' i hi
      by_cases e : t' = t
      · subst e; simp [inFlight] at hi; exact ⟨rfl, hi.symm⟩
      · rw [upd_ne _ _ e, h5 t' ht'] at hi; cases hi
    · intro hc
      have := (h.rest hc).2.2 t ht
      rw [hu] at this; cases this

/-- A thread in flight owns the waiting callback. -/
theorem engOk_flight {s : St} {T t id : Nat} (h : engOk s T) (ht : t < T) (hf : inFlight id (s.uth t) = true) :
    (s.eng = .idle ∨ ∃ cb res, s.eng = .deliver cb res ∧ contOk (some (cb, res))) ∧
    s.waiting = some (some id) ∧ s.armed = false ∧ s.out = [] ∧
    (∀ t' < T, ∀ i, inFlight i (s.uth t') = true → t' = t ∧ i = id) := by
  unfold engOk at h
  have nn : NF s.uth T → False := fun h => by have := h t ht id; rw [hf] at this; cases this
  have nq : AllQuiet s.uth T → False := fun h => nn (quiet_NF h)
  have hw : waitOk s.waiting s.queue s.armed s.out s.uth T → s.waiting = some (some id) ∧ s.armed = false ∧ s.out = [] ∧
    (∀ t' < T, ∀ i, inFlight i (s.uth t') = true → t' = t ∧ i = id) := by
    intro h
    unfold waitOk at h
    split at h
    · exact (nn h.2.2.2).elim
    · exact (nn h.2.2.2).elim
    · rename_i hw
      rcases h.2 with ⟨-, hb⟩ | ⟨ho, t0, ht0, ha, hb⟩
      · exact (nn hb).elim
      · have e := hb t ht id hf
        obtain ⟨e1, e2⟩ := e
        subst e1; subst e2
        exact ⟨hw, h.1, ho, hb⟩
  cases he : s.eng <;> rw [he] at h <;> dsimp only at h
  · exact ⟨.inl rfl, hw h⟩
  · exact (nn h.2.2.2.2).elim
  · exact (nn h.2.2.2.2).elim
  · exact (nn h.2.2.2.2.2).elim
  · exact (nn h.2.2.2.2).elim
  · exact ⟨.inr ⟨_, _, rfl, h.1⟩, hw h.2⟩
  · exact (nq h.2.2.2).elim
  · exact (nq h.2.2.2.2).elim
  · exact (nq h.2.2.2.2).elim

theorem K_xmit {T t id : Nat} {s : St} {ok : Bool} (h : K T s) (ht : t < T) (hu : s.uth t = .sending id) :
    K T { (transmit s id true ok).1 with uth := upd s.uth t (.sent id (transmit s id true ok).2) } := by
  have ht' := transmit_fields s id true ok
  obtain ⟨h1, h2, h3, h4, h5⟩ := engOk_flight (id := id) h.eng ht (by simp [hu, inFlight])
  refine ⟨ht'.2.2.2.2.2.1.trans h.alive, ?_, ?_⟩
  · refine engOk_set (s := s) h1 ht'.1 ?_
    dsimp only
    rw [ht'.2.1, h2, ht'.2.2.1, ht'.2.2.2.2.2.2.1, h4]
    have base : ∀ t' < T, t' ≠ t → ∀ i, inFlight i (s.uth t') = false := by
      intro t' ht' ne i
      cases hh : inFlight i (s.uth t')
      · rfl
      · exact (ne (h5 t' ht' i hh).1).elim
    by_cases hb : (transmit s id true ok).2 = true
    · refine ⟨h3, .inl ⟨by simp [hb], ?_⟩⟩
      intro t' ht' i
      by_cases e : t' = t
      · subst e; simp [hb, inFlight]
      · rw [upd_ne _ _ e]; exact base t' ht' e i
    · have hb' : (transmit s id true ok).2 = false := by simpa using hb
      refine ⟨h3, .inr ⟨by simp [hb'], t, ht, by simp [inFlight, hb'], ?_⟩⟩
      intro t' ht' i hi
      by_cases e : t' = t
      · subst e; simp [inFlight, hb'] at hi; exact ⟨rfl, hi.symm⟩
      · rw [upd_ne _ _ e, base t' ht' e i] at hi; cases hi
  · intro hc
    have := (h.rest (by rw [← ht'.2.2.2.1]; exact hc)).2.2 t ht
    rw [hu] at this; cases this

theorem K_relock {T t id : Nat} {s : St} {ok : Bool} (h : K T s) (ht : t < T) (hu : s.uth t = .sent id ok) :
    K T (relock s t id ok) := by
  unfold relock
  split
  · rename_i hok
    refine ⟨h.alive, ?_, ?_⟩
    · exact engOk_user h.eng rfl rfl rfl rfl rfl rfl (by rw [hu, hok]; simp [inFlight]) (by simp [inFlight]) rfl (.inl rfl)
    · intro hc
      have := h.rest hc
      exact ⟨this.1, this.2.1, AllQuiet_upd this.2.2 rfl⟩
  · rename_i hok
    have hok' : ok = false := by simpa using hok
    subst hok'
    obtain ⟨h1, h2, h3, h4, h5⟩ := engOk_flight (id := id) h.eng ht (by simp [hu, inFlight])
    have nf : NF (upd s.uth t .idle) T := by
      intro t' ht' i
      by_cases e : t' = t
      · subst e; simp [inFlight]
      · rw [upd_ne _ _ e]
        cases hh : inFlight i (s.uth t')
        · rfl
        · exact (e (h5 t' ht' i hh).1).elim
    have hc : s.conn = .stopped ∨ s.conn = .starting → False := by
      intro hc
      have := (h.rest hc).2.1
      rw [h2] at this; cases this
    split
    · rename_i hq
      refine ⟨h.alive, ?_, fun h => (hc h).elim⟩
      refine engOk_set (s := s) h1 rfl ?_
      exact ⟨hq, h3, h4, nf⟩
    · rename_i hq
      refine ⟨by simp [ret, arm, h.alive, h3], ?_, fun h => (hc h).elim⟩
      refine engOk_set (s := s) h1 rfl ?_
      exact ⟨hq, rfl, h4, nf⟩

theorem K_init (cfg : Cfg) (T : Nat) : K T (init cfg) := by
  refine ⟨rfl, ?_, ?_⟩
  · exact ⟨rfl, rfl, rfl, fun _ _ _ => by simp [init, inFlight]⟩
  · exact fun _ => ⟨rfl, rfl, fun _ _ => rfl⟩

theorem loopHead_conn (s : St) (c : Cont) : (loopHead s c).conn = s.conn := by
  unfold loopHead; split
  · split <;> rfl
  · rfl

theorem K_step {cfg : Cfg} {T : Nat} {s : St} {op : Op} (h : K T s) (hc : Calm T s op) : K T (step cfg T s op) := by
  unfold step
  rw [if_neg (by simp [h.alive])]
  have he := h.eng
  have notrest : s.eng ≠ .idle → s.conn = .stopped ∨ s.conn = .starting → False := fun hn hr => hn (h.rest hr).1
  cases op <;> dsimp only
  case call t k =>
    split
    · rename_i hh
      refine ⟨h.alive, ?_, ?_⟩
      · -- the engine is not tearing down, because the connection is ready
        have hf : ∀ i, inFlight i (s.uth t) = false := by rw [hh.2.1]; simp [inFlight]
        have hw : waitOk s.waiting s.queue s.armed s.out s.uth T →
            waitOk s.waiting s.queue s.armed s.out (upd s.uth t (.checked s.next k)) T :=
          fun h => waitOk_upd h hf inFlight_checked
        unfold engOk at he ⊢
        dsimp only
        cases hee : s.eng <;> rw [hee] at he <;> dsimp only at he ⊢
        · exact hw he
        · exact ⟨he.1, he.2.1, he.2.2.1, he.2.2.2.1, NF_upd he.2.2.2.2 inFlight_checked⟩
        · exact ⟨he.1, he.2.1, he.2.2.1, he.2.2.2.1, NF_upd he.2.2.2.2 inFlight_checked⟩
        · exact ⟨he.1, he.2.1, he.2.2.1, he.2.2.2.1, he.2.2.2.2.1, NF_upd he.2.2.2.2.2 inFlight_checked⟩
        · exact ⟨he.1, he.2.1, he.2.2.1, he.2.2.2.1, NF_upd he.2.2.2.2 inFlight_checked⟩
        · exact ⟨he.1, hw he.2⟩
        · rw [hh.2.2] at he; simp at he
        · rw [hh.2.2] at he; simp at he
        · rw [hh.2.2] at he; simp at he
      · intro hr
        have hr : s.conn = .stopped ∨ s.conn = .starting := hr
        rw [hh.2.2] at hr; simp at hr
    · exact h
  case enter t ok =>
    split
    · rename_i ht
      split
      · rename_i hu; exact K_enterPlain h ht hu
      · rename_i hu; exact K_enterCb h ht hu
      · rename_i hu; exact K_enterWait h ht hu
      · exact h
    · exact h
  case xmit t ok =>
    split
    · rename_i ht
      split
      · rename_i hu; exact K_xmit h ht hu
      · exact h
    · exact h
  case relock t =>
    split
    · rename_i ht
      split
      · rename_i hu; exact K_relock h ht hu
      · exact h
    · exact h
  case wake t =>
    split
    · rename_i ht
      split
      · rename_i hu
        split
        · refine ⟨h.alive, ?_, ?_⟩
          · exact engOk_user h.eng rfl rfl rfl rfl rfl rfl (by rw [hu]; simp [inFlight]) (by simp [inFlight]) rfl (.inl rfl)
          · intro hc
            have := h.rest hc
            exact ⟨this.1, this.2.1, AllQuiet_upd this.2.2 rfl⟩
        · exact h
      · exact h
    · exact h
  case stop =>
    split
    · rename_i hh
      refine ⟨h.alive, ?_, fun hr => by simp at hr⟩
      unfold engOk at he ⊢
      dsimp only
      cases hee : s.eng <;> rw [hee] at he <;> dsimp only at he ⊢ <;> try exact he
      · exact ⟨he.1, he.2.1, rfl, he.2.2.2⟩
      · exact ⟨he.1, he.2.1, he.2.2.1, rfl, he.2.2.2.2⟩
      · exact ⟨he.1, he.2.1, he.2.2.1, rfl, he.2.2.2.2⟩
    · exact h
  case restart =>
    split
    · rename_i hh
      have hr := h.rest (.inl hh)
      refine ⟨h.alive, ?_, fun _ => hr⟩
      unfold engOk at he ⊢
      rw [hr.1] at he
      dsimp only at he ⊢
      rw [hr.1]; exact he
    · exact h
  case connect =>
    split
    · rename_i hh
      have hr := h.rest (.inr hh)
      refine ⟨h.alive, ?_, fun hx => by simp at hx⟩
      unfold engOk at he ⊢
      rw [hr.1] at he
      dsimp only at he ⊢
      rw [hr.2.1] at he
      rw [hr.1, hr.2.1]
      exact ⟨he.1, he.2.1, rfl, he.2.2.2⟩
    · exact h
  case reply =>
    split
    · rename_i r rest hi ho
      split
      · unfold engOk at he
        rw [hi] at he
        dsimp only at he
        split
        · rename_i c hw
          rw [hw, ho] at he
          cases c with
          | none => simp [waitOk] at he
          | some q =>
            simp only [waitOk] at he
            obtain ⟨ha, ⟨hb, hn⟩ | ⟨hb, -⟩⟩ := he
            · injection hb with hb1 hb2
              subst hb1; subst hb2
              refine ⟨by rw [loopHead_dead]; exact h.alive, ?_, ?_⟩
              · exact loopHead_engOk ⟨r, rfl, rfl⟩ (.inl rfl) ha rfl hn
              · intro hr
                rw [loopHead_conn] at hr
                have := (h.rest hr).2.1
                rw [hw] at this; cases this
            · cases hb
        · rename_i hw
          rw [hw, ho] at he
          exact absurd he.2.2.1 (by simp)
      · exact h
    · exact h
  case bogusReply => exact hc.elim
  case async =>
    split
    · rename_i hh
      unfold engOk at he
      rw [hh.1] at he
      dsimp only at he
      cases hw : s.waiting with
      | none => rw [hw] at he; rw [he.2.1] at hh; simp at hh
      | some c =>
        cases c with
        | some r => rw [hw] at he; rw [he.1] at hh; simp at hh
        | none =>
          rw [hw] at he
          refine ⟨by rw [loopHead_dead]; exact h.alive, ?_, ?_⟩
          · exact loopHead_engOk trivial (.inr he.1) rfl he.2.2.1 he.2.2.2
          · intro hr
            rw [loopHead_conn] at hr
            have := (h.rest hr).2.1
            rw [hw] at this; cases this
    · exact h
  case engXmit ok =>
    split
    · rename_i m c hm
      have ht' := transmit_fields s m.id m.req ok
      unfold engOk at he
      rw [hm] at he
      dsimp only at he
      refine ⟨ht'.2.2.2.2.2.1.trans h.alive, ?_, ?_⟩
      · simp only [engOk]
        rw [ht'.2.1, ht'.2.2.1, ht'.2.2.2.2.2.2.1, transmit_uth, he.2.2.2.1]
        refine ⟨he.1, he.2.1, he.2.2.1, ?_, he.2.2.2.2⟩
        simp only [List.nil_append, and_comm]
      · intro hr
        exact (notrest (by rw [hm]; simp) (by rw [← ht'.2.2.2.1]; exact hr)).elim
    · exact h
  case engFin =>
    split
    · rename_i m ok c hm
      have nr := notrest (by rw [hm]; simp)
      unfold engOk at he
      rw [hm] at he
      dsimp only at he
      split
      · rename_i hr
        split
        · rename_i hok
          rw [hr, hok] at he
          have hw : waitOk s.waiting s.queue s.armed s.out s.uth T := by
            rw [he.2.1, he.2.2.1, he.2.2.2.1]
            exact ⟨rfl, .inl ⟨rfl, he.2.2.2.2⟩⟩
          split
          · exact ⟨h.alive, hw, fun hr => (nr hr).elim⟩
          · exact ⟨h.alive, ⟨he.1, hw⟩, fun hr => (nr hr).elim⟩
        · rename_i hok
          have : (m.req = true ∧ ok = true) = False := by simp [hok]
          rw [hr] at he
          refine ⟨h.alive, ⟨he.1, rfl, he.2.2.1, ?_, ?_, he.2.2.2.2⟩, fun hr => (nr hr).elim⟩
          · rw [he.2.2.2.1]; simp [hok]
          · rw [he.2.1]; rfl
      · rename_i hr
        refine ⟨by rw [loopHead_dead]; exact h.alive, ?_, ?_⟩
        · refine loopHead_engOk he.1 (.inl rfl) he.2.2.1 ?_ he.2.2.2.2
          show s.out = []
          rw [he.2.2.2.1]; simp [hr]
        · intro hr
          rw [loopHead_conn] at hr
          exact (nr hr).elim
    · exact h
  case engCall =>
    split
    · rename_i cb c hm
      have nr := notrest (by rw [hm]; simp)
      unfold engOk at he
      rw [hm] at he
      dsimp only at he
      obtain ⟨h1, h2, h3, h4, h5, h6⟩ := he
      cases cb with
      | none => cases h5
      | some r => exact ⟨h.alive, ⟨h1, h2, h3, h4, h6⟩, fun hr => (nr hr).elim⟩
    · rename_i cb res hm
      have nr := notrest (by rw [hm]; simp)
      unfold engOk at he
      rw [hm] at he
      dsimp only at he
      obtain ⟨⟨q, h1, h1'⟩, h2⟩ := he
      subst h1
      exact ⟨h.alive, h2, fun hr => (nr hr).elim⟩
    · rename_i r hm
      have nr := notrest (by rw [hm]; simp)
      unfold engOk at he
      rw [hm] at he
      exact ⟨h.alive, he, fun hr => (nr hr).elim⟩
    · exact h
  case engNext =>
    split
    · rename_i c hm
      have nr := notrest (by rw [hm]; simp)
      unfold engOk at he
      rw [hm] at he
      dsimp only at he
      refine ⟨by rw [loopHead_dead]; exact h.alive, ?_, ?_⟩
      · exact loopHead_engOk he.1 (.inl rfl) he.2.2.1 he.2.2.2.1 he.2.2.2.2
      · intro hr
        rw [loopHead_conn] at hr
        exact (nr hr).elim
    · exact h
  case teardown peer =>
    split
    · exact ⟨h.alive, ⟨rfl, rfl, rfl, hc⟩, fun hr => by simp at hr⟩
    · exact h
  case take =>
    split
    · rename_i hm
      have nr := notrest (by rw [hm]; simp)
      unfold engOk at he
      rw [hm] at he
      dsimp only at he
      split
      · exact ⟨h.alive, ⟨he.1, he.2.1, rfl, he.2.2⟩, fun hr => (nr hr).elim⟩
      · exact ⟨h.alive, ⟨he.1, he.2.1, rfl, he.2.2⟩, fun hr => (nr hr).elim⟩
      · rename_i hw
        exact ⟨h.alive, ⟨he.1, he.2.1, hw, he.2.2⟩, fun hr => (nr hr).elim⟩
    · exact h
  case drain =>
    split
    · rename_i hm
      have nr := notrest (by rw [hm]; simp)
      unfold engOk at he
      rw [hm] at he
      dsimp only at he
      split
      · rename_i hq
        refine ⟨h.alive, ?_, fun _ => ⟨rfl, he.2.2.1, he.2.2.2.2⟩⟩
        show waitOk s.waiting s.queue s.armed s.out s.uth T
        rw [he.2.2.1]
        exact ⟨hq, he.1, he.2.1, quiet_NF he.2.2.2.2⟩
      · split
        · exact ⟨h.alive, he, fun hr => (nr hr).elim⟩
        · refine ⟨h.alive, ?_, fun hr => (nr hr).elim⟩
          unfold engOk
          dsimp only
          rw [hm]; exact he
    · exact h

theorem K_run {cfg : Cfg} {T : Nat} : ∀ {ops : List Op} {s : St}, K T s → CalmRun cfg T s ops → K T (run cfg T s ops)
  | [], _, h, _ => h
  | op :: ops, s, h, hc => K_run (ops := ops) (s := step cfg T s op) (K_step h hc.1) hc.2

end Verif.Client
