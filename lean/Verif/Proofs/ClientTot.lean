import Verif.Proofs.ClientCalm
/-! Where the callbacks are (client connection model). -/
namespace Verif.Client

def uid : U → Option Nat
  | .checked id _ => some id
  | .sending id => some id
  | .sent id _ => some id
  | _ => none

/-- The calls in progress: their results are open and they are numbered differently. -/
structure L (T : Nat) (s : St) : Prop where
  thr : ∀ t < T, ∀ id, uid (s.uth t) = some id → s.ret id = none ∧ id < s.next
  kindOk : ∀ t < T, ∀ id k, s.uth t = .checked id k → s.kind id = k
  uniq : ∀ t < T, ∀ t' < T, ∀ id, uid (s.uth t) = some id → uid (s.uth t') = some id → t = t'
  fresh : ∀ r, s.next ≤ r → s.ret r = none

/-- The call of thread `t` returns. -/
theorem L_ret {T t id : Nat} {s s' : St} {u : U} {b : Bool} (h : L T s) (ht : t < T) (hi : uid (s.uth t) = some id)
    (hu : uid u = none) (e1 : s'.uth = upd s.uth t u) (e2 : s'.ret = upd s.ret id (some b)) (e3 : s'.kind = s.kind)
    (e4 : s'.next = s.next) : L T s' := by
  refine ⟨?_, ?_, ?_, ?_⟩
  · intro t' ht' i hi'
    rw [e1] at hi'
    simp only [upd] at hi'; split at hi'
    · rw [hu] at hi'; cases hi'
    · rename_i ne
      rw [e2, e4]
      have := h.thr t' ht' i hi'
      have ne' : i ≠ id := by rintro rfl; exact ne (h.uniq t' ht' t ht i hi' hi)
      rw [upd_ne _ _ ne']; exact this
  · intro t' ht' i k hk
    rw [e1] at hk
    simp only [upd] at hk; split at hk
    · rw [hk] at hu; cases hu
    · rw [e3]; exact h.kindOk t' ht' i k hk
  · intro t1 h1 t2 h2 i hi1 hi2
    rw [e1] at hi1 hi2
    simp only [upd] at hi1 hi2
    split at hi1
    · rw [hu] at hi1; cases hi1
    · split at hi2
      · rw [hu] at hi2; cases hi2
      · exact h.uniq t1 h1 t2 h2 i hi1 hi2
  · intro r hr
    rw [e4] at hr
    have := h.thr t ht id hi
    rw [e2, upd_ne _ _ (by omega)]; exact h.fresh r hr

/-- The call of thread `t` goes on. -/
theorem L_move {T t : Nat} {s s' : St} {u : U} (h : L T s) (hu : uid u = none ∨ uid u = uid (s.uth t))
    (hk : ∀ id k, u ≠ .checked id k) (e1 : s'.uth = upd s.uth t u) (e2 : s'.ret = s.ret) (e3 : s'.kind = s.kind)
    (e4 : s'.next = s.next) : L T s' := by
  refine ⟨?_, ?_, ?_, ?_⟩
  · intro t' ht' i hi'
    rw [e1] at hi'
    rw [e2, e4]
    simp only [upd] at hi'; split at hi'
    · rename_i e; subst e
      rcases hu with hu | hu
      · rw [hu] at hi'; cases hi'
      · rw [hu] at hi'; exact h.thr t' ht' i hi'
    · exact h.thr t' ht' i hi'
  · intro t' ht' i k hk'
    rw [e1] at hk'
    simp only [upd] at hk'; split at hk'
    · exact (hk _ _ hk').elim
    · rw [e3]; exact h.kindOk t' ht' i k hk'
  · intro t1 h1 t2 h2 i hi1 hi2
    have key : ∀ t', uid (s'.uth t') = some i → uid (s.uth t') = some i := by
      intro t' hh
      rw [e1] at hh
      simp only [upd] at hh; split at hh
      · rename_i e; subst e
        rcases hu with hu | hu
        · rw [hu] at hh; cases hh
        · rw [hu] at hh; exact hh
      · exact hh
    exact h.uniq t1 h1 t2 h2 i (key _ hi1) (key _ hi2)
  · intro r hr
    rw [e4] at hr
    rw [e2]; exact h.fresh r hr

theorem L_same {T : Nat} {s s' : St} (h : L T s) (e1 : s'.uth = s.uth) (e2 : s'.ret = s.ret) (e3 : s'.kind = s.kind)
    (e4 : s'.next = s.next) : L T s' := by
  refine ⟨?_, ?_, ?_, ?_⟩
  · rw [e1, e2, e4]; exact h.thr
  · rw [e1, e3]; exact h.kindOk
  · rw [e1]; exact h.uniq
  · rw [e2, e4]; exact h.fresh

theorem tryQueue_kind {s s' : St} {id : Nat} {req : Bool} (h : tryQueue s id req = some s') : s'.kind = s.kind := by
  obtain ⟨-, rfl⟩ := tryQueue_eq h; rfl
theorem tryQueue_uth {s s' : St} {id : Nat} {req : Bool} (h : tryQueue s id req = some s') : s'.uth = s.uth := by
  obtain ⟨-, rfl⟩ := tryQueue_eq h; rfl

theorem enterPlain_eff (cfg : Cfg) (s : St) (t id : Nat) (ok : Bool) : ∃ b,
    (enterPlain cfg s t id ok).uth = upd s.uth t .idle ∧ (enterPlain cfg s t id ok).ret = upd s.ret id (some b) ∧
    (enterPlain cfg s t id ok).kind = s.kind := by
  have ht' := transmit_fields s id false ok
  unfold enterPlain
  split
  · exact ⟨_, by simp only [ret]; rw [transmit_uth], by simp only [ret]; rw [transmit_ret], ht'.2.2.2.2.2.2.2.2.2.2.1⟩
  · split
    · split
      · split
        · exact ⟨_, rfl, rfl, rfl⟩
        · rename_i hs
          exact ⟨_, by simp only [ret, arm]; rw [tryQueue_uth hs], by simp only [ret, arm]; rw [tryQueue_ret hs], by have := tryQueue_kind hs; exact this⟩
      · exact ⟨_, by simp only [ret]; rw [transmit_uth], by simp only [ret]; rw [transmit_ret], ht'.2.2.2.2.2.2.2.2.2.2.1⟩
    · split
      · exact ⟨_, rfl, rfl, rfl⟩
      · rename_i hs
        exact ⟨_, by simp only [ret]; rw [tryQueue_uth hs], by simp only [ret]; rw [tryQueue_ret hs], by have := tryQueue_kind hs; exact this⟩

theorem enterCb_eff (cfg : Cfg) (s : St) (t id : Nat) (ok : Bool) : ∃ b,
    (enterCb cfg s t id ok).uth = upd s.uth t .idle ∧ (enterCb cfg s t id ok).ret = upd s.ret id (some b) ∧
    (enterCb cfg s t id ok).kind = s.kind := by
  have ht' := transmit_fields s id true ok
  unfold enterCb
  split
  · split
    · exact ⟨_, rfl, rfl, rfl⟩
    · rename_i hs
      exact ⟨_, by simp only [ret]; rw [tryQueue_uth hs], by simp only [ret]; rw [tryQueue_ret hs], by have := tryQueue_kind hs; exact this⟩
  · split
    · split
      · exact ⟨_, rfl, rfl, rfl⟩
      · rename_i hs
        exact ⟨_, by simp only [ret, arm]; rw [tryQueue_uth hs], by simp only [ret, arm]; rw [tryQueue_ret hs], by have := tryQueue_kind hs; exact this⟩
    · split
      · exact ⟨_, by simp only [ret]; rw [transmit_uth], by simp only [ret]; rw [transmit_ret], ht'.2.2.2.2.2.2.2.2.2.2.1⟩
      · exact ⟨_, rfl, rfl, rfl⟩

theorem L_step {cfg : Cfg} {T : Nat} {s : St} {op : Op} (h : L T s) : L T (step cfg T s op) := by
  unfold step
  split
  · exact h
  have hl : ∀ (s : St) c, (loopHead s c).uth = s.uth ∧ (loopHead s c).ret = s.ret ∧ (loopHead s c).kind = s.kind ∧
      (loopHead s c).next = s.next := by
    intro s c
    unfold loopHead; split
    · split <;> exact ⟨rfl, rfl, rfl, rfl⟩
    · exact ⟨rfl, rfl, rfl, rfl⟩
  have hcb : ∀ (s : St) c res, (callback s c res).ret = s.ret ∧ (callback s c res).kind = s.kind := by
    intro s c res
    unfold callback; split <;> exact ⟨rfl, rfl⟩
  cases op <;> dsimp only
  case call t k =>
    split
    · rename_i hh
      have nf : ∀ t' < T, ∀ i, uid (s.uth t') = some i → i ≠ s.next := by
        intro t' ht' i hi; have := (h.thr t' ht' i hi).2; omega
      refine ⟨?_, ?_, ?_, ?_⟩
      · intro t' ht' i hi
        simp only [upd] at hi
        dsimp only
        split at hi
        · simp [uid] at hi; subst hi; exact ⟨h.fresh _ (Nat.le_refl _), by omega⟩
        · have := h.thr t' ht' i hi; exact ⟨this.1, by omega⟩
      · intro t' ht' i k' hk
        simp only [upd] at hk ⊢
        split at hk
        · injection hk with h1 h2; subst h1; simp [h2]
        · rename_i ne
          have := nf t' ht' i (by rw [hk]; rfl)
          rw [if_neg this]; exact h.kindOk t' ht' i k' hk
      · intro t1 h1 t2 h2 i hi1 hi2
        simp only [upd] at hi1 hi2
        split at hi1 <;> split at hi2
        · rename_i a b; rw [a, b]
        · simp [uid] at hi1; subst hi1; exact (nf t2 h2 _ hi2 rfl).elim
        · simp [uid] at hi2; subst hi2; exact (nf t1 h1 _ hi1 rfl).elim
        · exact h.uniq t1 h1 t2 h2 i hi1 hi2
      · intro r hr
        dsimp only at hr ⊢
        exact h.fresh r (by omega)
    · exact h
  case enter t ok =>
    split
    · rename_i ht
      split
      · rename_i id hu
        obtain ⟨b, e1, e2, e3⟩ := enterPlain_eff cfg s t id ok
        exact L_ret h ht (by rw [hu]; rfl) rfl e1 e2 e3 (enterPlain_next ..)
      · rename_i id hu
        obtain ⟨b, e1, e2, e3⟩ := enterCb_eff cfg s t id ok
        exact L_ret h ht (by rw [hu]; rfl) rfl e1 e2 e3 (enterCb_next ..)
      · rename_i id hu
        unfold enterWait
        split
        · split
          · exact L_ret h ht (by rw [hu]; rfl) rfl rfl rfl rfl rfl
          · rename_i hs
            obtain ⟨-, rfl⟩ := tryQueue_eq hs
            exact L_ret (u := .blocked id) h ht (by rw [hu]; rfl) rfl rfl rfl rfl rfl
        · exact L_move (u := .sending id) (t := t) h (.inr (by rw [hu]; rfl)) (by simp) rfl rfl rfl rfl
      · exact h
    · exact h
  case xmit t ok =>
    split
    · rename_i ht
      split
      · rename_i id hu
        have ht' := transmit_fields s id true ok
        exact L_move (t := t) h (.inr (by rw [hu]; rfl)) (by simp) rfl (transmit_ret ..) (ht'.2.2.2.2.2.2.2.2.2.2.1) (transmit_next ..)
      · exact h
    · exact h
  case relock t =>
    split
    · rename_i ht
      split
      · rename_i id ok hu
        unfold relock
        split
        · exact L_ret (u := .blocked id) h ht (by rw [hu]; rfl) rfl rfl rfl rfl rfl
        · split
          · exact L_ret h ht (by rw [hu]; rfl) rfl rfl rfl rfl rfl
          · exact L_ret h ht (by rw [hu]; rfl) rfl rfl rfl rfl rfl
      · exact h
    · exact h
  case wake t =>
    split
    · split
      · rename_i hu
        split
        · exact L_move (t := t) (u := .idle) h (.inl rfl) (by simp) rfl rfl rfl rfl
        · exact h
      · exact h
    · exact h
  case stop => split <;> first | exact h | exact L_same h rfl rfl rfl rfl
  case restart => split <;> first | exact h | exact L_same h rfl rfl rfl rfl
  case connect => split <;> first | exact h | exact L_same h rfl rfl rfl rfl
  case reply =>
    split
    · split
      · split
        · have := hl; exact L_same h (hl _ _).1 (hl _ _).2.1 (hl _ _).2.2.1 (hl _ _).2.2.2
        · exact L_same h rfl rfl rfl rfl
      · exact h
    · exact h
  case bogusReply =>
    split
    · split
      · exact L_same h (hl _ _).1 (hl _ _).2.1 (hl _ _).2.2.1 (hl _ _).2.2.2
      · exact L_same h rfl rfl rfl rfl
    · exact h
  case async =>
    split
    · exact L_same h (hl _ _).1 (hl _ _).2.1 (hl _ _).2.2.1 (hl _ _).2.2.2
    · exact h
  case engXmit ok =>
    split
    · rename_i m c he
      have ht' := transmit_fields s m.id m.req ok
      exact L_same h (transmit_uth ..) (transmit_ret ..) ht'.2.2.2.2.2.2.2.2.2.2.1 (transmit_next ..)
    · exact h
  case engFin =>
    split
    · split
      · split
        · split <;> exact L_same h rfl rfl rfl rfl
        · exact L_same h rfl rfl rfl rfl
      · exact L_same h (hl _ _).1 (hl _ _).2.1 (hl _ _).2.2.1 (hl _ _).2.2.2
    · exact h
  case engCall =>
    split
    · exact L_same h (callback_uth ..) (hcb ..).1 (hcb ..).2 (callback_next ..)
    · exact L_same h (callback_uth ..) (hcb ..).1 (hcb ..).2 (callback_next ..)
    · exact L_same h (callback_uth ..) (hcb ..).1 (hcb ..).2 (callback_next ..)
    · exact h
  case engNext =>
    split
    · exact L_same h (hl _ _).1 (hl _ _).2.1 (hl _ _).2.2.1 (hl _ _).2.2.2
    · exact h
  case teardown peer => split <;> first | exact h | exact L_same h rfl rfl rfl rfl
  case take =>
    split
    · split <;> exact L_same h rfl rfl rfl rfl
    · exact h
  case drain =>
    split
    · split
      · exact L_same h rfl rfl rfl rfl
      · split <;> exact L_same h rfl rfl rfl rfl
    · exact h

theorem L_init (cfg : Cfg) (T : Nat) : L T (init cfg) :=
  ⟨fun _ _ _ h => by simp [init, uid] at h, fun _ _ _ _ h => by simp [init] at h, fun _ _ _ _ _ h => by simp [init, uid] at h,
   fun _ _ => rfl⟩

theorem step_kind (cfg : Cfg) (T : Nat) (s : St) (op : Op) (hop : ∀ t k, op ≠ .call t k) : (step cfg T s op).kind = s.kind := by
  have hl : ∀ (s : St) c, (loopHead s c).kind = s.kind := by
    intro s c
    unfold loopHead; split
    · split <;> rfl
    · rfl
  have hcb : ∀ (s : St) c res, (callback s c res).kind = s.kind := by
    intro s c res
    unfold callback; split <;> rfl
  have htr : ∀ (s : St) id req ok, (transmit s id req ok).1.kind = s.kind := by
    intro s id req ok; unfold transmit; split <;> rfl
  unfold step
  split
  · rfl
  cases op <;> dsimp only
  case call t k => exact (hop t k rfl).elim
  case enter t ok =>
    split
    · split
      · exact (enterPlain_eff cfg s t _ ok).choose_spec.2.2
      · exact (enterCb_eff cfg s t _ ok).choose_spec.2.2
      · unfold enterWait; split
        · split
          · rfl
          · rename_i hs; have := tryQueue_kind hs; exact this
        · rfl
      · rfl
    · rfl
  case relock t =>
    split
    · split
      · unfold relock; split
        · rfl
        · split <;> rfl
      · rfl
    · rfl
  all_goals repeat' split
  all_goals first | rfl | exact hl _ _ | exact hcb _ _ _ | exact htr _ _ _ _

/-- Effect of a calm step on the callback of request `r`. -/
theorem step_tot {cfg : Cfg} {T : Nat} {s : St} {op : Op} (hk : K T s) (hL : L T s) (hc : Calm T s op) (r : Nat)
    (hr : r < s.next) (hp : s.kind r ≠ .plain) :
    (step cfg T s op).kind r = s.kind r ∧
    (((step cfg T s op).ret r = s.ret r ∧ tot (step cfg T s op) T r = tot s T r) ∨
     (∃ b, s.ret r = none ∧ (step cfg T s op).ret r = some b ∧
        tot (step cfg T s op) T r + (if b = false then 1 else 0) = tot s T r)) := by
  have hk' : (step cfg T s op).kind r = s.kind r ∨ True := .inr trivial
  have he := hk.eng
  unfold step
  rw [if_neg (by simp [hk.alive])]
  have fin : ∀ {t id : Nat} {b : Bool} {s' : St}, t < T → uid (s.uth t) = some id → s'.ret = upd s.ret id (some b) →
      s'.kind = s.kind → tot s' T r + (if id = r ∧ b = false then 1 else 0) = tot s T r →
      s'.kind r = s.kind r ∧ ((s'.ret r = s.ret r ∧ tot s' T r = tot s T r) ∨
        (∃ b, s.ret r = none ∧ s'.ret r = some b ∧ tot s' T r + (if b = false then 1 else 0) = tot s T r)) := by
    intro t id b s' ht hi e1 e2 e3
    refine ⟨by rw [e2], ?_⟩
    by_cases e : id = r
    · subst e
      refine .inr ⟨b, (hL.thr t ht id hi).1, by rw [e1]; simp, by simpa using e3⟩
    · refine .inl ⟨by rw [e1, upd_ne _ _ (fun h => e h.symm)], by simpa [e] using e3⟩
  have lh : ∀ (s1 : St) (c : Cont), s1.waiting = none ∨ s1.waiting = some none → s1.uth = s.uth → s1.got = s.got →
      s1.ret = s.ret → s1.kind = s.kind →
      contH r c + queueH r s1.queue = held s r →
      (loopHead s1 c).kind r = s.kind r ∧ (((loopHead s1 c).ret r = s.ret r ∧ tot (loopHead s1 c) T r = tot s T r) ∨
        (∃ b, s.ret r = none ∧ (loopHead s1 c).ret r = some b ∧ tot (loopHead s1 c) T r + (if b = false then 1 else 0) = tot s T r)) := by
    intro s1 c h1 h2 h3 h4 h5 h6
    have hl : (loopHead s1 c).ret = s1.ret ∧ (loopHead s1 c).kind = s1.kind := by
      unfold loopHead; split
      · split <;> exact ⟨rfl, rfl⟩
      · exact ⟨rfl, rfl⟩
    refine ⟨by rw [hl.2, h5], .inl ⟨by rw [hl.1, h4], ?_⟩⟩
    rw [(loopHead_tot s1 c T r).2 h1, h2, h3, h6]; rfl
  have hcb : ∀ (s : St) c res, (callback s c res).ret = s.ret ∧ (callback s c res).kind = s.kind := by
    intro s c res
    unfold callback; split <;> exact ⟨rfl, rfl⟩
  have same : s.kind r = s.kind r ∧ ((s.ret r = s.ret r ∧ tot s T r = tot s T r) ∨
      (∃ b, s.ret r = none ∧ s.ret r = some b ∧ tot s T r + (if b = false then 1 else 0) = tot s T r)) :=
    ⟨rfl, .inl ⟨rfl, rfl⟩⟩
  cases op <;> dsimp only
  case call t k =>
    split
    · rename_i h
      refine ⟨upd_ne _ _ (by omega), .inl ⟨rfl, ?_⟩⟩
      have h2 := userH_upd s.uth T r t (.checked s.next k) h.1
      rw [h.2.1] at h2
      have ne : ¬ s.next = r := by omega
      simp [isChecked, ne] at h2
      simp [tot, held, h2]
    · exact same
  case enter t ok =>
    split
    · rename_i ht
      split
      · rename_i id hu
        obtain ⟨b, -, e2, e3⟩ := enterPlain_eff cfg s t id ok
        have h1 := enterPlain_tot cfg s t id ok T r ht hu
        have hne : id ≠ r := by
          rintro rfl
          exact hp (hL.kindOk t ht id .plain hu)
        exact fin ht (by rw [hu]; rfl) e2 e3 (by rw [h1]; simp [hne])
      · rename_i id hu
        obtain ⟨b, e2, h1⟩ := enterCb_tot cfg s t id ok T r ht hu
        obtain ⟨b', -, -, e3⟩ := enterCb_eff cfg s t id ok
        exact fin ht (by rw [hu]; rfl) e2 e3 h1
      · rename_i id hu
        have e3 : (enterWait s t id).kind = s.kind := by
          unfold enterWait; split
          · split
            · rfl
            · rename_i hs; have := tryQueue_kind hs; exact this
          · rfl
        rcases enterWait_tot s t id T r ht hu with ⟨h1, h2⟩ | ⟨b, h1, h2⟩
        · exact ⟨by rw [e3], .inl ⟨by rw [h1], h2⟩⟩
        · exact fin ht (by rw [hu]; rfl) h1 e3 h2
      · exact same
    · exact same
  case xmit t ok =>
    split
    · rename_i ht
      split
      · rename_i id hu
        have ht' := transmit_fields s id true ok
        refine ⟨by dsimp only; rw [ht'.2.2.2.2.2.2.2.2.2.2.1], .inl ⟨by dsimp only; rw [transmit_ret], ?_⟩⟩
        have h := tot_transmit s id true ok T r
        have h2 := userH_upd s.uth T r t (.sent id (transmit s id true ok).2) ht
        have h3 : (transmit s id true ok).1.uth = s.uth := transmit_uth ..
        rw [hu] at h2
        simp [isChecked] at h2
        simp only [tot, held, h3] at h ⊢
        omega
      · exact same
    · exact same
  case relock t =>
    split
    · rename_i ht
      split
      · rename_i id ok hu
        have h1 := relock_tot s t id ok T r ht hu
        have e3 : (relock s t id ok).kind = s.kind := by
          unfold relock; split
          · rfl
          · split <;> rfl
        refine fin ht (by rw [hu]; rfl) h1.1 e3 ?_
        have h2 := h1.2
        cases ok with
        | true => simpa using h2
        | false =>
          obtain ⟨-, hw, -⟩ := engOk_flight (id := id) he ht (by simp [hu, inFlight])
          rw [hw] at h2
          simpa [waitH, optH] using h2
      · exact same
    · exact same
  case wake t =>
    split
    · rename_i ht
      split
      · rename_i id hu
        split
        · refine ⟨rfl, .inl ⟨rfl, ?_⟩⟩
          have h2 := userH_upd s.uth T r t .idle ht
          rw [hu] at h2
          simp [isChecked] at h2
          simp only [tot, held, h2]
        · exact same
      · exact same
    · exact same
  case stop => split <;> exact same
  case restart => split <;> exact same
  case connect => split <;> exact same
  case reply =>
    split
    · rename_i q rest hi ho
      split
      · split
        · rename_i c hw
          refine lh _ _ (.inl rfl) rfl rfl rfl rfl ?_
          have : contH r (some (c, Res.reply q)) = optH r c := by cases c <;> rfl
          simp only [held, this, hw, waitH, hi, engH]
          omega
        · exact same
      · exact same
    · exact same
  case bogusReply => exact hc.elim
  case async =>
    split
    · rename_i hh
      unfold engOk at he
      rw [hh.1] at he
      dsimp only at he
      have hw : s.waiting = some none := by
        cases hw : s.waiting with
        | none => rw [hw] at he; rw [he.2.1] at hh; simp at hh
        | some c =>
          cases c with
          | some r => rw [hw] at he; rw [he.1] at hh; simp at hh
          | none => rfl
      refine lh _ _ (.inr hw) rfl rfl rfl rfl ?_
      simp only [held, hw, waitH, optH, hh.1, engH, contH]
    · exact same
  case engXmit ok =>
    split
    · rename_i m c hm
      have ht' := transmit_fields s m.id m.req ok
      refine ⟨by dsimp only; rw [ht'.2.2.2.2.2.2.2.2.2.2.1], .inl ⟨by dsimp only; rw [transmit_ret], ?_⟩⟩
      have h := tot_transmit s m.id m.req ok T r
      simp only [tot, held, ht'.1, hm, engH] at h ⊢
      omega
    · exact same
  case engFin =>
    split
    · rename_i m ok c hm
      unfold engOk at he
      rw [hm] at he
      dsimp only at he
      split
      · rename_i hr
        split
        · split
          · refine ⟨rfl, .inl ⟨rfl, ?_⟩⟩
            simp only [tot, held, hm, engH, contH]
          · rename_i cb res
            refine ⟨rfl, .inl ⟨rfl, ?_⟩⟩
            have : contH r (some (cb, res)) = optH r cb := by cases cb <;> rfl
            simp only [tot, held, hm, engH, this]
        · refine ⟨rfl, .inl ⟨rfl, ?_⟩⟩
          simp only [tot, held, hm, engH, he.2.1, hr, if_true, waitH, optH, Option.getD_some]
          omega
      · rename_i hr
        refine lh _ _ (.inl rfl) rfl rfl rfl rfl ?_
        have hr' : m.req = false := by simpa using hr
        simp only [held, he.2.1, hr', hm, engH, waitH, Bool.false_eq_true, if_false, optH]
        omega
    · exact same
  case engCall =>
    split
    · rename_i cb c hm
      refine ⟨by dsimp only; rw [(hcb _ _ _).2], .inl ⟨by dsimp only; rw [(hcb _ _ _).1], ?_⟩⟩
      have h := callback_tot s cb .err r
      simp only [tot, held, callback_uth, callback_waiting, callback_queue, h, hm, engH]
      omega
    · rename_i cb res hm
      refine ⟨by dsimp only; rw [(hcb _ _ _).2], .inl ⟨by dsimp only; rw [(hcb _ _ _).1], ?_⟩⟩
      have h := callback_tot s cb res r
      simp only [tot, held, callback_uth, callback_waiting, callback_queue, h, hm, engH]
      omega
    · rename_i q hm
      refine ⟨by dsimp only; rw [(hcb _ _ _).2], .inl ⟨by dsimp only; rw [(hcb _ _ _).1], ?_⟩⟩
      have h := callback_tot s (some q) .err r
      simp only [tot, held, callback_uth, callback_waiting, callback_queue, h, hm, engH, optH]
      omega
    · exact same
  case engNext =>
    split
    · rename_i c hm
      unfold engOk at he
      rw [hm] at he
      dsimp only at he
      refine lh _ _ (.inl rfl) rfl rfl rfl rfl ?_
      simp only [held, he.2.1, hm, engH, waitH, optH]; omega
    · exact same
  case teardown peer =>
    split
    · rename_i h
      refine ⟨rfl, .inl ⟨rfl, ?_⟩⟩
      simp only [tot, held, engH, userH, h.1]
    · exact same
  case take =>
    split
    · rename_i h
      split <;> rename_i hw <;> refine ⟨rfl, .inl ⟨rfl, ?_⟩⟩ <;> simp only [tot, held, engH, userH, h, hw, waitH, optH] <;> omega
    · exact same
  case drain =>
    split
    · rename_i h
      split
      · refine ⟨rfl, .inl ⟨rfl, ?_⟩⟩
        simp only [tot, held, engH, userH, h]
      · rename_i m q hq
        split <;> rename_i hm <;> refine ⟨rfl, .inl ⟨rfl, ?_⟩⟩ <;>
          simp only [tot, held, engH, userH, h, hq, queueH, itemH, hm] <;> simp <;> omega
    · exact same

end Verif.Client
