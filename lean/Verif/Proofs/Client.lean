import Verif.Model.Client
/-! Lemmas about the client connection model. -/
namespace Verif.Client

/-- Number of times the callback of request `r` is held in a continuation / by the engine's thread. -/
def contH (r : Nat) : Cont → Nat
  | some (some q, _) => if q = r then 1 else 0
  | _ => 0
def optH (r : Nat) : Option Nat → Nat
  | some q => if q = r then 1 else 0
  | none => 0
def engH (r : Nat) : E → Nat
  | .idle => 0
  | .xmit _ c => contH r c
  | .fin _ _ c => contH r c
  | .err cb c => optH r cb + contH r c
  | .errDone c => contH r c
  | .deliver cb _ => optH r cb
  | .take => 0
  | .stopCall q => if q = r then 1 else 0
  | .drain => 0
def waitH (r : Nat) : Option (Option Nat) → Nat
  | some c => optH r c
  | none => 0
def itemH (r : Nat) (m : Item) : Nat := if m.req = true ∧ m.id = r then 1 else 0
def queueH (r : Nat) : List Item → Nat
  | [] => 0
  | m :: q => itemH r m + queueH r q
def isChecked (r : Nat) : U → Bool
  | .checked id k => decide (id = r) && decide (k ≠ .plain)
  | _ => false

def userH (u : Nat → U) (T r : Nat) : Nat := count (fun t => isChecked r (u t)) T

/-- All the places where the callback of `r` may be, except the calls made. -/
def held (s : St) (r : Nat) : Nat := engH r s.eng + waitH r s.waiting + queueH r s.queue
def tot (s : St) (T r : Nat) : Nat := held s r + userH s.uth T r + (s.got r).length

theorem queueH_append (r : Nat) (q q' : List Item) : queueH r (q ++ q') = queueH r q + queueH r q' := by
  induction q with
  | nil => simp [queueH]
  | cons m q ih => simp only [List.cons_append, queueH, ih]; omega

theorem userH_upd (f : Nat → U) (T r t : Nat) (u : U) (h : t < T) :
    userH (upd f t u) T r + (if isChecked r (f t) then 1 else 0) = userH f T r + (if isChecked r u then 1 else 0) := by
  unfold userH
  have := count_upd (p := fun t => isChecked r (f t)) (q := fun t' => isChecked r (upd f t u t')) (m := T) h
    (fun j hj => by simp [upd_ne _ _ hj])
  simpa using this

theorem loopHead_held (s : St) (c : Cont) (r : Nat) :
    held (loopHead s c) r ≤ contH r c + waitH r s.waiting + queueH r s.queue ∧
    (s.waiting = none ∨ s.waiting = some none → held (loopHead s c) r = contH r c + queueH r s.queue) := by
  unfold loopHead
  split
  · rename_i hq
    split
    · simp only [held, engH, contH, hq, queueH]
      refine ⟨by omega, ?_⟩
      rintro (h | h) <;> simp [h, waitH, optH]
    · rename_i cb res
      have : contH r (some (cb, res)) = optH r cb := by cases cb <;> rfl
      simp only [held, engH, this, hq, queueH]
      refine ⟨by omega, ?_⟩
      rintro (h | h) <;> simp [h, waitH, optH]
  · rename_i m q hq
    have : waitH r (some (if m.req then some m.id else none)) = itemH r m := by
      unfold itemH
      cases m.req <;> simp [waitH, optH]
    simp only [held, engH, this, hq, queueH]
    exact ⟨by omega, fun _ => by omega⟩

@[simp] theorem loopHead_got (s : St) (c : Cont) : (loopHead s c).got = s.got := by
  unfold loopHead; split
  · split <;> rfl
  · rfl
@[simp] theorem loopHead_uth (s : St) (c : Cont) : (loopHead s c).uth = s.uth := by
  unfold loopHead; split
  · split <;> rfl
  · rfl
@[simp] theorem loopHead_next (s : St) (c : Cont) : (loopHead s c).next = s.next := by
  unfold loopHead; split
  · split <;> rfl
  · rfl
@[simp] theorem loopHead_dead (s : St) (c : Cont) : (loopHead s c).dead = s.dead := by
  unfold loopHead; split
  · split <;> rfl
  · rfl

theorem loopHead_tot (s : St) (c : Cont) (T r : Nat) :
    tot (loopHead s c) T r ≤ contH r c + waitH r s.waiting + queueH r s.queue + userH s.uth T r + (s.got r).length ∧
    (s.waiting = none ∨ s.waiting = some none → tot (loopHead s c) T r
      = contH r c + queueH r s.queue + userH s.uth T r + (s.got r).length) := by
  unfold tot
  have h := loopHead_held s c r
  rw [loopHead_uth, loopHead_got]
  exact ⟨by omega, fun hw => by rw [h.2 hw]⟩

theorem callback_tot (s : St) (c : Option Nat) (res : Res) (r : Nat) :
    ((callback s c res).got r).length = (s.got r).length + optH r c := by
  unfold callback
  cases c with
  | none => simp [optH]
  | some q =>
    simp only [optH, upd]
    split <;> rename_i h
    · subst h; simp
    · have : ¬ q = r := fun e => h e.symm
      simp [this]

theorem tot_transmit (s : St) (id : Nat) (req ok : Bool) (T r : Nat) : tot (transmit s id req ok).1 T r = tot s T r := by
  unfold transmit; split <;> rfl

theorem tryQueue_tot {s s' : St} {id : Nat} {req : Bool} (h : tryQueue s id req = some s') (T r : Nat) :
    tot s' T r = tot s T r + itemH r ⟨id, req⟩ ∧ s'.uth = s.uth ∧ s'.waiting = s.waiting ∧ s'.next = s.next := by
  unfold tryQueue at h
  split at h
  · cases h
  · injection h with h; subst h
    simp only [tot, held, queueH_append, queueH, userH, and_self, and_true]
    omega

theorem arm_tot (s : St) (T r : Nat) : tot (arm s) T r + waitH r s.waiting = tot s T r := by
  simp only [tot, held, arm, userH, waitH, optH]; omega

theorem ret_tot (s : St) (T t r id : Nat) (k : Kind) (ok : Bool) (ht : t < T) (hu : s.uth t = .checked id k) :
    tot (ret s t id ok) T r + (if id = r ∧ k ≠ .plain then 1 else 0) = tot s T r := by
  have h := userH_upd s.uth T r t .idle ht
  simp only [tot, held, ret]
  rw [hu] at h
  simp only [isChecked, Bool.and_eq_true, decide_eq_true_eq, Bool.false_eq_true, if_false] at h
  omega

theorem transmit_uth (s : St) (id : Nat) (req ok : Bool) : (transmit s id req ok).1.uth = s.uth := by
  unfold transmit; split <;> rfl
theorem transmit_ret (s : St) (id : Nat) (req ok : Bool) : (transmit s id req ok).1.ret = s.ret := by
  unfold transmit; split <;> rfl
theorem tryQueue_ret {s s' : St} {id : Nat} {req : Bool} (h : tryQueue s id req = some s') : s'.ret = s.ret := by
  unfold tryQueue at h
  split at h
  · cases h
  · injection h with h; subst h; rfl

theorem enterPlain_tot (cfg : Cfg) (s : St) (t id : Nat) (ok : Bool) (T r : Nat) (ht : t < T)
    (hu : s.uth t = .checked id .plain) : tot (enterPlain cfg s t id ok) T r = tot s T r := by
  unfold enterPlain
  split
  · have := ret_tot (transmit s id false ok).1 T t r id .plain (transmit s id false ok).2 ht (by rw [transmit_uth, hu])
    simp at this
    rw [this, tot_transmit]
  · split
    · rename_i hw
      split
      · split
        · have := ret_tot s T t r id .plain false ht hu
          simpa using this
        · rename_i s' hs
          have h1 := tryQueue_tot hs T r
          have h2 := ret_tot (arm s') T t r id .plain true ht (by rw [← hu]; exact congrFun h1.2.1 t)
          have h3 := arm_tot s' T r
          rw [h1.2.2.1, hw] at h3
          simp [itemH, waitH] at h1 h2 h3
          omega
      · have := ret_tot { (transmit s id false ok).1 with order := s.order ++ [id] } T t r id .plain
          (transmit s id false ok).2 ht (by rw [← hu]; exact congrFun (transmit_uth s id false ok) t)
        have h := tot_transmit s id false ok T r
        simp at this
        rw [this, ← h]; rfl
    · split
      · have := ret_tot s T t r id .plain false ht hu
        simpa using this
      · rename_i s' hs
        have h1 := tryQueue_tot hs T r
        have h2 := ret_tot s' T t r id .plain true ht (by rw [h1.2.1, hu])
        simp [itemH] at h1 h2
        omega

/-- A request that is rejected gives its callback back to the caller; otherwise the callback is kept. -/
theorem enterCb_tot (cfg : Cfg) (s : St) (t id : Nat) (ok : Bool) (T r : Nat) (ht : t < T)
    (hu : s.uth t = .checked id .cb) :
    (∃ b, (enterCb cfg s t id ok).ret = upd s.ret id (some b) ∧
    tot (enterCb cfg s t id ok) T r + (if id = r ∧ b = false then 1 else 0) = tot s T r) := by
  unfold enterCb
  split
  · split
    · refine ⟨false, rfl, ?_⟩
      have := ret_tot s T t r id .cb false ht hu
      simpa using this
    · rename_i s' hs
      refine ⟨true, by simp [ret, tryQueue_ret hs], ?_⟩
      have h1 := tryQueue_tot hs T r
      have h2 := ret_tot s' T t r id .cb true ht (by rw [h1.2.1, hu])
      simp [itemH] at h1 h2 ⊢
      omega
  · rename_i hw
    split
    · split
      · refine ⟨false, rfl, ?_⟩
        have := ret_tot s T t r id .cb false ht hu
        simpa using this
      · rename_i s' hs
        refine ⟨true, by simp [ret, arm, tryQueue_ret hs], ?_⟩
        have h1 := tryQueue_tot hs T r
        have h2 := ret_tot (arm s') T t r id .cb true ht (by rw [← hu]; exact congrFun h1.2.1 t)
        have h3 := arm_tot s' T r
        rw [h1.2.2.1, hw] at h3
        simp [itemH, waitH] at h1 h2 h3 ⊢
        omega
    · split
      · refine ⟨true, by simp [ret, transmit_ret], ?_⟩
        have h2 := ret_tot { (transmit s id true ok).1 with waiting := some (some id), order := s.order ++ [id] } T t r
          id .cb true ht (by rw [← hu]; exact congrFun (transmit_uth s id true ok) t)
        have h := tot_transmit s id true ok T r
        have h3 : tot { (transmit s id true ok).1 with waiting := some (some id), order := s.order ++ [id] } T r
            = tot s T r + (if id = r then 1 else 0) := by
          rw [← h]
          have hw' : (transmit s id true ok).1.waiting = none := by
            rw [← hw]; unfold transmit; split <;> rfl
          simp only [tot, held, userH, hw', waitH, optH]
          omega
        simp at h2 h3 ⊢
        omega
      · refine ⟨false, rfl, ?_⟩
        have := ret_tot { s with order := s.order ++ [id] } T t r id .cb false ht hu
        have e : tot { s with order := s.order ++ [id] } T r = tot s T r := rfl
        rw [e] at this
        simpa using this

theorem enterWait_tot (s : St) (t id : Nat) (T r : Nat) (ht : t < T) (hu : s.uth t = .checked id .wait) :
    ((enterWait s t id).ret = s.ret ∧ tot (enterWait s t id) T r = tot s T r) ∨
    (∃ b, (enterWait s t id).ret = upd s.ret id (some b) ∧
    tot (enterWait s t id) T r + (if id = r ∧ b = false then 1 else 0) = tot s T r) := by
  unfold enterWait
  split
  · split
    · refine .inr ⟨false, rfl, ?_⟩
      have := ret_tot s T t r id .wait false ht hu
      simpa using this
    · rename_i s' hs
      refine .inr ⟨true, by simp [tryQueue_ret hs], ?_⟩
      have h1 := tryQueue_tot hs T r
      have h2 := userH_upd s.uth T r t (.blocked id) ht
      rw [hu] at h2
      obtain ⟨h1, h3, -, -⟩ := h1
      simp [itemH, isChecked, tot, held, h3] at h1 h2 ⊢
      omega
  · rename_i hw
    refine .inl ⟨rfl, ?_⟩
    have h2 := userH_upd s.uth T r t (.sending id) ht
    rw [hu] at h2
    simp [isChecked, tot, held, waitH, optH, hw] at h2 ⊢
    omega

theorem relock_tot (s : St) (t id : Nat) (ok : Bool) (T r : Nat) (ht : t < T) (hu : s.uth t = .sent id ok) :
    (relock s t id ok).ret = upd s.ret id (some ok) ∧
    tot (relock s t id ok) T r + (if ok then 0 else waitH r s.waiting) = tot s T r := by
  have key : userH (upd s.uth t .idle) T r = userH s.uth T r := by
    have := userH_upd s.uth T r t .idle ht
    rw [hu] at this; simpa [isChecked] using this
  unfold relock
  split
  · rename_i h
    refine ⟨by rw [h], ?_⟩
    have := userH_upd s.uth T r t (.blocked id) ht
    rw [hu] at this
    simp [isChecked] at this
    simp [h, tot, held, this]
  · rename_i h
    have h' : ok = false := by simpa using h
    subst h'
    split
    · refine ⟨rfl, ?_⟩
      simp [tot, held, ret, waitH, key]; omega
    · refine ⟨rfl, ?_⟩
      have h2 := arm_tot s T r
      simp [tot, held, ret, arm, key] at h2 ⊢
      omega

theorem transmit_next (s : St) (id : Nat) (req ok : Bool) : (transmit s id req ok).1.next = s.next := by
  unfold transmit; split <;> rfl
theorem tryQueue_next {s s' : St} {id : Nat} {req : Bool} (h : tryQueue s id req = some s') : s'.next = s.next := by
  unfold tryQueue at h
  split at h
  · cases h
  · injection h with h; subst h; rfl

theorem enterPlain_next (cfg : Cfg) (s : St) (t id : Nat) (ok : Bool) : (enterPlain cfg s t id ok).next = s.next := by
  unfold enterPlain
  split
  · exact transmit_next ..
  · split
    · split
      · split
        · rfl
        · rename_i h; have := tryQueue_next h; exact this
      · exact transmit_next ..
    · split
      · rfl
      · rename_i h; have := tryQueue_next h; exact this
theorem enterCb_next (cfg : Cfg) (s : St) (t id : Nat) (ok : Bool) : (enterCb cfg s t id ok).next = s.next := by
  unfold enterCb
  split
  · split
    · rfl
    · rename_i h; have := tryQueue_next h; exact this
  · split
    · split
      · rfl
      · rename_i h; have := tryQueue_next h; exact this
    · split
      · exact transmit_next ..
      · rfl
theorem enterWait_next (s : St) (t id : Nat) : (enterWait s t id).next = s.next := by
  unfold enterWait
  split
  · split
    · rfl
    · rename_i h; have := tryQueue_next h; exact this
  · rfl
theorem relock_next (s : St) (t id : Nat) (ok : Bool) : (relock s t id ok).next = s.next := by
  unfold relock
  split
  · rfl
  · split <;> rfl
theorem callback_next (s : St) (c : Option Nat) (res : Res) : (callback s c res).next = s.next := by
  unfold callback; split <;> rfl
theorem callback_uth (s : St) (c : Option Nat) (res : Res) : (callback s c res).uth = s.uth := by
  unfold callback; split <;> rfl
theorem callback_waiting (s : St) (c : Option Nat) (res : Res) : (callback s c res).waiting = s.waiting := by
  unfold callback; split <;> rfl
theorem callback_queue (s : St) (c : Option Nat) (res : Res) : (callback s c res).queue = s.queue := by
  unfold callback; split <;> rfl

theorem step_le (cfg : Cfg) (T : Nat) (s : St) (op : Op) (r : Nat) :
    (tot (step cfg T s op) T r ≤ tot s T r ∧ (step cfg T s op).next = s.next) ∨
    ((∃ t k, t < T ∧ s.uth t = .idle ∧ step cfg T s op =
      { s with uth := upd s.uth t (.checked s.next k), kind := upd s.kind s.next k, next := s.next + 1 }) ∧ (step cfg T s op).next = s.next + 1 ∧ tot (step cfg T s op) T r ≤ tot s T r + if r = s.next then 1 else 0) := by
  have same : ∀ s' : St, s' = s → (tot s' T r ≤ tot s T r ∧ s'.next = s.next) ∨
    ((∃ t k, t < T ∧ s.uth t = .idle ∧ s' =
      { s with uth := upd s.uth t (.checked s.next k), kind := upd s.kind s.next k, next := s.next + 1 }) ∧ s'.next = s.next + 1 ∧ tot s' T r ≤ tot s T r + if r = s.next then 1 else 0) := by
    rintro s' rfl; exact .inl ⟨Nat.le_refl _, rfl⟩
  unfold step
  split
  · exact same _ rfl
  · cases op <;> dsimp only
    case call t k =>
      split
      · rename_i h
        refine .inr ⟨⟨t, k, h.1, h.2.1, rfl⟩, rfl, ?_⟩
        have h2 := userH_upd s.uth T r t (.checked s.next k) h.1
        rw [h.2.1] at h2
        simp only [tot, held]
        have h3 : (if isChecked r (U.checked s.next k) = true then 1 else 0) ≤ (if r = s.next then 1 else 0) := by
          simp only [isChecked, Bool.and_eq_true, decide_eq_true_eq]
          split
          · rename_i hh; rw [if_pos hh.1.symm]; omega
          · omega
        simp [isChecked] at h2 h3
        omega
      · exact same _ rfl
    case enter t ok =>
      split
      · rename_i ht
        split
        · rename_i id hu
          exact .inl ⟨by rw [enterPlain_tot cfg s t id ok T r ht hu]; omega, enterPlain_next ..⟩
        · rename_i id hu
          obtain ⟨b, -, h⟩ := enterCb_tot cfg s t id ok T r ht hu
          exact .inl ⟨by omega, enterCb_next ..⟩
        · rename_i id hu
          rcases enterWait_tot s t id T r ht hu with ⟨-, h⟩ | ⟨b, -, h⟩
          · exact .inl ⟨by omega, enterWait_next ..⟩
          · exact .inl ⟨by omega, enterWait_next ..⟩
        · exact same _ rfl
      · exact same _ rfl
    case xmit t ok =>
      split
      · rename_i ht
        split
        · rename_i id hu
          refine .inl ⟨?_, transmit_next ..⟩
          have h := tot_transmit s id true ok T r
          have h2 := userH_upd s.uth T r t (.sent id (transmit s id true ok).2) ht
          have h3 : (transmit s id true ok).1.uth = s.uth := transmit_uth ..
          rw [hu] at h2
          simp [isChecked] at h2
          simp only [tot, held, h3] at h ⊢
          omega
        · exact same _ rfl
      · exact same _ rfl
    case relock t =>
      split
      · rename_i ht
        split
        · rename_i id ok hu
          have := (relock_tot s t id ok T r ht hu).2
          exact .inl ⟨by omega, relock_next ..⟩
        · exact same _ rfl
      · exact same _ rfl
    case wake t =>
      split
      · rename_i ht
        split
        · rename_i id hu
          split
          · refine .inl ⟨?_, rfl⟩
            have h2 := userH_upd s.uth T r t .idle ht
            rw [hu] at h2
            simp [isChecked] at h2
            simp only [tot, held, h2]; omega
          · exact same _ rfl
        · exact same _ rfl
      · exact same _ rfl
    case stop => split <;> first | exact same _ rfl | exact .inl ⟨Nat.le_refl _, rfl⟩
    case restart => split <;> first | exact same _ rfl | exact .inl ⟨Nat.le_refl _, rfl⟩
    case connect => split <;> first | exact same _ rfl | exact .inl ⟨Nat.le_refl _, rfl⟩
    case reply =>
      split
      · rename_i q rest he ho
        split
        · split
          · rename_i c hw
            refine .inl ⟨?_, loopHead_next ..⟩
            refine Nat.le_trans (loopHead_tot _ _ T r).1 ?_
            have : contH r (some (c, Res.reply q)) = optH r c := by cases c <;> rfl
            simp only [tot, held, this, hw, waitH]
            omega
          · exact .inl ⟨Nat.le_refl _, rfl⟩
        · exact same _ rfl
      · exact same _ rfl
    case bogusReply =>
      split
      · split
        · rename_i c hw
          refine .inl ⟨?_, loopHead_next ..⟩
          refine Nat.le_trans (loopHead_tot _ _ T r).1 ?_
          have : contH r (some (c, Res.bogus)) = optH r c := by cases c <;> rfl
          simp only [tot, held, this, hw, waitH]
          omega
        · exact .inl ⟨Nat.le_refl _, rfl⟩
      · exact same _ rfl
    case async =>
      split
      · refine .inl ⟨?_, loopHead_next ..⟩
        refine Nat.le_trans (loopHead_tot _ _ T r).1 ?_
        simp only [tot, held, contH]
        omega
      · exact same _ rfl
    case engXmit ok =>
      split
      · rename_i m c he
        refine .inl ⟨?_, transmit_next ..⟩
        have h := tot_transmit s m.id m.req ok T r
        have h3 : (transmit s m.id m.req ok).1.eng = s.eng := by unfold transmit; split <;> rfl
        simp only [tot, held, h3, he, engH] at h ⊢
        omega
      · exact same _ rfl
    case engFin =>
      split
      · rename_i m ok c he
        split
        · split
          · split
            · refine .inl ⟨?_, rfl⟩
              simp only [tot, held, he, engH]; omega
            · rename_i cb res
              refine .inl ⟨?_, rfl⟩
              have : contH r (some (cb, res)) = optH r cb := by cases cb <;> rfl
              simp only [tot, held, he, engH, this]; omega
          · refine .inl ⟨?_, rfl⟩
            simp only [tot, held, he, engH, waitH]
            cases h : s.waiting with
            | none => simp [optH]
            | some w => simp only [Option.getD_some, waitH, optH]; omega
        · refine .inl ⟨?_, loopHead_next ..⟩
          refine Nat.le_trans (loopHead_tot _ _ T r).1 ?_
          simp only [tot, held, he, engH, waitH]
          omega
      · exact same _ rfl
    case engCall =>
      split
      · rename_i cb c he
        refine .inl ⟨?_, callback_next ..⟩
        have h := callback_tot s cb .err r
        simp only [tot, held, callback_uth, callback_waiting, callback_queue, h, he, engH]
        omega
      · rename_i cb res he
        refine .inl ⟨?_, callback_next ..⟩
        have h := callback_tot s cb res r
        simp only [tot, held, callback_uth, callback_waiting, callback_queue, h, he, engH]
        omega
      · rename_i q he
        refine .inl ⟨?_, callback_next ..⟩
        have h := callback_tot s (some q) .err r
        simp only [tot, held, callback_uth, callback_waiting, callback_queue, h, he, engH, optH]
        omega
      · exact same _ rfl
    case engNext =>
      split
      · rename_i c he
        refine .inl ⟨?_, loopHead_next ..⟩
        refine Nat.le_trans (loopHead_tot _ _ T r).1 ?_
        simp only [tot, held, he, engH, waitH]
        omega
      · exact same _ rfl
    case teardown peer =>
      split
      · rename_i h
        refine .inl ⟨?_, rfl⟩
        simp only [tot, held, engH, userH, h.1]; omega
      · exact same _ rfl
    case take =>
      split
      · rename_i h
        split <;> rename_i hw <;> refine .inl ⟨?_, rfl⟩ <;> simp only [tot, held, engH, userH, h, hw, waitH, optH] <;> omega
      · exact same _ rfl
    case drain =>
      split
      · rename_i h
        split
        · refine .inl ⟨?_, rfl⟩
          simp only [tot, held, engH, userH, h]; omega
        · rename_i m q hq
          split <;> rename_i hm <;> refine .inl ⟨?_, rfl⟩ <;>
            simp only [tot, held, engH, userH, h, hq, queueH, itemH, hm] <;> simp <;> omega
      · exact same _ rfl

theorem run_snoc (cfg : Cfg) (T : Nat) (s : St) (ops : List Op) (op : Op) :
    run cfg T s (ops ++ [op]) = step cfg T (run cfg T s ops) op := by
  simp [run]

theorem tot_le_one (cfg : Cfg) (T : Nat) (ops : List Op) :
    ∀ r, tot (run cfg T (init cfg) ops) T r ≤ 1 ∧ ((run cfg T (init cfg) ops).next ≤ r → tot (run cfg T (init cfg) ops) T r = 0) := by
  have gen : ∀ (ops : List Op) (s : St), (∀ r, tot s T r ≤ 1 ∧ (s.next ≤ r → tot s T r = 0)) →
      ∀ r, tot (run cfg T s ops) T r ≤ 1 ∧ ((run cfg T s ops).next ≤ r → tot (run cfg T s ops) T r = 0) := by
    intro ops
    induction ops with
    | nil => intro s h; exact h
    | cons op ops ih =>
      intro s h
      refine ih (step cfg T s op) ?_
      intro r
      have h0 := h r
      rcases step_le cfg T s op r with ⟨h1, h2⟩ | ⟨-, h2, h1⟩
      · exact ⟨by omega, fun h3 => by have := h0.2 (by omega); omega⟩
      · split at h1
        · rename_i e; subst e
          have := h0.2 (Nat.le_refl _)
          exact ⟨by omega, fun h3 => by omega⟩
        · exact ⟨by omega, fun h3 => by have := h0.2 (by omega); omega⟩
  refine gen ops _ ?_
  intro r
  have : userH (fun _ => U.idle) T r = 0 := count_eq_zero.mpr (fun j _ => rfl)
  simp [tot, held, init, engH, waitH, queueH, this]

end Verif.Client
