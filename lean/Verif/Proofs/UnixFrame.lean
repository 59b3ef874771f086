import Verif.Model.SizedSend
/-! Lemmas about frames, addresses and size checks. -/
namespace Verif.UnixFrame

theorem receive_frame (cap : Nat) (m : Msg) (r : List UInt8) (h1 : m.2.length < 65536)
    (h2 : m.2.length ≤ cap % 65536) : receive cap (frame m ++ r) = (.ok m, r) := by
  obtain ⟨c, p⟩ := m
  simp only at h1 h2
  have hs : (UInt8.ofNat (p.length % 65536 % 256)).toNat + 256 * (UInt8.ofNat (p.length % 65536 / 256)).toNat
      = p.length := by
    simp only [UInt8.toNat_ofNat']
    omega
  unfold frame receive
  simp only [List.cons_append, List.getD_cons_zero, List.getD_cons_succ, List.drop_succ_cons, List.drop_zero, hs]
  by_cases h0 : p.length = 0
  · rw [if_pos h0]
    have : p = [] := List.eq_nil_of_length_eq_zero h0
    subst this; simp
  · rw [if_neg h0, if_neg (by omega), if_neg (by simp)]
    simp

theorem receiveAll_ok {cap : Nat} {s r : List UInt8} {m : Msg} (h : receive cap s = (.ok m, r)) :
    receiveAll cap s = (m :: (receiveAll cap r).1, (receiveAll cap r).2) := by
  rw [receiveAll]
  split
  · rename_i h'; rw [h] at h'; simp at h'
  · rename_i h'; rw [h] at h'; simp at h'; rw [h'.1, h'.2]

theorem receiveAll_err {cap : Nat} {s r : List UInt8} {e : Err} (h : receive cap s = (.error e, r)) :
    receiveAll cap s = ([], e) := by
  rw [receiveAll]
  split
  · rename_i h'; rw [h] at h'; simp at h'; rw [h'.1]
  · rename_i h'; rw [h] at h'; simp at h'

theorem receiveAll_stream (cap : Nat) (ms : List Msg) (r : List UInt8)
    (h : ∀ m ∈ ms, m.2.length < 65536 ∧ m.2.length ≤ cap % 65536) :
    receiveAll cap (stream ms ++ r) = (ms ++ (receiveAll cap r).1, (receiveAll cap r).2) := by
  induction ms with
  | nil => simp [stream]
  | cons m ms ih =>
    have hm := h m (by simp)
    have : stream (m :: ms) ++ r = frame m ++ (stream ms ++ r) := by simp [stream]
    rw [this, receiveAll_ok (receive_frame cap m _ hm.1 hm.2), ih (fun x hx => h x (by simp [hx]))]
    simp

theorem receiveAll_nil (cap : Nat) : receiveAll cap [] = ([], .epipe) :=
  receiveAll_err (r := []) (by rfl)

/-- A frame cut short gives nothing, or one message without payload. -/
theorem receive_cut (cap : Nat) (m : Msg) (n : Nat) (hn : n < (frame m).length) (h1 : m.2.length < 65536) :
    (receiveAll cap ((frame m).take n)).1 = [] ∨ (receiveAll cap ((frame m).take n)).1 = [(m.1, [])] := by
  obtain ⟨c, p⟩ := m
  simp only at h1
  match n with
  | 0 => left; simp [receiveAll_nil]
  | 1 =>
    right
    have : receive cap ((frame (c, p)).take 1) = (.ok (c, []), []) := by simp [frame, receive]
    rw [receiveAll_ok this, receiveAll_nil]
  | 2 =>
    have hf : (frame (c, p)).take 2 = [c, UInt8.ofNat (p.length % 65536 % 256)] := by simp [frame]
    rw [hf]
    by_cases h0 : (UInt8.ofNat (p.length % 65536 % 256)).toNat = 0
    · right
      have : receive cap [c, UInt8.ofNat (p.length % 65536 % 256)] = (.ok (c, []), []) := by
        unfold receive; dsimp only
        rw [if_pos (by simp only [List.getD_cons_zero]; rw [h0]; rfl)]; rfl
      rw [receiveAll_ok this, receiveAll_nil]
    · left
      have : ∃ e r, receive cap [c, UInt8.ofNat (p.length % 65536 % 256)] = (.error e, r) := by
        unfold receive; dsimp only
        rw [if_neg (by simp only [List.getD_cons_zero]; omega)]
        split
        · exact ⟨_, _, rfl⟩
        · rw [if_pos (by
            have : ([c, UInt8.ofNat (p.length % 65536 % 256)].tail.drop 2).length = 0 := by simp
            simp only [List.tail_cons] at this
            rw [this]
            simp only [List.getD_cons_zero]
            omega)]
          exact ⟨_, _, rfl⟩
      obtain ⟨e, r, h⟩ := this
      rw [receiveAll_err h]
  | n + 3 =>
    left
    have hs : (UInt8.ofNat (p.length % 65536 % 256)).toNat + 256 * (UInt8.ofNat (p.length % 65536 / 256)).toNat
        = p.length := by
      simp only [UInt8.toNat_ofNat']
      omega
    simp only [frame, List.length_cons] at hn
    have : ∃ e r, receive cap ((frame (c, p)).take (n + 3)) = (.error e, r) := by
      unfold frame receive
      simp only [List.take_succ_cons, List.getD_cons_zero, List.getD_cons_succ, List.drop_succ_cons, List.drop_zero, hs]
      rw [if_neg (by omega)]
      split
      · exact ⟨_, _, rfl⟩
      · rw [if_pos (by simp; omega)]; exact ⟨_, _, rfl⟩
    obtain ⟨e, r, h⟩ := this
    rw [receiveAll_err h]

theorem receiveAll_cut (cap : Nat) (ms : List Msg) (n : Nat)
    (h : ∀ m ∈ ms, m.2.length < 65536 ∧ m.2.length ≤ cap % 65536) :
    ∃ k, (stream (ms.take k)).length ≤ n ∧ (ms.length ≤ k ∨ n < (stream (ms.take (k + 1))).length) ∧
      ((receiveAll cap ((stream ms).take n)).1 = ms.take k ∨
        ∃ m, ms[k]? = some m ∧ (receiveAll cap ((stream ms).take n)).1 = ms.take k ++ [(m.1, [])]) := by
  induction ms generalizing n with
  | nil => exact ⟨0, by simp [stream], by simp, by left; simp [stream, receiveAll_nil]⟩
  | cons m ms ih =>
    have hm := h m (by simp)
    have hst : stream (m :: ms) = frame m ++ stream ms := by simp [stream]
    by_cases hn : n < (frame m).length
    · refine ⟨0, by simp [stream], Or.inr (by simpa [stream] using hn), ?_⟩
      rw [hst, List.take_append_of_le_length (by omega)]
      rcases receive_cut cap m n hn hm.1 with h' | h'
      · left; simpa using h'
      · right; exact ⟨m, by simp, by simpa using h'⟩
    · obtain ⟨k, hk1, hk2, hk3⟩ := ih (n - (frame m).length) (fun x hx => h x (by simp [hx]))
      have hcut : (stream (m :: ms)).take n = frame m ++ (stream ms).take (n - (frame m).length) := by
        rw [hst, List.take_append, List.take_of_length_le (by omega)]
      refine ⟨k + 1, ?_, ?_, ?_⟩
      · simp only [List.take_succ_cons]
        simp only [stream, List.flatMap_cons, List.length_append] at *
        omega
      · rcases hk2 with h' | h'
        · left; simpa using h'
        · right
          simp only [List.take_succ_cons]
          simp only [stream, List.flatMap_cons, List.length_append] at *
          omega
      · rw [hcut, receiveAll_ok (receive_frame cap m _ hm.1 hm.2)]
        rcases hk3 with h' | ⟨x, hx, h'⟩
        · left; simp [h']
        · right; exact ⟨x, by simpa using hx, by simp [h']⟩

theorem bufferSize_ge (l : List Nat) (b : Nat) :
    (b ≤ l.foldl (fun b m => if b < m then m else b) b) ∧
    (∀ x ∈ l, x ≤ l.foldl (fun b m => if b < m then m else b) b) ∧
    (∀ M, b ≤ M → (∀ x ∈ l, x ≤ M) → l.foldl (fun b m => if b < m then m else b) b ≤ M) := by
  induction l generalizing b with
  | nil => simp
  | cons a l ih =>
    obtain ⟨h1, h2, h3⟩ := ih (if b < a then a else b)
    have hb : b ≤ (if b < a then a else b) ∧ a ≤ (if b < a then a else b) := by split <;> omega
    refine ⟨?_, ?_, ?_⟩
    · simp only [List.foldl_cons]; omega
    · intro x hx
      simp only [List.mem_cons, List.foldl_cons] at hx ⊢
      rcases hx with rfl | hx
      · omega
      · exact h2 x hx
    · intro M hb hM
      simp only [List.foldl_cons]
      exact h3 M (by have := hM a (by simp); split <;> omega) (fun x hx => hM x (by simp [hx]))

theorem getD_eq_getElem?_getD' (l : List UInt8) (i : Nat) : l.getD i 0 = l[i]?.getD 0 := by
  simp [List.getD]

theorem address_length (p : List UInt8) : (address p).length = 108 := by
  simp [address]; omega

theorem address_getD (p : List UInt8) (i : Nat) (hi : i < 106) : (address p).getD (i + 1) 0 = p.getD i 0 := by
  unfold address
  simp only [List.cons_append, List.getD_cons_succ]
  simp only [List.getD_eq_getElem?_getD, List.getElem?_append, List.getElem?_take, List.getElem?_replicate,
    List.length_take]
  by_cases h : i < p.length
  · rw [if_pos (by omega), if_pos (by omega)]
  · rw [if_neg (by omega)]
    rw [List.getElem?_eq_none (by omega)]
    split <;> rfl

theorem address_getD_last (p : List UInt8) : (address p).getD 107 0 = 0 := by
  unfold address
  simp only [List.cons_append, List.getD_cons_succ]
  simp only [List.getD_eq_getElem?_getD, List.getElem?_append, List.getElem?_take, List.getElem?_replicate,
    List.length_take]
  rw [if_neg (by omega)]
  split <;> rfl

theorem address_eq_iff (p q : List UInt8) : address p = address q ↔ ∀ i < 106, p.getD i 0 = q.getD i 0 := by
  constructor
  · intro h i hi
    rw [← address_getD p i hi, ← address_getD q i hi, h]
  · intro h
    apply List.ext_getElem?
    intro i
    by_cases hi : i < 108
    · have h1 : (address p).getD i 0 = (address q).getD i 0 := by
        match i with
        | 0 => rfl
        | i + 1 =>
          by_cases h2 : i < 106
          · rw [address_getD p i h2, address_getD q i h2]; exact h i h2
          · have : i = 106 := by omega
            subst this
            rw [address_getD_last, address_getD_last]
      simp only [List.getD_eq_getElem?_getD] at h1
      rw [List.getElem?_eq_getElem (by rw [address_length]; omega),
        List.getElem?_eq_getElem (by rw [address_length]; omega)] at h1 ⊢
      simpa using h1
    · rw [List.getElem?_eq_none (by rw [address_length]; omega), List.getElem?_eq_none (by rw [address_length]; omega)]

theorem address_inj (p q : List UInt8) (hp : p.length ≤ 106) (hq : q.length ≤ 106) (zp : 0 ∉ p) (zq : 0 ∉ q)
    (h : address p = address q) : p = q := by
  rw [address_eq_iff] at h
  have key : ∀ (a b : List UInt8), a.length ≤ 106 → 0 ∉ a → (∀ i < 106, a.getD i 0 = b.getD i 0) →
      a.length ≤ b.length := by
    intro a b ha za hab
    by_cases hl : a.length ≤ b.length
    · exact hl
    · exfalso
      have h1 := hab b.length (by omega)
      simp only [List.getD_eq_getElem?_getD] at h1
      rw [List.getElem?_eq_getElem (by omega : b.length < a.length), List.getElem?_eq_none (Nat.le_refl _)] at h1
      simp only [Option.getD_some, Option.getD_none] at h1
      exact za (h1 ▸ List.getElem_mem _)
  have hl : p.length = q.length :=
    Nat.le_antisymm (key p q hp zp h) (key q p hq zq (fun i hi => (h i hi).symm))
  apply List.ext_getElem hl
  intro i h1 h2
  have := h i (by omega)
  simp only [List.getD_eq_getElem?_getD, List.getElem?_eq_getElem h1, List.getElem?_eq_getElem h2,
    Option.getD_some] at this
  exact this

end Verif.UnixFrame

namespace Verif.SizedSend
open Verif.UnixFrame

/-- Everything stored, being transmitted or transmitted respects the limit. -/
structure Inv (c : Cfg) (s : St) : Prop where
  queue : ∀ x ∈ s.queue, x.1.length ≤ c.maxSend
  tx : ∀ x ∈ s.tx, x.2.2.length ≤ c.maxSend
  wire : ∀ x ∈ s.wire, x.2.length ≤ c.maxSend

theorem tryQueue_inv {c : Cfg} {s s' : St} {m : List UInt8} {b : Bool} (h : Inv c s) (hm : m.length ≤ c.maxSend)
    (he : tryQueue s m b = some s') : Inv c s' := by
  unfold tryQueue at he
  split at he
  · simp at he
  · simp at he
    subst he
    refine ⟨?_, h.tx, h.wire⟩
    intro x hx
    simp at hx
    rcases hx with hx | rfl
    · exact h.queue x hx
    · exact hm

theorem afterTx_inv {c : Cfg} {s : St} (h : Inv c s) (k : TxKind) (ok : Bool) : Inv c (afterTx s k ok) := by
  unfold afterTx
  repeat' split
  all_goals first | exact h | exact ⟨h.queue, h.tx, h.wire⟩

theorem step_inv {c : Cfg} {s : St} (h : Inv c s) (o : Op) : Inv c (step c s o).1 := by
  cases o with
  | send m ok =>
    simp only [step]; unfold send
    split
    · exact h
    · rename_i hl
      have hl : m.length ≤ c.maxSend := by omega
      repeat' split
      all_goals first
        | exact h
        | (rename_i hq; have := tryQueue_inv h hl hq; exact ⟨this.queue, this.tx, this.wire⟩)
        | (refine ⟨h.queue, ?_, h.wire⟩; intro x hx; simp at hx; rcases hx with hx | rfl; exact h.tx x hx; exact hl)
        | (refine ⟨h.queue, h.tx, ?_⟩; intro x hx; simp at hx; rcases hx with hx | rfl; exact h.wire x hx; exact hl)
  | sendWaitReply m cb =>
    simp only [step]; unfold sendWaitReply
    split
    · exact h
    split
    · exact h
    · rename_i hl
      have hl : m.length ≤ c.maxSend := by omega
      repeat' split
      all_goals first
        | exact h
        | (rename_i hq; have := tryQueue_inv h hl hq; exact ⟨this.queue, this.tx, this.wire⟩)
        | (refine ⟨h.queue, ?_, h.wire⟩; intro x hx; simp at hx; rcases hx with hx | rfl; exact h.tx x hx; exact hl)
  | sendWithCallback m ok =>
    simp only [step]; unfold sendWithCallback
    split
    · exact h
    · rename_i hl
      have hl : m.length ≤ c.maxSend := by omega
      repeat' split
      all_goals first
        | exact h
        | (rename_i hq; have := tryQueue_inv h hl hq; exact ⟨this.queue, this.tx, this.wire⟩)
        | (refine ⟨h.queue, h.tx, ?_⟩; intro x hx; simp at hx; rcases hx with hx | rfl; exact h.wire x hx; exact hl)
  | process =>
    simp only [step]; unfold process
    split
    · exact h
    · rename_i m cb q hq
      have hm : m.length ≤ c.maxSend := h.queue (m, cb) (by rw [hq]; simp)
      refine ⟨fun x hx => h.queue x (by rw [hq]; simp [show x ∈ q from hx]), ?_, h.wire⟩
      intro x hx
      simp only [List.mem_append, List.mem_singleton] at hx
      rcases hx with hx | rfl
      · exact h.tx x hx
      · split <;> exact hm
  | transmit i ok =>
    simp only [step]; unfold transmit
    split
    · exact h
    · rename_i k m hi
      have hm := h.tx _ (List.mem_of_getElem? hi)
      apply afterTx_inv
      refine ⟨h.queue, fun x hx => h.tx x (List.mem_of_mem_eraseIdx hx), ?_⟩
      intro x hx
      dsimp only at hx
      split at hx
      · simp at hx
        rcases hx with hx | rfl
        · exact h.wire x hx
        · exact hm
      · exact h.wire x hx
  | reply => exact ⟨h.queue, h.tx, h.wire⟩
  | setReady b => exact ⟨h.queue, h.tx, h.wire⟩

theorem run_inv {c : Cfg} {s : St} (h : Inv c s) (ops : List Op) : Inv c (run c s ops) := by
  induction ops generalizing s with
  | nil => exact h
  | cons o ops ih => exact ih (step_inv h o)

theorem srv_inv (c : SrvCfg) (ops : List SrvOp) (w : List Msg)
    (h : ∀ m ∈ w, (m.1 = 0 ∧ m.2.length ≤ c.maxReply) ∨ (m.1 = 1 ∧ m.2.length ≤ c.maxNotify)) :
    ∀ m ∈ ops.foldl (fun w o => (srvStep c w o).1) w,
      (m.1 = 0 ∧ m.2.length ≤ c.maxReply) ∨ (m.1 = 1 ∧ m.2.length ≤ c.maxNotify) := by
  induction ops generalizing w with
  | nil => exact h
  | cons o ops ih =>
    apply ih
    intro m hm
    cases o <;> simp only [srvStep] at hm <;> (repeat' split at hm)
    all_goals first
      | exact h m hm
      | (simp only [List.mem_append, List.mem_singleton] at hm
         rcases hm with hm | rfl
         · exact h m hm
         · simp; omega)

end Verif.SizedSend
