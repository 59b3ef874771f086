import Verif.Model.GwFramer
import Verif.Proofs.GwSerial
/-! Lemmas about gateway messages and their framing. -/
namespace Verif.GwSerial

theorem strnlen_congr (m m' : Nat → UInt8) (off len : Nat) (h : ∀ a, off ≤ a → a < off + len → m a = m' a) :
    strnlen m off len = strnlen m' off len := by
  induction len generalizing off with
  | zero => rfl
  | succ n ih =>
    simp only [strnlen]
    rw [h off (by omega) (by omega), ih (off + 1) (fun a h1 h2 => h a (by omega) (by omega))]

theorem bytesAt_congr (m m' : Nat → UInt8) (off n : Nat) (h : ∀ a, off ≤ a → a < off + n → m a = m' a) :
    bytesAt m off n = bytesAt m' off n := by
  unfold bytesAt
  apply List.map_congr_left
  intro i hi
  have := List.mem_range.mp hi
  exact h _ (by omega) (by omega)

theorem deList_congr {α : Type} (d : (Nat → UInt8) → Nat → Nat → Out α) (m m' : Nat → UInt8) (off len : Nat)
    (hd : ∀ o l, off ≤ o → o + l ≤ off + len → d m o l = d m' o l) (n consumed : Nat) :
    deList d m off len n consumed = deList d m' off len n consumed := by
  induction n generalizing consumed with
  | zero => rfl
  | succ n ih =>
    simp only [deList]
    split
    · rfl
    · rw [hd (off + consumed) (len - consumed) (by omega) (by omega)]
      split
      · rfl
      · rfl
      · rw [ih]

theorem de_congr (t : Ty) (m m' : Nat → UInt8) (off len : Nat) (h : ∀ a, off ≤ a → a < off + len → m a = m' a) :
    de t m off len = de t m' off len := by
  induction t generalizing off len with
  | str =>
    simp only [de]
    have hs := (strnlen_safe m off len).2
    rw [← strnlen_congr m m' off len h, bytesAt_congr m m' off (strnlen m off len).1 (fun a h1 h2 => h a h1 (by omega))]
  | triv n =>
    simp only [de]
    split
    · rfl
    · rw [bytesAt_congr m m' off n (fun a h1 h2 => h a h1 (by omega))]
  | vec e ih =>
    simp only [de]
    split
    · rfl
    · rw [bytesAt_congr m m' off 2 (fun a h1 h2 => h a h1 (by omega)),
        deList_congr (de e) m m' off len (fun o l h1 h2 => ih o l (fun a h3 h4 => h a (by omega) (by omega)))]
  | unit => rfl
  | cons a b iha ihb =>
    simp only [de]
    rw [iha off len h]
    split
    · rfl
    · rfl
    · split
      · rfl
      · rename_i k _ hk
        rw [ihb (off + k) (len - k) (fun a h1 h2 => h a (by omega) (by omega))]

theorem deserialize_safe (k : Kind) (m : Nat → UInt8) (off len : Nat) : Safe off len (deserialize k m off len) := by
  have h := de_safe k.ty m off len
  unfold deserialize
  dsimp only
  generalize de k.ty m off len = x at h
  obtain ⟨res, reads⟩ := x
  obtain ⟨h1, h2⟩ := h
  cases res with
  | ub => exact h2.elim
  | invalid => exact ⟨h1, trivial⟩
  | ok v n => exact ⟨h1, h2⟩

theorem deserialize_congr (k : Kind) (m m' : Nat → UInt8) (off len : Nat)
    (h : ∀ a, off ≤ a → a < off + len → m a = m' a) : deserialize k m off len = deserialize k m' off len := by
  unfold deserialize
  dsimp only
  rw [de_congr k.ty m m' off len h]

theorem fromLe_u32 (n : UInt32) : UInt32.ofNat (fromLe (le 4 n.toNat)) = n := by
  rw [fromLe_le, Nat.mod_eq_of_lt (by have := n.toNat_lt; omega)]
  exact UInt32.ofNat_toNat

theorem fromLe_u64 (n : UInt64) : UInt64.ofNat (fromLe (le 8 n.toNat)) = n := by
  rw [fromLe_le, Nat.mod_eq_of_lt (by have := n.toNat_lt; omega)]
  exact UInt64.ofNat_toNat

theorem eventInfo_bytes_length (e : EventInfo) : e.bytes.length = 32 := by
  simp [EventInfo.bytes, le_length]

theorem eventInfo_round (e : EventInfo) : EventInfo.ofBytes e.bytes = e := by
  have h1 : e.bytes.take 8 = le 8 e.namePtr.toNat := by
    simp [EventInfo.bytes, List.take_append, le_length]
  have h2 : (e.bytes.drop 8).take 8 = le 8 e.nameLen.toNat := by
    simp [EventInfo.bytes, List.take_append, List.drop_append, le_length]
  have h3 : (e.bytes.drop 16).take 8 = le 8 e.size.toNat := by
    simp [EventInfo.bytes, List.take_append, List.drop_append, le_length]
  have h4 : (e.bytes.drop 24).take 8 = le 8 e.alignment.toNat := by
    have : (le 8 e.namePtr.toNat ++ le 8 e.nameLen.toNat ++ le 8 e.size.toNat).length = 24 := by simp [le_length]
    unfold EventInfo.bytes
    rw [List.drop_append, List.drop_of_length_le (by omega), this]
    simp [List.take_of_length_le, le_length]
  unfold EventInfo.ofBytes
  rw [h1, h2, h3, h4, fromLe_u64, fromLe_u64, fromLe_u64, fromLe_u64]

theorem val_good (msg : Message) (h : Sendable msg) : Good msg.kind.ty msg.val := by
  cases msg with
  | provide spec events c d =>
    refine ⟨h.1, ⟨?_, ?_⟩, le_length _ _, le_length _ _, trivial⟩
    · show (events.map EventInfo.bytes).length ≤ 65535
      simpa using h.2
    · intro x hx
      obtain ⟨e, _, rfl⟩ := List.mem_map.mp (show x ∈ events.map EventInfo.bytes from hx)
      exact eventInfo_bytes_length e
  | offer spec => exact ⟨h, trivial⟩
  | stopOffer spec => exact ⟨h, trivial⟩
  | register spec t name => exact ⟨h.1, rfl, h.2, trivial⟩
  | unregister spec t name => exact ⟨h.1, rfl, h.2, trivial⟩
  | update spec t name => exact ⟨h.1, rfl, h.2, trivial⟩
  | ack n => exact ⟨le_length _ _, trivial⟩

theorem sizeList_const {α : Type} (f : α → Nat) (k : Nat) (l : List α) (h : ∀ x, f x = k) :
    sizeList f l = k * l.length := by
  induction l with
  | nil => rfl
  | cons x xs ih => simp only [sizeList, h, ih, List.length_cons, Nat.mul_succ]; omega

theorem val_size (msg : Message) : size msg.kind.ty msg.val = wireSize msg := by
  cases msg with
  | provide spec events c d =>
    show spec.length + 1 + ((2 + sizeList (size (.triv 32)) (events.map EventInfo.bytes)) + (4 + (4 + 0))) = _
    rw [sizeList_const (size (.triv 32)) 32 _ (fun _ => rfl)]
    have : (events.map EventInfo.bytes).length = events.length := by simp
    simp only [wireSize]
    have h2 : List.length (α := Val (.triv 32)) (events.map EventInfo.bytes) = events.length := this
    rw [h2]
    omega
  | offer spec => rfl
  | stopOffer spec => rfl
  | register spec t name =>
    show spec.length + 1 + (1 + (name.length + 1 + 0)) = _
    simp only [wireSize]; omega
  | unregister spec t name =>
    show spec.length + 1 + (1 + (name.length + 1 + 0)) = _
    simp only [wireSize]; omega
  | update spec t name =>
    show spec.length + 1 + (1 + (name.length + 1 + 0)) = _
    simp only [wireSize]; omega
  | ack n => rfl

theorem ofVal_val (msg : Message) : ofVal msg.kind msg.val = msg := by
  cases msg with
  | provide spec events c d =>
    show Message.provide spec ((events.map EventInfo.bytes).map EventInfo.ofBytes) (UInt32.ofNat (fromLe (le 4 c.toNat)))
      (UInt32.ofNat (fromLe (le 4 d.toNat))) = _
    rw [fromLe_u32, fromLe_u32, List.map_map]
    congr 1
    conv => rhs; rw [← List.map_id events]
    apply List.map_congr_left
    intro e _
    exact eventInfo_round e
  | offer spec => rfl
  | stopOffer spec => rfl
  | register spec t name => rfl
  | unregister spec t name => rfl
  | update spec t name => rfl
  | ack n =>
    show Message.ack (UInt32.ofNat (fromLe (le 4 n.toNat))) = _
    rw [fromLe_u32]

theorem wireSize_pos (msg : Message) : 0 < wireSize msg := by
  cases msg <;> simp only [wireSize] <;> omega

theorem serialize_ok (msg : Message) (h : Sendable msg) (buffer : Nat) (hs : wireSize msg ≤ buffer) :
    ∃ b, msg.serialize buffer = some b ∧ b.length = wireSize msg ∧
      ∃ room, ser msg.kind.ty msg.val room = some b := by
  obtain ⟨b, hb, hl⟩ := ser_ok _ _ (val_good msg h) (size msg.kind.ty msg.val) (Nat.le_refl _)
  have hp := wireSize_pos msg
  rw [val_size] at hl
  refine ⟨b, ?_, hl, _, hb⟩
  unfold Message.serialize serialize
  rw [if_neg (by rw [val_size]; omega), hb]
  dsimp only
  rw [if_neg (by intro h; subst h; simp at hl; omega)]

theorem deserialize_serialize (msg : Message) (h : Sendable msg) (buffer : Nat) (b : List UInt8)
    (hs : msg.serialize buffer = some b) (m : Nat → UInt8) (off len : Nat) (hm : Holds m off b) (hl : b.length ≤ len) :
    (deserialize msg.kind m off len).res = .ok msg b.length := by
  unfold Message.serialize serialize at hs
  split at hs
  · simp at hs
  · split at hs
    · simp at hs
    · rename_i c hc
      split at hs
      · simp at hs
      · simp only [Option.some.injEq] at hs
        subst hs
        obtain ⟨r, hd⟩ := de_ser _ _ (val_good msg h) _ c hc m off len hm hl
        unfold deserialize
        dsimp only
        rw [hd]
        dsimp only
        rw [ofVal_val]

theorem memOf_holds (junk : Nat → UInt8) (off : Nat) (b : List UInt8) : Holds (memOf junk off b) off b := by
  intro i hi
  simp only [memOf]
  rw [if_pos (by omega)]
  simp [hi]

theorem kindOfCode_code (k : Kind) : kindOfCode k.code = some k := by cases k <;> rfl

end Verif.GwSerial

namespace Verif.GwFramer
open Verif.GwSerial

theorem recv_nil {length : Nat} {cs cs' : List (List UInt8)} (hl : 0 < length) (h : recv length cs = ([], cs')) :
    cs.flatten = [] := by
  induction cs with
  | nil => rfl
  | cons c cs ih =>
    cases c with
    | nil => simp only [recv] at h; simpa using ih h
    | cons x c =>
      simp only [recv, Prod.mk.injEq] at h
      have := congrArg List.length h.1
      simp at this
      omega

theorem receiveAll_spec (n : Nat) (cs : List (List UInt8)) :
    (cs.flatten.length < n → receiveAll n cs = none) ∧
    (n ≤ cs.flatten.length → ∃ cs', receiveAll n cs = some (cs.flatten.take n, cs') ∧ cs'.flatten = cs.flatten.drop n) := by
  induction n using Nat.strongRecOn generalizing cs with
  | ind n ih =>
    rw [receiveAll]
    by_cases h0 : n = 0
    · subst h0
      simp only [if_true]
      exact ⟨by simp, fun _ => ⟨cs, by simp, by simp⟩⟩
    · rw [if_neg h0]
      split
      · rename_i x hx
        have := recv_nil (by omega) hx
        rw [this]
        simp
        omega
      · rename_i b g cs' hx
        obtain ⟨hf, hg⟩ := recv_total hx
        obtain ⟨i1, i2⟩ := ih (n - (b :: g).length) (by simp; omega) cs'
        rw [← hf]
        simp only [List.length_append, List.length_cons] at *
        constructor
        · intro hlt
          rw [i1 (by omega)]
        · intro hle
          obtain ⟨cs'', h1, h2⟩ := i2 (by omega)
          rw [h1]
          refine ⟨cs'', ?_, ?_⟩
          · simp only [Option.some.injEq, Prod.mk.injEq, and_true]
            rw [List.take_append, List.take_of_length_le (l := b :: g) (by simp; omega)]
            simp
          · rw [h2, List.drop_append, List.drop_of_length_le (l := b :: g) (by simp; omega)]
            simp

/-- The view of the stream alone: what ReceiveMessage does on the concatenation. -/
theorem receiveAll_eq (n : Nat) (cs : List (List UInt8)) :
    (receiveAll n cs).map (fun r => (r.1, r.2.flatten)) =
      if cs.flatten.length < n then none else some (cs.flatten.take n, cs.flatten.drop n) := by
  obtain ⟨h1, h2⟩ := receiveAll_spec n cs
  split
  · rw [h1 ‹_›]; rfl
  · obtain ⟨cs', h3, h4⟩ := h2 (by omega)
    rw [h3]; simp [h4]

theorem receiveMessage_congr (junk junk' : Nat → UInt8) (cs cs' : List (List UInt8)) (h : cs.flatten = cs'.flatten) :
    (receiveMessage junk cs).1 = (receiveMessage junk' cs').1 ∧
    (receiveMessage junk cs).2.flatten = (receiveMessage junk' cs').2.flatten := by
  unfold receiveMessage
  by_cases h9 : cs.flatten.length < 9
  · rw [(receiveAll_spec 9 cs).1 h9, (receiveAll_spec 9 cs').1 (by rw [← h]; exact h9)]
    simp
  · obtain ⟨c1, a1, b1⟩ := (receiveAll_spec 9 cs).2 (by omega)
    obtain ⟨c1', a1', b1'⟩ := (receiveAll_spec 9 cs').2 (by rw [← h]; omega)
    rw [a1, a1', ← h]
    dsimp only
    rw [← h, ← b1] at b1'
    split
    · exact ⟨rfl, b1'.symm⟩
    · generalize fromLe ((cs.flatten.take 9).drop 5) = size at *
      by_cases hs : c1.flatten.length < size
      · rw [(receiveAll_spec size c1).1 hs, (receiveAll_spec size c1').1 (by rw [b1']; exact hs)]
        simp
      · obtain ⟨c2, a2, b2⟩ := (receiveAll_spec size c1).2 (by omega)
        obtain ⟨c2', a2', b2'⟩ := (receiveAll_spec size c1').2 (by rw [b1']; omega)
        rw [a2, a2', b1']
        dsimp only
        rw [b1', ← b2] at b2'
        split
        · exact ⟨rfl, b2'.symm⟩
        · rename_i k hk
          split
          · exact ⟨rfl, b2'.symm⟩
          · rw [deserialize_congr k (memOf junk 0 (c1.flatten.take size)) (memOf junk' 0 (c1.flatten.take size)) 0 size
              (by
                intro a _ ha
                have hl : a < (c1.flatten.take size).length := by simp only [List.length_take]; omega
                rw [show a = 0 + a by omega, memOf_holds junk 0 _ a hl, memOf_holds junk' 0 _ a hl])]
            split
            · exact ⟨rfl, b2'.symm⟩
            · exact ⟨rfl, b2'.symm⟩

theorem receiveLoop_congr (junk junk' : Nat → UInt8) (n : Nat) (cs cs' : List (List UInt8))
    (h : cs.flatten = cs'.flatten) : receiveLoop junk n cs = receiveLoop junk' n cs' := by
  induction n generalizing cs cs' with
  | zero => rfl
  | succ n ih =>
    obtain ⟨h1, h2⟩ := receiveMessage_congr junk junk' cs cs' h
    simp only [receiveLoop]
    generalize receiveMessage junk cs = a at *
    generalize receiveMessage junk' cs' = b at *
    obtain ⟨a1, a2⟩ := a
    obtain ⟨b1, b2⟩ := b
    simp only at h1 h2
    subst h1
    cases a1 with
    | none => rfl
    | some m => simp only [ih a2 b2 h2]

theorem header_length (c : UInt8) (s : UInt32) (n : Nat) : (header c s n).length = 9 := by
  simp [header, le_length]

theorem receiveMessage_frame (junk : Nat → UInt8) (s : UInt32) (msg : Message) (hs : Sendable msg) (f r : List UInt8)
    (hf : frame s msg = some f) :
    (receiveMessage junk [f ++ r]).1 = some (s, msg) ∧ (receiveMessage junk [f ++ r]).2.flatten = r := by
  unfold frame at hf
  split at hf
  · simp at hf
  rename_i p hp
  simp only [Option.some.injEq] at hf
  subst hf
  have hsz : wireSize msg ≤ 1024 := by
    unfold Message.serialize serialize at hp
    split at hp
    · simp at hp
    · rw [← val_size]; omega
  obtain ⟨p', hp', hpl, _⟩ := serialize_ok msg hs 1024 hsz
  rw [hp] at hp'
  simp only [Option.some.injEq] at hp'
  subst hp'
  have hpos := wireSize_pos msg
  unfold receiveMessage
  obtain ⟨c1, a1, b1⟩ := (receiveAll_spec 9 [header msg.kind.code s p.length ++ p ++ r]).2 (by
    simp only [List.flatten_cons, List.flatten_nil, List.length_append, header_length]; omega)
  rw [a1]
  dsimp only
  have ht : (([header msg.kind.code s p.length ++ p ++ r] : List (List UInt8)).flatten).take 9 =
      header msg.kind.code s p.length := by
    simp only [List.flatten_cons, List.flatten_nil, List.append_nil, List.append_assoc]
    rw [List.take_append, List.take_of_length_le (by rw [header_length]; omega), header_length]
    simp
  have hd : (([header msg.kind.code s p.length ++ p ++ r] : List (List UInt8)).flatten).drop 9 = p ++ r := by
    simp only [List.flatten_cons, List.flatten_nil, List.append_nil, List.append_assoc]
    rw [List.drop_append, List.drop_of_length_le (by rw [header_length]; omega), header_length]
    simp
  rw [hd] at b1
  rw [ht]
  have h5 : (header msg.kind.code s p.length).drop 5 = le 4 p.length := by
    simp [header, List.drop_append, le_length]
  have h14 : ((header msg.kind.code s p.length).drop 1).take 4 = le 4 s.toNat := by
    simp [header, List.take_append, le_length]
  have h0 : (header msg.kind.code s p.length).getD 0 0 = msg.kind.code := rfl
  have hsize : fromLe (le 4 p.length) = p.length := by
    rw [fromLe_le]; exact Nat.mod_eq_of_lt (by omega)
  rw [h5, hsize, h14, h0, kindOfCode_code, fromLe_u32]
  rw [if_neg (by omega)]
  obtain ⟨c2, a2, b2⟩ := (receiveAll_spec p.length c1).2 (by rw [b1]; simp)
  rw [a2, b1]
  dsimp only
  rw [if_neg (by omega)]
  have htake : (p ++ r).take p.length = p := by simp
  rw [htake, deserialize_serialize msg hs 1024 p hp _ 0 p.length (memOf_holds junk 0 p) (Nat.le_refl _)]
  rw [b1] at b2
  exact ⟨rfl, by simpa using b2⟩

theorem receiveLoop_stream (junk : Nat → UInt8) (ms : List (UInt32 × Message)) (hs : ∀ m ∈ ms, Sendable m.2)
    (st : List UInt8) (h : stream ms = some st) (n : Nat) (hn : ms.length < n) (cs : List (List UInt8))
    (hc : cs.flatten = st) : receiveLoop junk n cs = ms := by
  induction ms generalizing st n cs with
  | nil =>
    simp only [stream, Option.some.injEq] at h
    subst h
    obtain ⟨n, rfl⟩ : ∃ k, n = k + 1 := ⟨n - 1, by simp at hn; omega⟩
    rw [receiveLoop_congr junk junk (n + 1) cs [] (by simpa using hc)]
    simp [receiveLoop, receiveMessage, receiveAll, recv]
  | cons x ms ih =>
    obtain ⟨s, msg⟩ := x
    simp only [stream] at h
    split at h
    · rename_i f r hf hr
      simp only [Option.some.injEq] at h
      subst h
      obtain ⟨n, rfl⟩ : ∃ k, n = k + 1 := ⟨n - 1, by omega⟩
      rw [receiveLoop_congr junk junk (n + 1) cs [f ++ r] (by simpa using hc)]
      obtain ⟨h1, h2⟩ := receiveMessage_frame junk s msg (hs _ (List.mem_cons_self)) f r hf
      simp only [receiveLoop]
      generalize receiveMessage junk [f ++ r] = y at *
      obtain ⟨y1, y2⟩ := y
      simp only at h1 h2
      subst h1
      simp only
      rw [ih (fun m hm => hs m (List.mem_cons_of_mem _ hm)) r hr n (by simp at hn; omega) y2 h2]
    · simp at h

theorem sendAll_spec (data : List UInt8) (counts : List Nat) :
    ((sendAll data counts).2 = true → (sendAll data counts).1 = data) ∧ (sendAll data counts).1 <+: data := by
  induction counts generalizing data with
  | nil => simp [sendAll]
  | cons n ns ih =>
    simp only [sendAll]
    split
    · rename_i h
      simp at h
      simp [h]
    · split
      · simp
      · obtain ⟨i1, i2⟩ := ih (data.drop n)
        constructor
        · intro h
          dsimp only at h ⊢
          rw [i1 h, List.take_append_drop]
        · dsimp only
          obtain ⟨t, ht⟩ := i2
          exact ⟨t, by rw [List.append_assoc, ht, List.take_append_drop]⟩

end Verif.GwFramer
