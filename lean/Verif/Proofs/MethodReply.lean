import Verif.Spec.MethodReply
import Verif.Proofs.GwSerial

namespace Verif.MethodReply
open Verif.GwSerial (le fromLe le_length fromLe_le)

theorem field_append_left (a b : List UInt8) (off k : Nat) (h : off + k ≤ a.length) : field (a ++ b) off k = field a off k := by
  unfold field
  rw [List.drop_append_of_le_length (by omega), List.take_append_of_le_length (by rw [List.length_drop]; omega)]

theorem field_append_right (a b : List UInt8) (off k : Nat) (h : a.length ≤ off) : field (a ++ b) off k = field b (off - a.length) k := by
  unfold field
  rw [List.drop_append, List.drop_eq_nil_of_le h, List.nil_append]

theorem field_at {l : List UInt8} {off k : Nat} (pre f post : List UInt8) (h : l = pre ++ f ++ post) (ho : pre.length = off)
    (hk : f.length = k) : field l off k = field f 0 k := by
  rw [h, List.append_assoc, field_append_right _ _ _ _ (Nat.le_of_eq ho), ho, Nat.sub_self,
    field_append_left _ _ _ _ (by omega)]

theorem field_le (k v : Nat) : field (le k v) 0 k = v % 256 ^ k := by
  unfold field
  rw [List.drop_zero, List.take_of_length_le (by rw [le_length]; exact Nat.le_refl _), fromLe_le]

theorem decodeSub_encode {s : Skel} {p : Proxy} {pad : List UInt8} (hpad : 2 ≤ pad.length) :
    decodeSub (le 2 s.service.toNat ++ le 2 s.inst.toNat ++ le 4 p.app.toNat ++ le 2 p.counter.toNat ++ pad.take 2) = some (s, p) := by
  have h1 : (le 2 s.service.toNat).length = 2 := le_length ..
  have h2 : (le 2 s.inst.toNat).length = 2 := le_length ..
  have h3 : (le 4 p.app.toNat).length = 4 := le_length ..
  have h4 : (le 2 p.counter.toNat).length = 2 := le_length ..
  have f1 := field_le 2 s.service.toNat
  have f2 := field_le 2 s.inst.toNat
  have f3 := field_le 4 p.app.toNat
  have f4 := field_le 2 p.counter.toNat
  generalize le 2 s.service.toNat = a1 at *
  generalize le 2 s.inst.toNat = a2 at *
  generalize le 4 p.app.toNat = a3 at *
  generalize le 2 p.counter.toNat = a4 at *
  unfold decodeSub
  rw [if_pos (by simp [h1, h2, h3, h4]; omega)]
  have g1 : field (a1 ++ a2 ++ a3 ++ a4 ++ pad.take 2) 0 2 = s.service.toNat % 256 ^ 2 := by
    rw [field_append_left _ _ _ _ (by simp [h1, h2, h3, h4]), field_append_left _ _ _ _ (by simp [h1, h2, h3]),
      field_append_left _ _ _ _ (by simp [h1, h2]), field_append_left _ _ _ _ (by simp [h1]), f1]
  have g2 : field (a1 ++ a2 ++ a3 ++ a4 ++ pad.take 2) 2 2 = s.inst.toNat % 256 ^ 2 := by
    rw [field_append_left _ _ _ _ (by simp [h1, h2, h3, h4]), field_append_left _ _ _ _ (by simp [h1, h2, h3]),
      field_append_left _ _ _ _ (by simp [h1, h2]), field_append_right _ _ _ _ (by simp [h1]), h1, f2]
  have g3 : field (a1 ++ a2 ++ a3 ++ a4 ++ pad.take 2) 4 4 = p.app.toNat % 256 ^ 4 := by
    rw [field_append_left _ _ _ _ (by simp [h1, h2, h3, h4]), field_append_left _ _ _ _ (by simp [h1, h2, h3]),
      field_append_right _ _ _ _ (by simp [h1, h2]), List.length_append, h1, h2, f3]
  have g4 : field (a1 ++ a2 ++ a3 ++ a4 ++ pad.take 2) 8 2 = p.counter.toNat % 256 ^ 2 := by
    rw [field_append_left _ _ _ _ (by simp [h1, h2, h3, h4]), field_append_right _ _ _ _ (by simp [h1, h2, h3]),
      List.length_append, List.length_append, h1, h2, h3, f4]
  rw [g1, g2, g3, g4]
  have := s.service.isLt; have := s.inst.isLt; have := p.app.isLt; have := p.counter.isLt
  rw [Nat.mod_eq_of_lt (by omega : s.service.toNat < 256 ^ 2), Nat.mod_eq_of_lt (by omega : s.inst.toNat < 256 ^ 2),
    Nat.mod_eq_of_lt (by omega : p.app.toNat < 256 ^ 4), Nat.mod_eq_of_lt (by omega : p.counter.toNat < 256 ^ 2)]
  simp

theorem decodeCall_encode {m : ProxyMethod} {pos : BitVec 64} {pad : List UInt8} (hpad : 7 ≤ pad.length) :
    decodeCall (le 4 m.proxy.app.toNat ++ le 2 m.proxy.counter.toNat ++ pad.take 2 ++ le 2 m.method.toNat ++
      le 1 m.kind.toNat ++ (pad.drop 2).take 5 ++ le 8 pos.toNat) = some (m, pos) := by
  have h1 : (le 4 m.proxy.app.toNat).length = 4 := le_length ..
  have h2 : (le 2 m.proxy.counter.toNat).length = 2 := le_length ..
  have h3 : (le 2 m.method.toNat).length = 2 := le_length ..
  have h4 : (le 1 m.kind.toNat).length = 1 := le_length ..
  have h5 : (le 8 pos.toNat).length = 8 := le_length ..
  have p1 : (pad.take 2).length = 2 := by rw [List.length_take]; omega
  have p2 : ((pad.drop 2).take 5).length = 5 := by rw [List.length_take, List.length_drop]; omega
  have f1 := field_le 4 m.proxy.app.toNat
  have f2 := field_le 2 m.proxy.counter.toNat
  have f3 := field_le 2 m.method.toNat
  have f4 := field_le 1 m.kind.toNat
  have f5 := field_le 8 pos.toNat
  generalize le 4 m.proxy.app.toNat = a1 at *
  generalize le 2 m.proxy.counter.toNat = a2 at *
  generalize le 2 m.method.toNat = a3 at *
  generalize le 1 m.kind.toNat = a4 at *
  generalize le 8 pos.toNat = a5 at *
  generalize pad.take 2 = q1 at *
  generalize (pad.drop 2).take 5 = q2 at *
  unfold decodeCall
  rw [if_pos (by simp [h1, h2, h3, h4, h5, p1, p2])]
  have g1 : field (a1 ++ a2 ++ q1 ++ a3 ++ a4 ++ q2 ++ a5) 0 4 = m.proxy.app.toNat % 256 ^ 4 := by
    rw [field_at ([]) a1 (a2 ++ q1 ++ a3 ++ a4 ++ q2 ++ a5) (by simp) (by simp [h1, h2, h3, h4, p1, p2]) h1]; exact f1
  have g2 : field (a1 ++ a2 ++ q1 ++ a3 ++ a4 ++ q2 ++ a5) 4 2 = m.proxy.counter.toNat % 256 ^ 2 := by
    rw [field_at (a1) a2 (q1 ++ a3 ++ a4 ++ q2 ++ a5) (by simp) (by simp [h1, h2, h3, h4, p1, p2]) h2]; exact f2
  have g3 : field (a1 ++ a2 ++ q1 ++ a3 ++ a4 ++ q2 ++ a5) 8 2 = m.method.toNat % 256 ^ 2 := by
    rw [field_at (a1 ++ a2 ++ q1) a3 (a4 ++ q2 ++ a5) (by simp) (by simp [h1, h2, h3, h4, p1, p2]) h3]; exact f3
  have g4 : field (a1 ++ a2 ++ q1 ++ a3 ++ a4 ++ q2 ++ a5) 10 1 = m.kind.toNat % 256 ^ 1 := by
    rw [field_at (a1 ++ a2 ++ q1 ++ a3) a4 (q2 ++ a5) (by simp) (by simp [h1, h2, h3, h4, p1, p2]) h4]; exact f4
  have g5 : field (a1 ++ a2 ++ q1 ++ a3 ++ a4 ++ q2 ++ a5) 16 8 = pos.toNat % 256 ^ 8 := by
    rw [field_at (a1 ++ a2 ++ q1 ++ a3 ++ a4 ++ q2) a5 ([]) (by simp) (by simp [h1, h2, h3, h4, p1, p2]) h5]; exact f5
  rw [g1, g2, g3, g4, g5]
  have := m.proxy.app.isLt; have := m.proxy.counter.isLt; have := m.method.isLt; have := m.kind.isLt; have := pos.isLt
  rw [Nat.mod_eq_of_lt (by omega : m.proxy.app.toNat < 256 ^ 4), Nat.mod_eq_of_lt (by omega : m.proxy.counter.toNat < 256 ^ 2),
    Nat.mod_eq_of_lt (by omega : m.method.toNat < 256 ^ 2), Nat.mod_eq_of_lt (by omega : m.kind.toNat < 256 ^ 1),
    Nat.mod_eq_of_lt (by omega : pos.toNat < 256 ^ 8)]
  simp

/-- The errors the callback itself reports are 1 to 7 if the handlers keep to them. -/
theorem messageCallback_defined {s : Server} (hs : HandlersReportDefinedErrors s) {uid pid : Nat} {msg : List UInt8} {e : Nat}
    (h : (messageCallback s uid pid msg).1 = some e) : 1 ≤ e ∧ e ≤ 7 := by
  have key : ∀ {r : Res} {i : Invocation} {e : Nat}, s.outcome i = some r → r = some e → 1 ≤ e ∧ e ≤ 7 := by
    intro r i e h1 h2; rw [h2] at h1; exact hs i e h1
  unfold messageCallback at h
  split at h
  · (cases h; decide)
  · split at h
    · split at h
      · (cases h; decide)
      · unfold callSubscribe at h
        split at h
        · (cases h; decide)
        · split at h
          · (cases h; decide)
          · split at h
            · (cases h; decide)
            · next hr => exact key hr h
    · split at h
      · split at h
        · (cases h; decide)
        · unfold callUnsubscribe at h
          split at h
          · simp at h
          · split at h
            · simp at h
            · next hr => exact key hr h
      · split at h
        · split at h
          · (cases h; decide)
          · unfold callMethod at h
            split at h
            · (cases h; decide)
            · split at h
              · (cases h; decide)
              · split at h
                · (cases h; decide)
                · simp at h
        · (cases h; decide)

theorem recoverable_iff {e : Nat} (h1 : 1 ≤ e) (h7 : e ≤ 7) : recoverable e = some (decide (Recoverable e)) := by
  have : e = 1 ∨ e = 2 ∨ e = 3 ∨ e = 4 ∨ e = 5 ∨ e = 6 ∨ e = 7 := by omega
  unfold Recoverable
  rcases this with rfl | rfl | rfl | rfl | rfl | rfl | rfl <;> decide

theorem onMessage_live {s : Server} (hs : HandlersReportDefinedErrors s) (uid pid : Nat) (msg : List UInt8) (sent : Bool) :
    onMessage true sent s uid pid msg =
      if sent = false then .returned [] true (messageCallback s uid pid msg).2
      else .returned [le 4 ((messageCallback s uid pid msg).1.getD 0)]
        (match (messageCallback s uid pid msg).1 with | none => false | some e => decide (¬ Recoverable e))
        (messageCallback s uid pid msg).2 := by
  unfold onMessage
  rw [if_neg (by simp)]
  cases hm : messageCallback s uid pid msg with
  | mk res calls =>
    dsimp only
    cases res with
    | none => rfl
    | some e =>
      obtain ⟨h1, h7⟩ := messageCallback_defined hs (by rw [hm] : (messageCallback s uid pid msg).1 = some e)
      dsimp only
      rw [recoverable_iff h1 h7]
      have he : encodeReply (some e) = some (le 4 e) := by
        exact if_pos ⟨by omega, by show e < 8; omega⟩
      simp only [he, Option.map_some, Option.getD_some]
      by_cases hr : Recoverable e <;> simp [hr]

theorem le4_small {n : Nat} (h : n < 8) : le 4 n = Reply n := by
  have : n = 0 ∨ n = 1 ∨ n = 2 ∨ n = 3 ∨ n = 4 ∨ n = 5 ∨ n = 6 ∨ n = 7 := by omega
  rcases this with rfl | rfl | rfl | rfl | rfl | rfl | rfl | rfl <;> decide

theorem le_fromLe (l : List UInt8) : le l.length (fromLe l) = l := by
  induction l with
  | nil => rfl
  | cons b l ih =>
    have hb := b.toNat_lt
    have h1 : (b.toNat + 256 * fromLe l) % 256 = b.toNat := by omega
    have h2 : (b.toNat + 256 * fromLe l) / 256 = fromLe l := by omega
    show UInt8.ofNat ((b.toNat + 256 * fromLe l) % 256) :: le l.length ((b.toNat + 256 * fromLe l) / 256) = b :: l
    rw [h1, h2, ih]
    simp

theorem fromLe_lt (l : List UInt8) : fromLe l < 256 ^ l.length := by
  induction l with
  | nil => simp [fromLe]
  | cons b l ih =>
    have hb := b.toNat_lt
    simp only [fromLe, List.length_cons, Nat.pow_succ]
    omega

/-- A field read as a number and written back. -/
theorem le_field (b : List UInt8) (off k : Nat) (h : off + k ≤ b.length) (w : Nat) (hw : 2 ^ w = 256 ^ k) :
    le k (BitVec.ofNat w (field b off k)).toNat = (b.drop off).take k := by
  have hl : ((b.drop off).take k).length = k := by rw [List.length_take, List.length_drop]; omega
  have h1 := fromLe_lt ((b.drop off).take k)
  rw [hl] at h1
  unfold field
  rw [BitVec.toNat_ofNat, hw, Nat.mod_eq_of_lt h1]
  have := le_fromLe ((b.drop off).take k)
  rw [hl] at this
  exact this

theorem cut (l : List UInt8) (i j : Nat) : l.drop i = (l.drop i).take j ++ l.drop (i + j) := by
  rw [← List.drop_drop, List.take_append_drop]

theorem encode_of_decodeSub {b : List UInt8} {s : Skel} {p : Proxy} (h : decodeSub b = some (s, p)) :
    ∃ pad : List UInt8, pad.length = 7 ∧
      b = le 2 s.service.toNat ++ le 2 s.inst.toNat ++ le 4 p.app.toNat ++ le 2 p.counter.toNat ++ pad.take 2 := by
  unfold decodeSub at h
  split at h
  · next hlen =>
    injection h with h
    injection h with hs hp
    subst hs hp
    refine ⟨b.drop 10 ++ [0, 0, 0, 0, 0], by simp [hlen], ?_⟩
    dsimp only
    rw [le_field b 0 2 (by omega) 16 (by decide), le_field b 2 2 (by omega) 16 (by decide), le_field b 4 4 (by omega) 32 (by decide),
      le_field b 8 2 (by omega) 16 (by decide)]
    have : (b.drop 10 ++ [0, 0, 0, 0, 0]).take 2 = b.drop 10 := by
      rw [List.take_append_of_le_length (by simp [hlen]), List.take_of_length_le (by simp [hlen])]
    rw [this]
    have c1 := cut b 0 2; have c2 := cut b 2 2; have c3 := cut b 4 4; have c4 := cut b 8 2
    simp only [List.append_assoc]
    rw [← c4, ← c3, ← c2, ← c1]; rfl
  · cases h

theorem encode_of_decodeCall {b : List UInt8} {m : ProxyMethod} {pos : BitVec 64} (h : decodeCall b = some (m, pos)) :
    ∃ pad : List UInt8, pad.length = 7 ∧
      b = le 4 m.proxy.app.toNat ++ le 2 m.proxy.counter.toNat ++ pad.take 2 ++ le 2 m.method.toNat ++
        le 1 m.kind.toNat ++ (pad.drop 2).take 5 ++ le 8 pos.toNat := by
  unfold decodeCall at h
  split at h
  · next hlen =>
    injection h with h
    injection h with hs hp
    subst hs hp
    refine ⟨(b.drop 6).take 2 ++ (b.drop 11).take 5, by simp [hlen], ?_⟩
    dsimp only
    rw [le_field b 0 4 (by omega) 32 (by decide), le_field b 4 2 (by omega) 16 (by decide), le_field b 8 2 (by omega) 16 (by decide),
      le_field b 10 1 (by omega) 8 (by decide), le_field b 16 8 (by omega) 64 (by decide)]
    have e1 : ((b.drop 6).take 2 ++ (b.drop 11).take 5).take 2 = (b.drop 6).take 2 := by
      rw [List.take_append_of_le_length (by simp [hlen]), List.take_of_length_le (by simp [hlen])]
    have e2 : (((b.drop 6).take 2 ++ (b.drop 11).take 5).drop 2).take 5 = (b.drop 11).take 5 := by
      rw [List.drop_append, List.drop_eq_nil_of_le (by simp [hlen]), List.nil_append, List.take_of_length_le (by simp [hlen])]
      simp [hlen]
    rw [e1, e2]
    have c1 := cut b 0 4; have c2 := cut b 4 2; have c3 := cut b 6 2; have c4 := cut b 8 2; have c5 := cut b 10 1
    have c6 := cut b 11 5; have c7 : (b.drop 16).take 8 = b.drop 16 := List.take_of_length_le (by simp [hlen])
    simp only [List.append_assoc]
    rw [c7, ← c6, ← c5, ← c4, ← c3, ← c2, ← c1]; rfl
  · cases h

theorem messageCallback_malformed {s : Server} {uid pid : Nat} {msg : List UInt8} (hm : Malformed msg) :
    (messageCallback s uid pid msg).2 = [] ∧
      ((messageCallback s uid pid msg).1 = some kUnexpectedMessage ∨ (messageCallback s uid pid msg).1 = some kUnexpectedMessageSize) := by
  unfold messageCallback
  split
  · exact ⟨rfl, .inr rfl⟩
  · next t payload =>
    split
    · next ht =>
      split
      · exact ⟨rfl, .inr rfl⟩
      · next sk p hd =>
        obtain ⟨pad, hl, hb⟩ := encode_of_decodeSub hd
        exact absurd (by rw [hb, ht]; rfl) (hm pad (.subscribe sk p) hl)
    · split
      · next ht =>
        split
        · exact ⟨rfl, .inr rfl⟩
        · next sk p hd =>
          obtain ⟨pad, hl, hb⟩ := encode_of_decodeSub hd
          exact absurd (by rw [hb, ht]; rfl) (hm pad (.unsubscribe sk p) hl)
      · split
        · next ht =>
          split
          · exact ⟨rfl, .inr rfl⟩
          · next m pos hd =>
            obtain ⟨pad, hl, hb⟩ := encode_of_decodeCall hd
            exact absurd (by rw [hb, ht]; rfl) (hm pad (.call m pos) hl)
        · exact ⟨rfl, .inl rfl⟩

/-- What a request leads to. -/
def handle (s : Server) (uid pid : Nat) : Request → Res × List Invocation
  | .subscribe sk p => callSubscribe s sk p uid pid
  | .unsubscribe sk p => callUnsubscribe s sk p
  | .call m pos => callMethod s m pos uid

theorem messageCallback_encode (s : Server) (uid pid : Nat) (pad : List UInt8) (hpad : pad.length = 7) (r : Request) :
    messageCallback s uid pid (encode pad r) = handle s uid pid r := by
  cases r with
  | subscribe sk p =>
    simp only [encode, messageCallback]
    rw [if_pos trivial, decodeSub_encode (by omega)]; rfl
  | unsubscribe sk p =>
    simp only [encode, messageCallback]
    rw [if_neg (by decide), if_pos trivial, decodeSub_encode (by omega)]; rfl
  | call m pos =>
    simp only [encode, messageCallback]
    rw [if_neg (by decide), if_neg (by decide), if_pos trivial, decodeCall_encode (by omega)]; rfl

def closes : Res → Bool
  | none => false
  | some e => decide (¬ Recoverable e)

theorem onMessage_handle {s : Server} (hs : HandlersReportDefinedErrors s) {uid pid : Nat} {pad : List UInt8} (hpad : pad.length = 7)
    {r : Request} {res : Res} {calls : List Invocation} (h : handle s uid pid r = (res, calls)) :
    onMessage true true s uid pid (encode pad r) = .returned [Reply (res.getD 0)] (closes res) calls ∧
      ∀ e, res = some e → 1 ≤ e ∧ e ≤ 7 := by
  have h1 := onMessage_live hs uid pid (encode pad r) true
  rw [if_neg (by decide), messageCallback_encode s uid pid pad hpad r, h] at h1
  have hdef : ∀ e, res = some e → 1 ≤ e ∧ e ≤ 7 := fun e he =>
    messageCallback_defined hs (by rw [messageCallback_encode s uid pid pad hpad r, h]; exact he : (messageCallback s uid pid _).1 = some e)
  refine ⟨?_, hdef⟩
  rw [h1]
  dsimp only
  rw [le4_small (by
    cases res with
    | none => decide
    | some e => have := hdef e rfl; simp only [Option.getD_some]; omega)]
  cases res <;> rfl

theorem decodeErr_small {n : Nat} (h : n < 8) : decodeErr n = some (if n ≠ 0 then some n else none) := by
  unfold decodeErr; rw [if_pos h]

theorem decodeReply_Reply {n : Nat} (h : n < 8) : decodeReply (Reply n) = some (if n ≠ 0 then some n else none) := by
  unfold decodeReply
  rw [if_neg (by simp [Reply])]
  have : fromLe (Reply n) = n := by
    rw [← le4_small h, fromLe_le, Nat.mod_eq_of_lt (by omega)]
  rw [this, decodeErr_small h]

end Verif.MethodReply
