import Verif.Proofs.UnixWrite

namespace Verif.Demo.C34
open Verif.UnixFrame Verif.UnixWrite Verif.UnixWriteSpec

/-- Two threads send at the same time; one call is cut off before anything is stored. -/
def busy : List Op := [.begin 0 (0, [1, 2]), .begin 1 (1, []), .write 1 0, .begin 1 (1, [3]), .write 0 1, .cut 1, .begin 1 (0, [4]), .write 1 2]

/-- One message is stored in pieces. -/
def pieces : List Op := [.begin 0 (0, [1, 2]), .begin 1 (1, []), .write 0 2, .write 0 2, .write 0 1, .write 1 3]

theorem pieces_mid (n : Nat) (hn : n < 6) (u : Nat) (h : Midway (run 3 start (pieces.take n)) u) : u = 0 ∧ n ≠ 5 := by
  obtain ⟨m, i, h, hp⟩ := h
  match n, u, hn with
  | 0, _, _ => cases h
  | 1, 0, _ => cases h; cases hp
  | 1, u + 1, _ => cases h
  | 2, 0, _ => exact ⟨rfl, by decide⟩
  | 2, 1, _ => cases h; cases hp
  | 2, u + 2, _ => cases h
  | 3, 0, _ => exact ⟨rfl, by decide⟩
  | 3, 1, _ => cases h; cases hp
  | 3, u + 2, _ => cases h
  | 4, 0, _ => cases h
  | 4, 1, _ => cases h; cases hp
  | 4, u + 2, _ => cases h
  | 5, 0, _ => cases h
  | 5, 1, _ => cases h; cases hp
  | 5, u + 2, _ => cases h

theorem pieces_calm : Undisturbed 3 pieces := by
  intro pre o post e
  have hn : pre.length < 6 := by have := congrArg List.length e; simp [pieces] at this; omega
  have hp : pre = pieces.take pre.length := by rw [e]; simp
  have ho : pieces[pre.length]? = some o := by rw [e]; simp
  rw [hp]
  generalize pre.length = n at *
  cases o with
  | begin t m => trivial
  | cut t =>
    exfalso
    match n, hn with
    | 0, _ => cases ho
    | 1, _ => cases ho
    | 2, _ => cases ho
    | 3, _ => cases ho
    | 4, _ => cases ho
    | 5, _ => cases ho
  | write t k =>
    intro u hu
    have := pieces_mid n hn u hu
    match n, hn with
    | 0, _ => cases ho
    | 1, _ => cases ho
    | 2, _ => cases ho; exact this.1
    | 3, _ => cases ho; exact this.1
    | 4, _ => cases ho; exact this.1
    | 5, _ => exact absurd rfl this.2

end Verif.Demo.C34

namespace Verif.Props.C34
open Verif.UnixFrame Verif.UnixWrite Verif.UnixWriteSpec Verif.Demo.C34

/-- **C34.** Any number of threads send on a connection at the same time.  The receiver gets exactly the messages for which
success was returned, in the order of the returns.  _partial: every message with its header is small enough for the operating
system to store it at once; otherwise false (`interleaved_fails`, `cut_short_fails`). -/
theorem sent_together_partial (chunk cap : Nat) (hc : cap < 65536) (ops : List Op)
    (h : ∀ t m, Op.begin t m ∈ ops → m.2.length ≤ cap ∧ m.2.length + 3 ≤ chunk) :
    receiveAll cap (run chunk start ops).bytes = (sent (run chunk start ops), .epipe) := by
  have hb := (inv_run (undisturbed_small fun t m hm => (h t m hm).2)).none (never_midway fun t m hm => (h t m hm).2)
  rw [hb]
  have := receiveAll_stream cap (sent (run chunk start ops)) [] (by
    intro m hm
    obtain ⟨e, he, rfl⟩ := List.mem_map.1 hm
    have := (h e.1 e.2.1 (begun_run ((acc_run chunk ops).done e (List.mem_filter.1 he).1))).1
    rw [Nat.mod_eq_of_lt hc]; omega)
  rw [List.append_nil, receiveAll_nil] at this
  simpa using this

example : (∀ t m, Op.begin t m ∈ busy → m.2.length ≤ 4 ∧ m.2.length + 3 ≤ 5) ∧
    sent (run 5 start busy) = [(1, []), (0, [1, 2]), (0, [4])] := by
  refine ⟨?_, by decide +kernel⟩
  intro t m h
  simp only [busy, List.mem_cons, Op.begin.injEq, List.not_mem_nil, or_false, reduceCtorEq, false_or] at h
  rcases h with ⟨_, rfl⟩ | ⟨_, rfl⟩ | ⟨_, rfl⟩ | ⟨_, rfl⟩ <;> simp

/-- **C34.** The same for messages of any size that the operating system stores in pieces of any size.  _partial: no thread
writes while another one is midway, and no call is cut short midway. -/
theorem undisturbed_partial (chunk cap : Nat) (hc : cap < 65536) (ops : List Op)
    (h : ∀ t m, Op.begin t m ∈ ops → m.2.length ≤ cap) (hu : Undisturbed chunk ops) (hm : ∀ t, ¬ Midway (run chunk start ops) t) :
    receiveAll cap (run chunk start ops).bytes = (sent (run chunk start ops), .epipe) := by
  rw [(inv_run hu).none hm]
  have := receiveAll_stream cap (sent (run chunk start ops)) [] (by
    intro m hm
    obtain ⟨e, he, rfl⟩ := List.mem_map.1 hm
    have := h e.1 e.2.1 (begun_run ((acc_run chunk ops).done e (List.mem_filter.1 he).1))
    rw [Nat.mod_eq_of_lt hc]; omega)
  rw [List.append_nil, receiveAll_nil] at this
  simpa using this

example : (run 2 start pieces).done = [(0, (0, [1, 2]), true), (1, (1, []), true)] ∧ (∀ t, ¬ Midway (run 3 start pieces) t) ∧
    Undisturbed 3 pieces ∧ Midway (run 3 start (pieces.take 3)) 0 := by
  refine ⟨by decide +kernel, ?_, pieces_calm, ⟨_, _, rfl, by decide⟩⟩
  rintro t ⟨m, i, h, _⟩
  match t with
  | 0 => cases h
  | 1 => cases h
  | t + 2 => cases h

/-- **C34.** Whatever happens, the calls of each thread return in the order in which they are made. -/
theorem in_order (chunk : Nat) (ops : List Op) (t : Nat) :
    calls (run chunk start ops) t = ((run chunk start ops).begun.filter (·.1 == t)).map (·.2) := (acc_run chunk ops).calls t

example : calls (run 5 start busy) 1 = [(1, []), (1, [3]), (0, [4])] := by decide +kernel

/-- **C34.** A call that nobody disturbs returns success. -/
theorem call_returns (chunk : Nat) (ops : List Op) (t : Nat) (m : Msg) (i : Nat) (h : (run chunk start ops).running t = some (m, i)) :
    ∃ n, (run chunk start (ops ++ List.replicate n (.write t 1))).done = (run chunk start ops).done ++ [(t, m, true)] := by
  have key : ∀ (d i : Nat) (s : St), s.running t = some (m, i) → (frame m).length - i ≤ d →
      ∃ n, (run chunk s (List.replicate n (.write t 1))).done = s.done ++ [(t, m, true)] := by
    intro d
    induction d with
    | zero =>
      intro i s h hd
      refine ⟨1, ?_⟩
      show (step chunk s (.write t 1)).done = _
      unfold step; dsimp only; rw [h]; dsimp only; rw [if_neg (by omega)]
    | succ d ih =>
      intro i s h hd
      by_cases hlt : i + piece chunk ((frame m).length - i) 1 < (frame m).length
      · have hp := piece_pos (k := chunk) (n := 1) (l := (frame m).length - i) (by omega)
        obtain ⟨n, hn⟩ := ih (i + piece chunk ((frame m).length - i) 1) (step chunk s (.write t 1))
          (by unfold step; dsimp only; rw [h]; dsimp only; rw [if_pos hlt]; exact put_same _ _ _) (by omega)
        refine ⟨n + 1, ?_⟩
        rw [List.replicate_succ]
        show (run chunk (step chunk s (.write t 1)) _).done = _
        rw [hn]
        unfold step; dsimp only; rw [h]; dsimp only; rw [if_pos hlt]
      · refine ⟨1, ?_⟩
        show (step chunk s (.write t 1)).done = _
        unfold step; dsimp only; rw [h]; dsimp only; rw [if_neg hlt]
  obtain ⟨n, hn⟩ := key _ i _ h (Nat.le_refl _)
  exact ⟨n, by rw [run_append]; exact hn⟩

example : (run 3 start [.begin 0 (0, [1, 2]), .write 0 2]).running 0 = some ((0, [1, 2]), 2) := by decide +kernel

/-- **C34. Violated.** Whatever the operating system stores at once (up to 65535 bytes): a client sends a message of that
size while another thread sends an empty one.  Both calls return success; the receiver gets one message that nobody sent. -/
theorem interleaved_fails (chunk cap : Nat) (h0 : 3 ≤ chunk) (h1 : chunk ≤ cap) (h2 : cap < 65536) :
    let s := run chunk start [.begin 0 (0, List.replicate chunk 7), .begin 1 (1, []), .write 0 chunk, .write 1 0, .write 0 0]
    s.done = [(1, (1, []), true), (0, (0, List.replicate chunk 7), true)] ∧
    (receiveAll cap s.bytes).1 = [(0, List.replicate (chunk - 3) 7 ++ [1, 0, 0])] := by
  have hl : (frame (0, List.replicate chunk 7)).length = chunk + 3 := by rw [frame_length]; simp
  obtain ⟨s1, e1⟩ : ∃ x, x = step chunk start (.begin 0 (0, List.replicate chunk 7)) := ⟨_, rfl⟩
  obtain ⟨s2, e2⟩ : ∃ x, x = step chunk s1 (.begin 1 (1, [])) := ⟨_, rfl⟩
  obtain ⟨s3, e3⟩ : ∃ x, x = step chunk s2 (.write 0 chunk) := ⟨_, rfl⟩
  obtain ⟨s4, e4⟩ : ∃ x, x = step chunk s3 (.write 1 0) := ⟨_, rfl⟩
  intro s
  have e : s = step chunk s4 (.write 0 0) := by rw [e4, e3, e2, e1]; rfl
  rw [step_begin rfl] at e1
  rw [step_begin (by rw [e1]; rfl)] at e2
  rw [step_part (p := chunk) (m := (0, List.replicate chunk 7)) (i := 0) (by rw [e2, e1]; rfl) (by
      unfold piece; rw [hl, if_neg (by omega)]; omega) (by omega)] at e3
  rw [step_last (m := (1, [])) (i := 0) (by rw [e3, e2, e1]; rfl) (by rw [frame_length]; simpa using h0) (by rw [frame_length]; simp)] at e4
  rw [step_last (m := (0, List.replicate chunk 7)) (i := chunk) (by rw [e4, e3]; simp [put]) (by omega) (by omega)] at e
  subst e1 e2 e3 e4
  rw [e]
  refine ⟨rfl, ?_⟩
  dsimp only
  rw [(frame_end 0 chunk).resolve_right (by omega), List.drop_zero, List.drop_zero]
  show (receiveAll cap (([] ++ _ ++ [1, 0, 0]) ++ [7, 7, 7])).1 = _
  rw [List.nil_append, frame_swap 0 chunk h0 [1, 0, 0] rfl,
    receiveAll_ok (receive_frame cap _ _ (by simp; omega) (by rw [Nat.mod_eq_of_lt h2]; simp; omega)), sevens]

/-- **C34. Violated.** A signal comes after the first piece of a message.  The call returns success, and the receiver takes
parts of the next message for messages that nobody sent. -/
theorem cut_short_fails (chunk cap : Nat) (h0 : 5 ≤ chunk) (h1 : chunk ≤ cap) (h2 : cap < 65536) :
    let s := run chunk start [.begin 0 (0, List.replicate chunk 7), .write 0 chunk, .cut 0, .begin 0 (1, [0, 0]), .write 0 0]
    s.done = [(0, (0, List.replicate chunk 7), true), (0, (1, [0, 0]), true)] ∧
    (receiveAll cap s.bytes).1 = [(0, List.replicate (chunk - 3) 7 ++ [1, 2, 0]), (0, [])] := by
  have hl : (frame (0, List.replicate chunk 7)).length = chunk + 3 := by rw [frame_length]; simp
  obtain ⟨s1, e1⟩ : ∃ x, x = step chunk start (.begin 0 (0, List.replicate chunk 7)) := ⟨_, rfl⟩
  obtain ⟨s2, e2⟩ : ∃ x, x = step chunk s1 (.write 0 chunk) := ⟨_, rfl⟩
  obtain ⟨s3, e3⟩ : ∃ x, x = step chunk s2 (.cut 0) := ⟨_, rfl⟩
  obtain ⟨s4, e4⟩ : ∃ x, x = step chunk s3 (.begin 0 (1, [0, 0])) := ⟨_, rfl⟩
  intro s
  have e : s = step chunk s4 (.write 0 0) := by rw [e4, e3, e2, e1]; rfl
  rw [step_begin rfl] at e1
  rw [step_part (p := chunk) (m := (0, List.replicate chunk 7)) (i := 0) (by rw [e1]; rfl) (by
      unfold piece; rw [hl, if_neg (by omega)]; omega) (by omega)] at e2
  rw [step_cut (m := (0, List.replicate chunk 7)) (i := 0 + chunk) (by rw [e2]; simp [put])] at e3
  rw [step_begin (by rw [e3]; simp [put])] at e4
  rw [step_last (m := (1, [0, 0])) (i := 0) (by rw [e4]; simp [put]) (by rw [frame_length]; simpa using h0) (by rw [frame_length]; simp)] at e
  subst e1 e2 e3 e4
  rw [e]
  have hp : decide (0 < 0 + chunk) = true := by simp; omega
  refine ⟨by dsimp only; rw [hp]; rfl, ?_⟩
  dsimp only
  rw [List.drop_zero, List.drop_zero]
  show (receiveAll cap ([] ++ _ ++ ([1, 2, 0] ++ [0, 0]))).1 = _
  rw [List.nil_append, ← List.append_assoc, frame_swap 0 chunk (by omega) [1, 2, 0] rfl,
    receiveAll_ok (receive_frame cap _ _ (by simp; omega) (by rw [Nat.mod_eq_of_lt h2]; simp; omega)), zeros]

example : 5 ≤ 32768 ∧ 32768 ≤ 65000 ∧ 65000 < 65536 := by decide

/-- **C34.** A signal that comes while the payload of a message is received never makes the receiver take a wrong message: it gets the
message or an error. -/
theorem payload_cut_is_noticed (cap got2 : Nat) (m : Msg) (r : List UInt8) (h1 : m.2.length < 65536) (h2 : m.2.length ≤ cap % 65536) :
    receiveCut cap 3 got2 (frame m ++ r) = (.ok m, r) ∨ ∃ e, (receiveCut cap 3 got2 (frame m ++ r)).1 = .error e := by
  obtain ⟨c, p⟩ := m
  simp only at h1 h2
  have hs : (UInt8.ofNat (p.length % 65536 % 256)).toNat + 256 * (UInt8.ofNat (p.length % 65536 / 256)).toNat
      = p.length := by
    simp only [UInt8.toNat_ofNat']
    omega
  unfold frame receiveCut
  simp only [List.cons_append, List.take_succ_cons, List.take_zero, List.getD_cons_zero, List.getD_cons_succ, List.drop_succ_cons,
    List.drop_zero, hs]
  split
  · rename_i h0
    left
    rw [List.length_eq_zero_iff.1 h0]; rfl
  · rw [if_neg (by omega)]
    split
    · exact Or.inr ⟨_, rfl⟩
    · left; simp

/-- **C34. Violated.** A signal comes after the first byte of the header: the receiver gets an empty message that nobody sent, and takes
the rest of the frame for messages. -/
theorem header_cut_fails (cap got2 : Nat) (m : Msg) (r : List UInt8) :
    receiveCut cap 1 got2 (frame m ++ r) = (.ok (m.1, []), (frame m).tail ++ r) := rfl

example : (receiveCut 8 3 1 (frame (1, [5, 6]))).1 = .error .eio ∧ receiveCut 8 3 2 (frame (1, [5, 6])) = (.ok (1, [5, 6]), []) ∧
    (receiveAll 8 (frame (1, [0, 0])).tail).1 = [(2, []), (0, [])] := by
  refine ⟨rfl, rfl, ?_⟩
  rw [receiveAll_ok (show receive 8 (frame (1, [0, 0])).tail = (.ok (2, []), [0]) from rfl),
    receiveAll_ok (show receive 8 [0] = (.ok (0, []), []) from rfl), receiveAll_nil]

end Verif.Props.C34
