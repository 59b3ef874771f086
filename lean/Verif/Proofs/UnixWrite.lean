import Verif.Spec.UnixWrite
import Verif.Proofs.UnixFrame

namespace Verif.UnixWrite
open Verif.UnixFrame Verif.UnixWriteSpec

theorem run_append (k : Nat) (s : St) (a b : List Op) : run k s (a ++ b) = run k (run k s a) b := by
  unfold run; rw [List.foldl_append]

theorem put_same (f t x) : put f t x t = x := by unfold put; rw [if_pos rfl]
theorem put_ne {f t x u} (h : u ≠ t) : put f t x u = f u := by unfold put; rw [if_neg h]

/-- Induction over runs from the begin, with the last step at the end. -/
theorem run_ind (k : Nat) {P : List Op → Prop} (h0 : P [])
    (h : ∀ pre o, P pre → P (pre ++ [o])) (ops : List Op) : P ops := by
  have : ∀ (n : Nat) (l : List Op), l.length = n → P l := by
    intro n
    induction n with
    | zero => intro l hl; rw [List.length_eq_zero_iff.1 hl]; exact h0
    | succ n ih =>
      intro l hl
      have hne : l ≠ [] := by intro e; rw [e] at hl; cases hl
      rw [← List.dropLast_concat_getLast hne]
      exact h _ _ (ih _ (by rw [List.length_dropLast]; omega))
  exact this _ ops rfl

theorem frame_length (m : Msg) : (frame m).length = m.2.length + 3 := by simp [frame]

theorem piece_pos {k l n : Nat} (h : 0 < l) : 0 < piece k l n := by unfold piece; split <;> omega
theorem piece_le {k l n : Nat} (h : 0 < l) : piece k l n ≤ l := by unfold piece; split <;> omega

/-- What is stored is the frames of the messages sent and the begin of at most one more. -/
structure Inv (s : St) : Prop where
  short : ∀ t m i, s.running t = some (m, i) → i < (frame m).length
  one : ∀ t u, Midway s t → Midway s u → t = u
  none : (∀ t, ¬ Midway s t) → s.bytes = stream (sent s)
  some : ∀ t m i, s.running t = some (m, i) → 0 < i → s.bytes = stream (sent s) ++ (frame m).take i

theorem inv_start : Inv start :=
  ⟨(by intro t m i h; cases h), (by rintro t u ⟨m, i, h, _⟩; cases h), (fun _ => rfl), (by intro t m i h; cases h)⟩

theorem stream_append (a b : List Msg) : stream (a ++ b) = stream a ++ stream b := by simp [stream]

theorem sent_append (s : St) (r : Nat → Option (Msg × Nat)) (b g) (t m) :
    sent { bytes := b, running := r, done := s.done ++ [(t, m, true)], begun := g } = sent s ++ [m] := by
  simp [sent]

theorem sent_append_false (s : St) (r : Nat → Option (Msg × Nat)) (b g) (t m) :
    sent { bytes := b, running := r, done := s.done ++ [(t, m, false)], begun := g } = sent s := by
  simp [sent]

/-- Bytes stored before this step. -/
theorem before {s : St} (h : Inv s) {t m i} (ht : s.running t = some (m, i)) (hu : ∀ u, Midway s u → u = t) :
    s.bytes = stream (sent s) ++ (frame m).take i := by
  by_cases hi : 0 < i
  · exact h.some t m i ht hi
  · have : i = 0 := by omega
    subst this
    rw [h.none]
    · simp
    · intro u hm
      have := hu u hm
      subst this
      obtain ⟨m', i', h', hp⟩ := hm
      rw [ht] at h'; cases h'; omega

theorem inv_step {k : Nat} {s : St} (h : Inv s) (o : Op)
    (ho : match o with | .begin _ _ => True | .write t _ => ∀ u, Midway s u → u = t | .cut t => ¬ Midway s t) :
    Inv (step k s o) := by
  cases o with
  | begin t m =>
    unfold step; dsimp only
    split
    case h_2 => exact h
    case h_1 hn =>
      have hmid : ∀ u, Midway { s with running := put s.running t (some (m, 0)), begun := s.begun ++ [(t, m)] } u → Midway s u ∧ u ≠ t := by
        rintro u ⟨m', i', h', hp⟩
        dsimp only at h'
        by_cases e : u = t
        · subst e; rw [put_same] at h'; cases h'; omega
        · rw [put_ne e] at h'; exact ⟨⟨m', i', h', hp⟩, e⟩
      refine ⟨?_, ?_, ?_, ?_⟩
      · intro u m' i' h'
        dsimp only at h'
        by_cases e : u = t
        · subst e; rw [put_same] at h'; cases h'; rw [frame_length]; omega
        · rw [put_ne e] at h'; exact h.short u m' i' h'
      · intro u v hu hv; exact h.one u v (hmid u hu).1 (hmid v hv).1
      · intro hno
        refine h.none fun u hu => ?_
        by_cases e : u = t
        · subst e; obtain ⟨m', i', h', _⟩ := hu; rw [hn] at h'; cases h'
        · obtain ⟨m', i', h', hp⟩ := hu
          exact hno u ⟨m', i', by dsimp only; rw [put_ne e]; exact h', hp⟩
      · intro u m' i' h' hp
        have hu : Midway s u := (hmid u ⟨m', i', h', hp⟩).1
        have e := (hmid u ⟨m', i', h', hp⟩).2
        dsimp only at h'
        rw [put_ne e] at h'
        exact h.some u m' i' h' hp
  | write t n =>
    unfold step; dsimp only
    split
    case h_1 => exact h
    case h_2 m i ht =>
      have hb := before h ht ho
      have hsh := h.short t m i ht
      have hp := piece_pos (k := k) (n := n) (l := (frame m).length - i) (by omega)
      have hl := piece_le (k := k) (n := n) (l := (frame m).length - i) (by omega)
      have hst : s.bytes ++ ((frame m).drop i).take (piece k ((frame m).length - i) n) =
          stream (sent s) ++ (frame m).take (i + piece k ((frame m).length - i) n) := by
        rw [hb, List.append_assoc, List.take_add]
      generalize piece k ((frame m).length - i) n = p at *
      split
      · rename_i hlt
        have hmid : ∀ u, Midway { s with bytes := s.bytes ++ ((frame m).drop i).take p, running := put s.running t (some (m, i + p)) } u → u = t := by
          rintro u ⟨m', i', h', hp'⟩
          dsimp only at h'
          by_cases e : u = t
          · exact e
          · rw [put_ne e] at h'; exact ho u ⟨m', i', h', hp'⟩
        refine ⟨?_, ?_, ?_, ?_⟩
        · intro u m' i' h'
          dsimp only at h'
          by_cases e : u = t
          · subst e; rw [put_same] at h'; cases h'; exact hlt
          · rw [put_ne e] at h'; exact h.short u m' i' h'
        · intro u v hu hv; rw [hmid u hu, hmid v hv]
        · intro hno
          exact absurd ⟨m, i + p, put_same _ _ _, by omega⟩ (hno t)
        · intro u m' i' h' hp'
          have e := hmid u ⟨m', i', h', hp'⟩
          subst e
          dsimp only at h'
          rw [put_same] at h'; cases h'
          exact hst
      · rename_i hlt
        have hmid : ∀ u, ¬ Midway { s with bytes := s.bytes ++ ((frame m).drop i).take p, running := put s.running t none, done := s.done ++ [(t, m, true)] } u := by
          rintro u ⟨m', i', h', hp'⟩
          dsimp only at h'
          by_cases e : u = t
          · subst e; rw [put_same] at h'; cases h'
          · rw [put_ne e] at h'; exact e (ho u ⟨m', i', h', hp'⟩)
        refine ⟨?_, fun u _ hu _ => absurd hu (hmid u), fun _ => ?_, fun u m' i' h' hp' => absurd ⟨m', i', h', hp'⟩ (hmid u)⟩
        · intro u m' i' h'
          dsimp only at h'
          by_cases e : u = t
          · subst e; rw [put_same] at h'; cases h'
          · rw [put_ne e] at h'; exact h.short u m' i' h'
        · rw [sent_append, stream_append]
          dsimp only
          rw [hst, List.take_of_length_le (by omega)]
          simp [stream]
  | cut t =>
    unfold step; dsimp only
    split
    case h_1 => exact h
    case h_2 m i ht =>
      have hi : i = 0 := by
        by_cases hp : 0 < i
        · exact absurd ⟨m, i, ht, hp⟩ ho
        · omega
      subst hi
      have hmid : ∀ u, Midway { s with running := put s.running t none, done := s.done ++ [(t, m, decide (0 < 0))] } u ↔ Midway s u := by
        intro u
        constructor
        · rintro ⟨m', i', h', hp'⟩
          dsimp only at h'
          by_cases e : u = t
          · subst e; rw [put_same] at h'; cases h'
          · rw [put_ne e] at h'; exact ⟨m', i', h', hp'⟩
        · rintro ⟨m', i', h', hp'⟩
          by_cases e : u = t
          · subst e; exact absurd ⟨m', i', h', hp'⟩ ho
          · exact ⟨m', i', by dsimp only; rw [put_ne e]; exact h', hp'⟩
      refine ⟨?_, ?_, ?_, ?_⟩
      · intro u m' i' h'
        dsimp only at h'
        by_cases e : u = t
        · subst e; rw [put_same] at h'; cases h'
        · rw [put_ne e] at h'; exact h.short u m' i' h'
      · intro u v hu hv; exact h.one u v ((hmid u).1 hu) ((hmid v).1 hv)
      · intro hno
        rw [show decide (0 < 0) = false from rfl, sent_append_false]
        exact h.none fun u hu => hno u ((hmid u).2 hu)
      · intro u m' i' h' hp'
        rw [show decide (0 < 0) = false from rfl, sent_append_false]
        have hu := (hmid u).1 ⟨m', i', h', hp'⟩
        dsimp only at h'
        by_cases e : u = t
        · subst e; rw [put_same] at h'; cases h'
        · rw [put_ne e] at h'; exact h.some u m' i' h' hp'

theorem inv_run {k : Nat} {ops : List Op} (h : Undisturbed k ops) : Inv (run k start ops) := by
  revert h
  refine run_ind k (P := fun ops => Undisturbed k ops → Inv (run k start ops)) (fun _ => inv_start) ?_ ops
  intro pre o ih h
  rw [run_append]
  refine inv_step (ih ?_) o (h pre o [] rfl)
  intro p x q e
  exact h p x (q ++ [o]) (by rw [e]; simp)

/-- Calls and what was begun. -/
structure Acc (s : St) : Prop where
  calls : ∀ t, calls s t = (s.begun.filter (·.1 == t)).map (·.2)
  done : ∀ e ∈ s.done, (e.1, e.2.1) ∈ s.begun
  running : ∀ t m i, s.running t = some (m, i) → (t, m) ∈ s.begun

theorem acc_step {k : Nat} {s : St} (h : Acc s) (o : Op) : Acc (step k s o) := by
  have key : ∀ (s : St) (t m i b r), Acc s → s.running t = some (m, i) →
      Acc { s with bytes := b, running := put s.running t none, done := s.done ++ [(t, m, r)] } := by
    intro s t m i b r h ht
    refine ⟨fun u => ?_, ?_, ?_⟩
    · rw [← h.calls u]
      unfold UnixWriteSpec.calls
      dsimp only
      by_cases e : u = t
      · subst e; rw [put_same, ht]; simp
      · rw [put_ne e]
        have e' : (t == u) = false := by simpa using Ne.symm e
        simp [List.filter_append, e']
    · intro e he
      rcases List.mem_append.1 he with he | he
      · exact h.done e he
      · rw [List.mem_singleton] at he; subst he; exact h.running t m i ht
    · intro u m' i' h'
      dsimp only at h'
      by_cases e : u = t
      · subst e; rw [put_same] at h'; cases h'
      · rw [put_ne e] at h'; exact h.running u m' i' h'
  cases o with
  | begin t m =>
    unfold step; dsimp only
    split
    case h_2 => exact h
    case h_1 hn =>
      refine ⟨fun u => ?_, fun e he => List.mem_append_left _ (h.done e he), ?_⟩
      · have := h.calls u
        unfold UnixWriteSpec.calls at this ⊢
        dsimp only
        by_cases e : u = t
        · subst e
          rw [hn] at this
          rw [put_same, List.filter_append, List.map_append, ← this]
          simp
        · have e' : (t == u) = false := by simpa using Ne.symm e
          rw [put_ne e, this]
          simp [List.filter_append, e']
      · intro u m' i' h'
        dsimp only at h'
        by_cases e : u = t
        · subst e; rw [put_same] at h'; cases h'; exact List.mem_append_right _ (by simp)
        · rw [put_ne e] at h'; exact List.mem_append_left _ (h.running u m' i' h')
  | write t n =>
    unfold step; dsimp only
    split
    case h_1 => exact h
    case h_2 m i ht =>
      split
      · refine ⟨fun u => ?_, h.done, ?_⟩
        · rw [← h.calls u]
          unfold UnixWriteSpec.calls
          dsimp only
          by_cases e : u = t
          · subst e; rw [put_same, ht]; rfl
          · rw [put_ne e]
        · intro u m' i' h'
          dsimp only at h'
          by_cases e : u = t
          · subst e; rw [put_same] at h'; cases h'; exact h.running u m i ht
          · rw [put_ne e] at h'; exact h.running u m' i' h'
      · exact key s t m i _ true h ht
  | cut t =>
    unfold step; dsimp only
    split
    case h_1 => exact h
    case h_2 m i ht => exact key s t m i _ _ h ht

theorem acc_run (k : Nat) (ops : List Op) : Acc (run k start ops) := by
  refine run_ind k (P := fun ops => Acc (run k start ops)) ⟨fun _ => rfl, (by intro e he; cases he), (by intro t m i h; cases h)⟩ ?_ ops
  intro pre o ih
  rw [run_append]
  exact acc_step ih o

/-- What was begun is what the operations say. -/
theorem begun_run {k : Nat} {ops : List Op} {t : Nat} {m : Msg} (h : (t, m) ∈ (run k start ops).begun) : Op.begin t m ∈ ops := by
  revert h
  refine run_ind k (P := fun ops => (t, m) ∈ (run k start ops).begun → Op.begin t m ∈ ops) (by intro h; cases h) ?_ ops
  intro pre o ih h
  rw [run_append] at h
  have h : (t, m) ∈ (step k (run k start pre) o).begun := h
  generalize run k start pre = s at *
  cases o with
  | begin u n =>
    unfold step at h; dsimp only at h
    split at h
    · rcases List.mem_append.1 h with h | h
      · exact List.mem_append_left _ (ih h)
      · rw [List.mem_singleton] at h; cases h; exact List.mem_append_right _ (by simp)
    · exact List.mem_append_left _ (ih h)
  | write u n =>
    unfold step at h; dsimp only at h
    repeat' split at h
    all_goals exact List.mem_append_left _ (ih h)
  | cut u =>
    unfold step at h; dsimp only at h
    repeat' split at h
    all_goals exact List.mem_append_left _ (ih h)

/-- Messages that are stored at once never stop midway. -/
theorem never_midway {k : Nat} {ops : List Op} (h : ∀ t m, Op.begin t m ∈ ops → m.2.length + 3 ≤ k) (t : Nat) :
    ¬ Midway (run k start ops) t := by
  revert h
  refine run_ind k (P := fun ops => (∀ t m, Op.begin t m ∈ ops → m.2.length + 3 ≤ k) → ¬ Midway (run k start ops) t)
    (fun _ => by rintro ⟨_, _, h, _⟩; cases h) ?_ ops
  intro pre o ih h
  have ih := ih fun t m hm => h t m (List.mem_append_left _ hm)
  have hacc := acc_run k pre
  have hbeg : ∀ u m i, (run k start pre).running u = some (m, i) → (frame m).length ≤ k := by
    intro u m i hu
    rw [frame_length]
    exact h u m (List.mem_append_left _ (begun_run (hacc.running u m i hu)))
  rw [run_append]
  show ¬ Midway (step k (run k start pre) o) t
  generalize run k start pre = s at *
  rintro ⟨m', i', h', hp⟩
  apply ih
  cases o with
  | begin u n =>
    unfold step at h'; dsimp only at h'
    split at h'
    · dsimp only at h'
      by_cases e : t = u
      · subst e; rw [put_same] at h'; cases h'; omega
      · rw [put_ne e] at h'; exact ⟨m', i', h', hp⟩
    · exact ⟨m', i', h', hp⟩
  | write u n =>
    unfold step at h'; dsimp only at h'
    split at h'
    · exact ⟨m', i', h', hp⟩
    · rename_i m i hu
      have := hbeg u m i hu
      split at h'
      · rename_i hlt
        unfold piece at hlt
        split at hlt <;> omega
      · dsimp only at h'
        by_cases e : t = u
        · subst e; rw [put_same] at h'; cases h'
        · rw [put_ne e] at h'; exact ⟨m', i', h', hp⟩
  | cut u =>
    unfold step at h'; dsimp only at h'
    split at h'
    · exact ⟨m', i', h', hp⟩
    · dsimp only at h'
      by_cases e : t = u
      · subst e; rw [put_same] at h'; cases h'
      · rw [put_ne e] at h'; exact ⟨m', i', h', hp⟩

theorem undisturbed_small {k : Nat} {ops : List Op} (h : ∀ t m, Op.begin t m ∈ ops → m.2.length + 3 ≤ k) : Undisturbed k ops := by
  intro pre o post e
  have hno := fun t => never_midway (k := k) (ops := pre) (t := t) fun t m hm => h t m (by rw [e]; exact List.mem_append_left _ hm)
  cases o with
  | begin t m => trivial
  | write t n => intro u hu; exact absurd hu (hno u)
  | cut t => exact hno t

theorem step_begin {k : Nat} {s : St} {t m} (h : s.running t = none) :
    step k s (.begin t m) = { s with running := put s.running t (some (m, 0)), begun := s.begun ++ [(t, m)] } := by
  unfold step; dsimp only; rw [h]

theorem step_part {k p : Nat} {s : St} {t n m i} (h : s.running t = some (m, i)) (hp : piece k ((frame m).length - i) n = p)
    (hl : i + p < (frame m).length) :
    step k s (.write t n) = { s with bytes := s.bytes ++ ((frame m).drop i).take p, running := put s.running t (some (m, i + p)) } := by
  unfold step; dsimp only; rw [h]; dsimp only; rw [hp, if_pos hl]

theorem step_last {k : Nat} {s : St} {t n m i} (h : s.running t = some (m, i)) (hk : (frame m).length - i ≤ k)
    (hi : i < (frame m).length) :
    step k s (.write t n) = { s with bytes := s.bytes ++ (frame m).drop i, running := put s.running t none, done := s.done ++ [(t, m, true)] } := by
  have hp : piece k ((frame m).length - i) n = (frame m).length - i := by unfold piece; rw [if_pos hk]
  unfold step; dsimp only; rw [h]; dsimp only
  rw [hp, if_neg (by omega), List.take_of_length_le (by rw [List.length_drop]; omega)]

theorem step_cut {k : Nat} {s : St} {t m i} (h : s.running t = some (m, i)) :
    step k s (.cut t) = { s with running := put s.running t none, done := s.done ++ [(t, m, decide (0 < i))] } := by
  unfold step; dsimp only; rw [h]

/-- A frame without its last three bytes, and three others behind it, is another frame. -/
theorem frame_swap (c : UInt8) (n : Nat) (h : 3 ≤ n) (x : List UInt8) (hx : x.length = 3) :
    (frame (c, List.replicate n 7)).take n ++ x = frame (c, List.replicate (n - 3) 7 ++ x) := by
  obtain ⟨n, rfl⟩ : ∃ k, n = k + 3 := ⟨n - 3, by omega⟩
  unfold frame
  simp only [List.length_replicate, List.length_append, hx, Nat.add_sub_cancel, List.take_succ_cons, List.cons_append,
    List.take_replicate]
  rw [show min n (n + 3) = n by omega]

theorem frame_end (c : UInt8) (n : Nat) : (frame (c, List.replicate n 7)).drop n = [7, 7, 7] ∨ n < 3 := by
  by_cases h : n < 3
  · exact Or.inr h
  · left
    obtain ⟨n, rfl⟩ : ∃ k, n = k + 3 := ⟨n - 3, by omega⟩
    unfold frame
    simp only [List.drop_succ_cons, List.drop_replicate]
    rw [show n + 3 - n = 3 by omega]; rfl

theorem sevens (cap : Nat) : (receiveAll cap [7, 7, 7]).1 = [] := by
  have : ∃ e r, receive cap [7, 7, 7] = (.error e, r) := by
    unfold receive
    simp only [List.getD_cons_zero, List.getD_cons_succ, List.drop_succ_cons, List.drop_zero]
    rw [if_neg (by decide)]
    split
    · exact ⟨_, _, rfl⟩
    · rw [if_pos (by decide)]; exact ⟨_, _, rfl⟩
  obtain ⟨e, r, h⟩ := this
  rw [receiveAll_err h]

theorem zeros (cap : Nat) : (receiveAll cap [0, 0]).1 = [(0, [])] := by
  have : receive cap [0, 0] = (.ok (0, []), []) := rfl
  rw [receiveAll_ok this, receiveAll_nil]

end Verif.UnixWrite
