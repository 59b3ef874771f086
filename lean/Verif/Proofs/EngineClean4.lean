import Verif.Proofs.EngineClean3

namespace Verif.EngineClean

/-! ### Commands run at most once -/

def inQueue (i : Nat) (l : List Cmd) : Nat := l.countP fun c => c.id == i

theorem inQueue_insert (i : Nat) (c : Cmd) : ∀ l, inQueue i (insert c l) = inQueue i l + if c.id == i then 1 else 0
  | [] => by simp [insert, inQueue, List.countP_cons]
  | x :: l => by
    simp only [insert]
    split
    · simp only [inQueue, List.countP_cons]
    · have := inQueue_insert i c l
      simp only [inQueue, List.countP_cons] at this ⊢
      omega

theorem inQueue_filter (i : Nat) (p : Cmd → Bool) (l : List Cmd) : inQueue i (l.filter p) ≤ inQueue i l :=
  List.Sublist.countP_le List.filter_sublist

structure Once (i : Nat) (s : St) : Prop where
  lt : i < s.next
  ep : ∀ e ∈ s.eps, e.id ≠ i
  one : calls s i + inQueue i s.queue ≤ 1

theorem once_clean {i : Nat} {s : St} (w : Once i s) (o : Nat) : Once i (processCleanup s o) :=
  ⟨w.lt, fun e he => w.ep e (List.mem_filter.1 he).1, (by
    rw [calls_clean]
    have := inQueue_filter i (fun c => c.owner != o) s.queue
    have := w.one
    simp only [processCleanup]; omega)⟩

theorem once_step {qnx : Bool} {i : Nat} {s : St} (w : Once i s) (op : Op) : Once i (step qnx s op) := by
  have one := w.one
  have lt := w.lt
  cases op with
  | enqueue d o =>
    refine ⟨Nat.lt_succ_of_lt w.lt, w.ep, ?_⟩
    have hf : (s.next == i) = false := by simp; omega
    simp only [step, enqueue, calls, inQueue_insert, hf] at one ⊢
    exact one
  | register o =>
    simp only [step, register]
    split
    · refine ⟨Nat.lt_succ_of_lt w.lt, fun e he => ?_, one⟩
      rcases List.mem_append.1 he with he | he
      · exact w.ep e he
      · rw [List.mem_singleton.1 he]; exact fun e => by dsimp only at e; omega
    · exact w
  | unregister j =>
    simp only [step, unregister]
    split
    · refine ⟨w.lt, fun e he => w.ep e (List.mem_filter.1 he).1, ?_⟩
      simp only [calls, List.count_append, count_disc, Nat.add_zero]
      exact one
    · exact w
  | call t o =>
    simp only [step, call]
    split
    · exact w
    · split
      · exact w
      · refine ⟨Nat.lt_succ_of_lt w.lt, w.ep, ?_⟩
        have hf : (s.next == i) = false := by simp; omega
        simp only [calls, inQueue_insert, hf] at one ⊢
        exact one
  | resume t => simp only [step, resume]; split <;> exact ⟨w.lt, w.ep, one⟩
  | cleanHere o =>
    simp only [step, cleanHere]
    split
    · exact w
    · split
      · exact once_clean w o
      · exact w
  | serverClean o =>
    simp only [step, serverClean]
    split
    · exact once_clean w o
    · exact w
  | «begin» n => simp only [step, begin']; split <;> exact ⟨w.lt, w.ep, one⟩
  | turn =>
    simp only [step, turn]
    split
    · exact ⟨w.lt, w.ep, one⟩
    · rename_i c q hb hn hq
      rw [hq] at one
      simp only [inQueue, List.countP_cons] at one
      split
      · exact ⟨w.lt, w.ep, w.one⟩
      · split
        · refine ⟨w.lt, w.ep, ?_⟩
          simp only [calls, List.count_append, List.count_singleton, inQueue] at one ⊢
          by_cases e : c.id = i
          · subst e; simp at one ⊢; omega
          · have h1 : (c.id == i) = false := by simp [e]
            have h2 : (Ev.started c.id == Ev.started i) = false := by simp [e]
            rw [h1] at one; rw [h2]; simpa using one
        · have : Once i { s with queue := q } := ⟨w.lt, w.ep, (by simp only [calls, inQueue] at one ⊢; omega)⟩
          have r := once_clean this c.owner
          exact ⟨r.lt, r.ep, r.one⟩
    · exact w
  | fire j =>
    simp only [step, fire]
    split
    · rename_i e hb hn hf
      refine ⟨w.lt, w.ep, ?_⟩
      simp only [calls, List.count_append, count_one_ne (w.ep e (List.mem_of_find?_eq_some hf)), Nat.add_zero]
      exact one
    · exact w
  | finish =>
    simp only [step, finish]
    split
    · exact w
    · refine ⟨w.lt, w.ep, ?_⟩
      simpa [calls, List.count_append, List.count_singleton] using one
    · exact ⟨w.lt, w.ep, one⟩

theorem once_run {qnx : Bool} {i : Nat} : ∀ (ops : List Op) {s : St}, Once i s → Once i (run qnx s ops)
  | [], _, w => w
  | op :: ops, _, w => once_run ops (once_step w op)

/-! ### Nothing starts that was not registered -/

structure Fresh (s : St) : Prop where
  q : ∀ c ∈ s.queue, c.id < s.next
  e : ∀ e ∈ s.eps, e.id < s.next
  c : ∀ i, s.next ≤ i → calls s i = 0 ∧ tells s i = 0

theorem tells_disc (l : List Ep) (i : Nat) : (l.map fun e => Ev.disconnected e.id).count (.disconnected i) = l.countP fun e => e.id == i := by
  induction l with
  | nil => rfl
  | cons x l ih =>
    simp only [List.map_cons, List.count_cons, List.countP_cons, ih]
    by_cases e : x.id = i <;> simp [e]

theorem count_none {l : List Ep} {i : Nat} (h : ∀ e ∈ l, e.id ≠ i) : l.countP (fun e => e.id == i) = 0 :=
  List.countP_eq_zero.2 fun e he => by simpa using h e he

theorem fresh_clean {s : St} (f : Fresh s) (o : Nat) : Fresh (processCleanup s o) :=
  ⟨fun c hc => f.q c (List.mem_filter.1 hc).1, fun e he => f.e e (List.mem_filter.1 he).1, fun i hi => (by
    refine ⟨(calls_clean s o i).trans (f.c i hi).1, ?_⟩
    simp only [tells, processCleanup, List.count_append, tells_disc]
    rw [count_none fun e he => by have := f.e e (List.mem_filter.1 he).1; simp only [processCleanup] at hi; omega]
    exact (f.c i hi).2)⟩

theorem fresh_step {qnx : Bool} {s : St} (f : Fresh s) (op : Op) : Fresh (step qnx s op) := by
  have fc := f.c
  cases op with
  | enqueue d o =>
    refine ⟨fun c hc => ?_, fun e he => Nat.lt_succ_of_lt (f.e e he), fun i hi => fc i (Nat.le_of_succ_le hi)⟩
    rcases mem_insert.1 hc with rfl | hc
    · exact Nat.lt_succ_self _
    · exact Nat.lt_succ_of_lt (f.q c hc)
  | register o =>
    simp only [step, register]
    split
    · refine ⟨fun c hc => Nat.lt_succ_of_lt (f.q c hc), fun e he => ?_, fun i hi => fc i (Nat.le_of_succ_le hi)⟩
      rcases List.mem_append.1 he with he | he
      · exact Nat.lt_succ_of_lt (f.e e he)
      · rw [List.mem_singleton.1 he]; exact Nat.lt_succ_self _
    · exact f
  | unregister j =>
    simp only [step, unregister]
    split
    · refine ⟨f.q, fun e he => f.e e (List.mem_filter.1 he).1, fun i hi => ?_⟩
      simp only [calls, tells, List.count_append, count_disc, tells_disc, Nat.add_zero]
      rw [count_none fun e he => by have := f.e e (List.mem_filter.1 he).1; dsimp only at hi; omega]
      exact fc i hi
    · exact f
  | call t o =>
    simp only [step, call]
    split
    · exact f
    · split
      · exact f
      · refine ⟨fun c hc => ?_, fun e he => Nat.lt_succ_of_lt (f.e e he), fun i hi => fc i (Nat.le_of_succ_le hi)⟩
        rcases mem_insert.1 hc with rfl | hc
        · exact Nat.lt_succ_self _
        · exact Nat.lt_succ_of_lt (f.q c hc)
  | resume t => simp only [step, resume]; split <;> exact ⟨f.q, f.e, f.c⟩
  | cleanHere o =>
    simp only [step, cleanHere]
    split
    · exact f
    · split
      · exact fresh_clean f o
      · exact f
  | serverClean o =>
    simp only [step, serverClean]
    split
    · exact fresh_clean f o
    · exact f
  | «begin» n => simp only [step, begin']; split <;> exact ⟨f.q, f.e, f.c⟩
  | turn =>
    simp only [step, turn]
    split
    · exact ⟨f.q, f.e, f.c⟩
    · rename_i c q hb hn hq
      have hx : ∀ x ∈ q, x.id < s.next := fun x hx => f.q x (by rw [hq]; simp [hx])
      have hc : c.id < s.next := f.q c (by rw [hq]; simp)
      split
      · exact ⟨f.q, f.e, f.c⟩
      · split
        · refine ⟨hx, f.e, fun i hi => ?_⟩
          have ne : c.id ≠ i := by dsimp only at hi; omega
          have h2 : [Ev.started c.id].count (.disconnected i) = 0 := by simp [List.count_singleton]
          simp only [calls, tells, List.count_append, count_one_ne ne, h2, Nat.add_zero]
          exact fc i hi
        · have : Fresh { s with queue := q } := ⟨hx, f.e, f.c⟩
          have r := fresh_clean this c.owner
          exact ⟨r.q, r.e, r.c⟩
    · exact f
  | fire j =>
    simp only [step, fire]
    split
    · rename_i e hb hn hf
      refine ⟨f.q, f.e, fun i hi => ?_⟩
      have ne : e.id ≠ i := by have := f.e e (List.mem_of_find?_eq_some hf); dsimp only at hi; omega
      have h2 : [Ev.started e.id].count (.disconnected i) = 0 := by simp [List.count_singleton]
      simp only [calls, tells, List.count_append, count_one_ne ne, h2, Nat.add_zero]
      exact fc i hi
    · exact f
  | finish =>
    simp only [step, finish]
    split
    · exact f
    · refine ⟨f.q, f.e, fun i hi => ?_⟩
      have := fc i hi
      simpa [calls, tells, List.count_append, List.count_singleton] using this
    · exact ⟨f.q, f.e, f.c⟩

theorem fresh_run {qnx : Bool} : ∀ (ops : List Op) {s : St}, Fresh s → Fresh (run qnx s ops)
  | [], _, w => w
  | op :: ops, _, w => fresh_run ops (fresh_step w op)

theorem fresh_init : Fresh init := ⟨fun _ h => (by cases h), fun _ h => (by cases h), fun _ _ => ⟨rfl, rfl⟩⟩

theorem once_enqueue {s : St} (f : Fresh s) (d o : Nat) : Once s.next (enqueue s d o) := by
  refine ⟨Nat.lt_succ_self _, fun e he => Nat.ne_of_lt (f.e e he), ?_⟩
  have h0 : inQueue s.next s.queue = 0 := List.countP_eq_zero.2 fun c hc => by have := f.q c hc; simp; omega
  have h1 := (f.c s.next (Nat.le_refl _)).1
  simp only [calls] at h1
  simp only [enqueue, calls, inQueue_insert, h0, h1, beq_self_eq_true]
  decide

/-! ### Commands are not lost -/

structure Kept (i o : Nat) (s : St) : Prop where
  c : 0 < calls s i ∨ ∃ c ∈ s.queue, c.id = i ∧ c.owner = o ∧ c.waiter = none
  w : ∀ t k, s.wait t ≠ some (o, k)

theorem kept_clean {i o o' : Nat} {s : St} (w : Kept i o s) (hne : o' ≠ o) : Kept i o (processCleanup s o') := by
  refine ⟨?_, w.w⟩
  rw [calls_clean]
  rcases w.c with h | ⟨c, hc, h1, h2, h3⟩
  · exact Or.inl h
  · exact Or.inr ⟨c, List.mem_filter.2 ⟨hc, by simp [h2, Ne.symm hne]⟩, h1, h2, h3⟩

theorem kept_step {qnx : Bool} {i o : Nat} {s : St} (h : Inv s) (w : Kept i o s) (op : Op) (hc : ¬ Cleans o op) : Kept i o (step qnx s op) := by
  have wc := w.c
  cases op with
  | enqueue d o' =>
    refine ⟨?_, w.w⟩
    rcases wc with h | ⟨c, hc, h1⟩
    · exact Or.inl h
    · exact Or.inr ⟨c, mem_insert.2 (Or.inr hc), h1⟩
  | register o' => simp only [step, register]; split <;> exact ⟨wc, w.w⟩
  | unregister j =>
    simp only [step, unregister]
    split
    · refine ⟨?_, w.w⟩
      simp only [calls, List.count_append, count_disc, Nat.add_zero]
      exact wc
    · exact w
  | call t o' =>
    simp only [step, call]
    split
    · exact w
    · split
      · exact w
      · refine ⟨?_, fun t' k hk => ?_⟩
        · rcases wc with h | ⟨c, hc, h1⟩
          · exact Or.inl h
          · exact Or.inr ⟨c, mem_insert.2 (Or.inr hc), h1⟩
        · by_cases e : t' = t
          · subst e
            dsimp only at hk
            rw [upd_same] at hk
            injection hk with hk
            injection hk with hk _
            exact hc hk
          · dsimp only at hk
            rw [upd_ne _ _ e] at hk
            exact w.w t' k hk
  | resume t =>
    simp only [step, resume]
    split
    · refine ⟨wc, fun t' k hk => ?_⟩
      by_cases e : t' = t
      · subst e; dsimp only at hk; rw [upd_same] at hk; cases hk
      · dsimp only at hk; rw [upd_ne _ _ e] at hk; exact w.w t' k hk
    · exact w
  | cleanHere o' =>
    simp only [step, cleanHere]
    split
    · exact w
    · split
      · exact kept_clean w hc
      · exact w
  | serverClean o' =>
    simp only [step, serverClean]
    split
    · exact kept_clean w hc
    · exact w
  | «begin» n => simp only [step, begin']; split <;> exact ⟨wc, w.w⟩
  | turn =>
    simp only [step, turn]
    split
    · exact ⟨wc, w.w⟩
    · rename_i c q hb hn hq
      split
      · exact ⟨wc, w.w⟩
      · split
        · refine ⟨?_, w.w⟩
          rcases wc with h | ⟨x, hx, h1, h2, h3⟩
          · exact Or.inl (by simp only [calls, List.count_append] at h ⊢; omega)
          · rw [hq] at hx
            rcases List.mem_cons.1 hx with rfl | hx
            · refine Or.inl ?_
              simp [calls, List.count_append, h1]
            · exact Or.inr ⟨x, hx, h1, h2, h3⟩
        · rename_i t hw
          have hne : c.owner ≠ o := fun e => by
            obtain ⟨⟨k, hk⟩, _⟩ := h.qw c (by rw [hq]; simp) t hw
            rw [e] at hk
            exact w.w t k hk
          have : Kept i o { s with queue := q } := by
            refine ⟨?_, w.w⟩
            rcases wc with h | ⟨x, hx, h1, h2, h3⟩
            · exact Or.inl h
            · rw [hq] at hx
              rcases List.mem_cons.1 hx with rfl | hx
              · rw [hw] at h3; cases h3
              · exact Or.inr ⟨x, hx, h1, h2, h3⟩
          have r := kept_clean this hne
          exact ⟨r.c, r.w⟩
    · exact w
  | fire j =>
    simp only [step, fire]
    split
    · refine ⟨?_, w.w⟩
      rcases wc with h | h
      · exact Or.inl (by simp only [calls, List.count_append] at h ⊢; omega)
      · exact Or.inr h
    · exact w
  | finish =>
    simp only [step, finish]
    split
    · exact w
    · refine ⟨?_, w.w⟩
      rcases wc with h | h
      · exact Or.inl (by simp only [calls, List.count_append] at h ⊢; omega)
      · exact Or.inr h
    · exact ⟨wc, w.w⟩

theorem kept_run {qnx : Bool} {i o : Nat} : ∀ (ops : List Op) {s : St}, Inv s → Kept i o s → (∀ op ∈ ops, ¬ Cleans o op) →
    Kept i o (run qnx s ops)
  | [], _, _, w, _ => w
  | op :: ops, _, h, w, hc => kept_run ops (inv_step h op) (kept_step h w op (hc op (by simp))) fun x hx => hc x (by simp [hx])

theorem kept_done (qnx : Bool) {i o : Nat} {s : St} (h : Inv s) (w : Kept i o s) :
    ∃ ops, (∀ op ∈ ops, Engine op) ∧ 0 < calls (run qnx s ops) i := by
  have h1 : Inv (run qnx s [.finish]) := inv_run _ h
  have a1 : Kept i o (run qnx s [.finish]) := kept_run _ h w (fun op ho => by rw [List.mem_singleton.1 ho]; exact fun h => h)
  have b1 : (run qnx s [.finish]).busy = .idle := finish_idle s
  have pre : ∃ ops, (∀ op ∈ ops, Engine op) ∧ 0 < calls (run qnx (run qnx s [.finish]) ops) i := by
    generalize run qnx s [.finish] = s1 at h1 a1 b1
    rcases a1.c with hr | ⟨x, hx, hi, ho, hw⟩
    · exact ⟨[], fun _ ho => (by cases ho), hr⟩
    · obtain ⟨pre, post, hq⟩ := List.append_of_mem hx
      have hp : ∀ p ∈ pre, p.waiter ≠ none → p.owner ≠ x.owner := by
        intro p hp hn he
        cases hw' : p.waiter with
        | none => exact hn hw'
        | some t' =>
          obtain ⟨⟨k, hk⟩, _⟩ := h1.qw p (by rw [hq]; simp [hp]) t' hw'
          rw [he, ho] at hk
          exact a1.w t' k hk
      obtain ⟨ops, hops, r1, ⟨post', r2⟩, m, r3, r4⟩ := reach qnx x _ s1 pre post (Nat.le_refl _) h1 b1 hq hp
      refine ⟨ops ++ [.turn], fun op h' => ?_, ?_⟩
      · rcases List.mem_append.1 h' with h' | h'
        · exact hops op h'
        · rw [List.mem_singleton.1 h']; trivial
      · rw [run_append]
        generalize run qnx s1 ops = s2 at r1 r2 r3
        have hd : ¬ x.due > m := by omega
        simp only [run, List.foldl, step, turn, r1, r2, r3, if_neg hd, hw, calls, List.count_append, hi]
        simp
  obtain ⟨ops, ho, r⟩ := pre
  refine ⟨.finish :: ops, fun op h' => ?_, r⟩
  rcases List.mem_cons.1 h' with rfl | h'
  · trivial
  · exact ho op h'

/-! ### Endpoints -/

def regs (i : Nat) (l : List Ep) : Nat := l.countP fun e => e.id == i

theorem regs_split (i : Nat) (p : Ep → Bool) : ∀ l, regs i (l.filter p) + regs i (l.filter fun e => !p e) = regs i l
  | [] => rfl
  | x :: l => by
    have := regs_split i p l
    simp only [regs] at this ⊢
    cases hp : p x <;> simp [List.filter_cons, hp, List.countP_cons] <;> omega

structure Told (i o : Nat) (s : St) : Prop where
  lt : i < s.next
  sum : tells s i + regs i s.eps = 1
  own : ∀ e ∈ s.eps, e.id = i → e.owner = o

theorem told_filter {i o : Nat} {s : St} (w : Told i o s) (p : Ep → Bool) (q : List Cmd) :
    Told i o { s with eps := s.eps.filter fun e => !p e, queue := q, log := s.log ++ (s.eps.filter p).map fun e => .disconnected e.id } := by
  refine ⟨w.lt, ?_, fun e he => w.own e (List.mem_filter.1 he).1⟩
  have h1 := w.sum
  have h2 := regs_split i p s.eps
  simp only [tells, List.count_append, tells_disc] at h1 ⊢
  simp only [regs] at h1 h2 ⊢
  omega

theorem clean_eq (s : St) (o : Nat) : processCleanup s o =
    { s with eps := s.eps.filter fun e => !(e.owner == o), queue := s.queue.filter fun c => c.owner != o,
             log := s.log ++ (s.eps.filter fun e => e.owner == o).map fun e => .disconnected e.id } := rfl

theorem told_step {qnx : Bool} {i o : Nat} {s : St} (w : Told i o s) (op : Op) : Told i o (step qnx s op) := by
  have sum := w.sum
  cases op with
  | enqueue d o' => exact ⟨Nat.lt_succ_of_lt w.lt, sum, w.own⟩
  | register o' =>
    simp only [step, register]
    split
    · have lt := w.lt
      refine ⟨Nat.lt_succ_of_lt w.lt, ?_, fun e he hi => ?_⟩
      · have hf : (s.next == i) = false := by simp; omega
        simp only [tells, regs, List.countP_append, List.countP_singleton, hf] at sum ⊢
        exact sum
      · rcases List.mem_append.1 he with he | he
        · exact w.own e he hi
        · rw [List.mem_singleton.1 he] at hi; dsimp only at hi; omega
    · exact w
  | unregister j =>
    simp only [step, unregister]
    split
    · exact told_filter w (fun e => e.id == j) s.queue
    · exact w
  | call t o' =>
    simp only [step, call]
    split
    · exact w
    · split
      · exact w
      · exact ⟨Nat.lt_succ_of_lt w.lt, sum, w.own⟩
  | resume t => simp only [step, resume]; split <;> exact ⟨w.lt, sum, w.own⟩
  | cleanHere o' =>
    simp only [step, cleanHere]
    split
    · exact w
    · split
      · rw [clean_eq]; exact told_filter w _ _
      · exact w
  | serverClean o' =>
    simp only [step, serverClean]
    split
    · rw [clean_eq]; exact told_filter w _ _
    · exact w
  | «begin» n => simp only [step, begin']; split <;> exact ⟨w.lt, sum, w.own⟩
  | turn =>
    simp only [step, turn]
    split
    · exact ⟨w.lt, sum, w.own⟩
    · rename_i c q hb hn hq
      split
      · exact ⟨w.lt, sum, w.own⟩
      · split
        · refine ⟨w.lt, ?_, w.own⟩
          have h2 : [Ev.started c.id].count (.disconnected i) = 0 := by simp [List.count_singleton]
          simp only [tells, List.count_append, h2, Nat.add_zero]
          exact sum
        · have r := told_filter w (fun e => e.owner == c.owner) (q.filter fun x => x.owner != c.owner)
          exact ⟨r.lt, r.sum, r.own⟩
    · exact w
  | fire j =>
    simp only [step, fire]
    split
    · rename_i e _ _ _
      refine ⟨w.lt, ?_, w.own⟩
      have h2 : [Ev.started e.id].count (.disconnected i) = 0 := by simp [List.count_singleton]
      simp only [tells, List.count_append, h2, Nat.add_zero]
      exact sum
    · exact w
  | finish =>
    simp only [step, finish]
    split
    · exact w
    · refine ⟨w.lt, ?_, w.own⟩
      simpa [tells, List.count_append, List.count_singleton] using sum
    · exact ⟨w.lt, sum, w.own⟩

theorem told_run {qnx : Bool} {i o : Nat} : ∀ (ops : List Op) {s : St}, Told i o s → Told i o (run qnx s ops)
  | [], _, w => w
  | op :: ops, _, w => told_run ops (told_step w op)

theorem told_register {s : St} (f : Fresh s) (o : Nat) {j a : Nat} (hb : s.busy = .callback j a) : Told s.next o (register s o) := by
  simp only [register, hb]
  have h0 : regs s.next s.eps = 0 := count_none fun e he => Nat.ne_of_lt (f.e e he)
  have h1 := (f.c s.next (Nat.le_refl _)).2
  refine ⟨Nat.lt_succ_self _, ?_, fun e he hi => ?_⟩
  · simp only [tells, regs, List.countP_append, List.countP_singleton, beq_self_eq_true] at h0 h1 ⊢
    rw [h1, h0]; rfl
  · rcases List.mem_append.1 he with he | he
    · have := f.e e he; omega
    · rw [List.mem_singleton.1 he]

/-- The endpoint is registered and nobody cleans up its owner. -/
structure Stays (i o : Nat) (s : St) : Prop where
  e : ⟨i, o⟩ ∈ s.eps
  w : ∀ t k, s.wait t ≠ some (o, k)

theorem stays_clean {i o o' : Nat} {s : St} (w : Stays i o s) (hne : o' ≠ o) : Stays i o (processCleanup s o') :=
  ⟨List.mem_filter.2 ⟨w.e, by simp [Ne.symm hne]⟩, w.w⟩

theorem stays_step {qnx : Bool} {i o : Nat} {s : St} (h : Inv s) (w : Stays i o s) (op : Op) (hc : ¬ Cleans o op) (hu : op ≠ .unregister i) :
    Stays i o (step qnx s op) := by
  cases op with
  | enqueue d o' => exact ⟨w.e, w.w⟩
  | register o' => simp only [step, register]; split <;> first | exact w | exact ⟨List.mem_append.2 (Or.inl w.e), w.w⟩
  | unregister j =>
    simp only [step, unregister]
    split
    · have : i ≠ j := fun e => hu (by rw [e])
      exact ⟨List.mem_filter.2 ⟨w.e, by simp [this]⟩, w.w⟩
    · exact w
  | call t o' =>
    simp only [step, call]
    split
    · exact w
    · split
      · exact w
      · refine ⟨w.e, fun t' k hk => ?_⟩
        by_cases e : t' = t
        · subst e
          dsimp only at hk
          rw [upd_same] at hk
          injection hk with hk
          injection hk with hk _
          exact hc hk
        · dsimp only at hk
          rw [upd_ne _ _ e] at hk
          exact w.w t' k hk
  | resume t =>
    simp only [step, resume]
    split
    · refine ⟨w.e, fun t' k hk => ?_⟩
      by_cases e : t' = t
      · subst e; dsimp only at hk; rw [upd_same] at hk; cases hk
      · dsimp only at hk; rw [upd_ne _ _ e] at hk; exact w.w t' k hk
    · exact w
  | cleanHere o' =>
    simp only [step, cleanHere]
    split
    · exact w
    · split
      · exact stays_clean w hc
      · exact w
  | serverClean o' =>
    simp only [step, serverClean]
    split
    · exact stays_clean w hc
    · exact w
  | «begin» n => simp only [step, begin']; split <;> exact ⟨w.e, w.w⟩
  | turn =>
    simp only [step, turn]
    split
    · exact ⟨w.e, w.w⟩
    · rename_i c q hb hn hq
      split
      · exact ⟨w.e, w.w⟩
      · split
        · exact ⟨w.e, w.w⟩
        · rename_i t hw
          have hne : c.owner ≠ o := fun e => by
            obtain ⟨⟨k, hk⟩, _⟩ := h.qw c (by rw [hq]; simp) t hw
            rw [e] at hk
            exact w.w t k hk
          have : Stays i o { s with queue := q } := ⟨w.e, w.w⟩
          have r := stays_clean this hne
          exact ⟨r.e, r.w⟩
    · exact w
  | fire j => simp only [step, fire]; split <;> exact ⟨w.e, w.w⟩
  | finish => simp only [step, finish]; split <;> exact ⟨w.e, w.w⟩

theorem stays_run {qnx : Bool} {i o : Nat} : ∀ (ops : List Op) {s : St}, Inv s → Stays i o s → (∀ op ∈ ops, ¬ Cleans o op ∧ op ≠ .unregister i) →
    Stays i o (run qnx s ops)
  | [], _, _, w, _ => w
  | op :: ops, _, h, w, hc => stays_run ops (inv_step h op) (stays_step h w op (hc op (by simp)).1 (hc op (by simp)).2)
      fun x hx => hc x (by simp [hx])

end Verif.EngineClean
