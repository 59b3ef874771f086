import Verif.Proofs.EngineClean

namespace Verif.EngineClean

/-! ### What stays -/

theorem made_step {qnx : Bool} {s : St} (op : Op) {p : Nat × Nat} (h : p ∈ s.made) : p ∈ (step qnx s op).made := by
  cases op <;> simp only [step, enqueue, register, unregister, call, resume, cleanHere, serverClean, begin', turn, fire, finish,
    processCleanup] <;> (repeat' split) <;> first | exact h | exact List.mem_cons_of_mem _ h

theorem next_step {qnx : Bool} {s : St} (op : Op) : s.next ≤ (step qnx s op).next := by
  cases op <;> simp only [step, enqueue, register, unregister, call, resume, cleanHere, serverClean, begin', turn, fire, finish,
    processCleanup] <;> (repeat' split) <;> first | exact Nat.le_refl _ | exact Nat.le_succ _

theorem wait_step {qnx : Bool} {s : St} {op : Op} {t : Nat} {x : Nat × Nat} (h : s.wait t = some x) (hn : op ≠ .resume t) :
    (step qnx s op).wait t = some x := by
  cases op with
  | call t' o =>
    simp only [step, call]
    split
    · exact h
    · split
      · exact h
      · rename_i hw
        have : t ≠ t' := fun e => by rw [e, hw] at h; cases h
        exact (upd_ne _ _ this).trans h
  | resume t' =>
    simp only [step, resume]
    split
    · have : t ≠ t' := fun e => hn (by rw [e])
      exact (upd_ne _ _ this).trans h
    · exact h
  | _ =>
    simp only [step, enqueue, register, unregister, cleanHere, serverClean, begin', turn, fire, finish, processCleanup] <;>
      (repeat' split) <;> exact h

theorem wait_run {qnx : Bool} {t : Nat} {x : Nat × Nat} : ∀ (ops : List Op) {s : St}, s.wait t = some x → .resume t ∉ ops →
    (run qnx s ops).wait t = some x
  | [], _, h, _ => h
  | op :: ops, _, h, hn =>
    wait_run ops (wait_step h fun e => hn (by simp [e])) fun hm => hn (by simp [hm])

/-! ### Nothing starts again -/

/-- Nothing that owner `o` registered before number `k` is in the queue or registered. -/
structure GoneQ (o k : Nat) (s : St) : Prop where
  q : ∀ c ∈ s.queue, c.waiter = none → c.owner = o → k ≤ c.id
  e : ∀ e ∈ s.eps, e.owner = o → k ≤ e.id

theorem Gone.toQ {o k : Nat} {s : St} (g : Gone o k s) : GoneQ o k s := ⟨g.q, g.e⟩

theorem goneQ_clean {o k o' : Nat} {s : St} (g : GoneQ o k s) : GoneQ o k (processCleanup s o') :=
  ⟨fun c hc => g.q c (List.mem_filter.1 hc).1, fun e he => g.e e (List.mem_filter.1 he).1⟩

theorem goneQ_of_clean (o k : Nat) (s : St) : GoneQ o k (processCleanup s o) :=
  ⟨fun c hc _ ho => (by have := (List.mem_filter.1 hc).2; simp [ho] at this),
   fun e he ho => (by have := (List.mem_filter.1 he).2; simp [ho] at this)⟩

theorem goneQ_step {qnx : Bool} {o k : Nat} {s : St} (g : GoneQ o k s) (hk : k ≤ s.next) (op : Op) : GoneQ o k (step qnx s op) := by
  cases op with
  | enqueue d o' =>
    refine ⟨fun c hc hw ho => ?_, g.e⟩
    rcases mem_insert.1 hc with rfl | hc
    · exact hk
    · exact g.q c hc hw ho
  | register o' =>
    simp only [step, register]
    split
    · refine ⟨g.q, fun e he ho => ?_⟩
      rcases List.mem_append.1 he with he | he
      · exact g.e e he ho
      · rw [List.mem_singleton.1 he]; exact hk
    · exact g
  | unregister i =>
    simp only [step, unregister]
    split
    · exact ⟨g.q, fun e he => g.e e (List.mem_filter.1 he).1⟩
    · exact g
  | call t o' =>
    simp only [step, call]
    split
    · exact g
    · split
      · exact g
      · refine ⟨fun c hc hw ho => ?_, g.e⟩
        rcases mem_insert.1 hc with rfl | hc
        · cases hw
        · exact g.q c hc hw ho
  | resume t =>
    simp only [step, resume]
    split
    · exact ⟨g.q, g.e⟩
    · exact g
  | cleanHere o' =>
    simp only [step, cleanHere]
    split
    · exact g
    · split
      · exact goneQ_clean g
      · exact g
  | serverClean o' =>
    simp only [step, serverClean]
    split
    · exact goneQ_clean g
    · exact g
  | «begin» n =>
    simp only [step, begin']
    split
    · exact ⟨g.q, g.e⟩
    · exact g
  | turn =>
    simp only [step, turn]
    split
    · exact ⟨g.q, g.e⟩
    · rename_i c q hb hn hq
      split
      · exact ⟨g.q, g.e⟩
      · split
        · exact ⟨fun x hx => g.q x (by rw [hq]; simp [show x ∈ q from hx]), g.e⟩
        · refine ⟨fun x hx => g.q x ?_, fun e he => g.e e (List.mem_filter.1 he).1⟩
          rw [hq]; exact List.mem_cons_of_mem _ (List.mem_filter.1 hx).1
    · exact g
  | fire i =>
    simp only [step, fire]
    split
    · exact ⟨g.q, g.e⟩
    · exact g
  | finish =>
    simp only [step, finish]
    split
    · exact g
    · exact ⟨g.q, g.e⟩
    · exact ⟨g.q, g.e⟩

theorem count_disc (l : List Ep) (i : Nat) : (l.map fun e => Ev.disconnected e.id).count (.started i) = 0 := by
  refine List.count_eq_zero.2 fun h => ?_
  obtain ⟨_, _, e⟩ := List.mem_map.1 h
  cases e

theorem calls_clean (s : St) (o i : Nat) : calls (processCleanup s o) i = calls s i := by
  simp only [calls, processCleanup, List.count_append, count_disc, Nat.add_zero]

theorem count_one_ne {i j : Nat} (h : j ≠ i) : [Ev.started j].count (.started i) = 0 := by
  rw [List.count_singleton]
  have : (Ev.started j == Ev.started i) = false := by simp [h]
  rw [this]; rfl

theorem calls_step {qnx : Bool} {o k i : Nat} {s : St} (h : Inv s) (g : GoneQ o k s) (hm : (i, o) ∈ s.made) (hi : i < k) (op : Op) :
    calls (step qnx s op) i = calls s i := by
  cases op with
  | enqueue d o' => rfl
  | register o' => simp only [step, register]; split <;> rfl
  | unregister j =>
    simp only [step, unregister]
    split
    · simp only [calls, List.count_append, count_disc, Nat.add_zero]
    · rfl
  | call t o' => simp only [step, call]; (repeat' split) <;> rfl
  | resume t => simp only [step, resume]; split <;> rfl
  | cleanHere o' =>
    simp only [step, cleanHere]
    split
    · rfl
    · split
      · exact calls_clean s o' i
      · rfl
  | serverClean o' =>
    simp only [step, serverClean]
    split
    · exact calls_clean s o' i
    · rfl
  | «begin» n => simp only [step, begin']; split <;> rfl
  | turn =>
    simp only [step, turn]
    split
    · rfl
    · rename_i c q hb hn hq
      have hc : c ∈ s.queue := by rw [hq]; simp
      split
      · rfl
      · split
        · rename_i hw
          have : c.id ≠ i := fun e => by
            have hm' := h.q c hc hw
            rw [e] at hm'
            have := g.q c hc hw (h.uniq _ _ _ hm' hm)
            omega
          simp only [calls, List.count_append, count_one_ne this, Nat.add_zero]
        · exact calls_clean { s with queue := q } c.owner i
    · rfl
  | fire j =>
    simp only [step, fire]
    split
    · rename_i e hb hn hf
      have he := List.mem_of_find?_eq_some hf
      have : e.id ≠ i := fun e' => by
        have hm' := h.e e he
        rw [e'] at hm'
        have := g.e e he (h.uniq _ _ _ hm' hm)
        omega
      simp only [calls, List.count_append, count_one_ne this, Nat.add_zero]
    · rfl
  | finish =>
    simp only [step, finish]
    split
    · rfl
    · simp [calls, List.count_append, List.count_singleton]
    · rfl

theorem calls_run {qnx : Bool} {o k i : Nat} : ∀ (ops : List Op) {s : St}, Inv s → GoneQ o k s → k ≤ s.next → (i, o) ∈ s.made → i < k →
    calls (run qnx s ops) i = calls s i
  | [], _, _, _, _, _, _ => rfl
  | op :: ops, s, h, g, hk, hm, hi =>
    (calls_run ops (inv_step h op) (goneQ_step g hk op) (Nat.le_trans hk (next_step op)) (made_step op hm) hi).trans
      (calls_step h g hm hi op)

/-! ### A lost command -/

/-- No command for the blocked thread `t` is left. -/
structure Lost (t : Nat) (s : St) : Prop where
  w : s.wait t ≠ none
  r : s.ready t = false
  b : s.busy ≠ .clean t
  q : ∀ c ∈ s.queue, c.waiter ≠ some t

theorem lost_clean {t : Nat} {s : St} (l : Lost t s) (o : Nat) : Lost t (processCleanup s o) :=
  ⟨l.w, l.r, l.b, fun c hc => l.q c (List.mem_filter.1 hc).1⟩

theorem lost_step {qnx : Bool} {t : Nat} {s : St} (l : Lost t s) (op : Op) : Lost t (step qnx s op) := by
  cases op with
  | enqueue d o =>
    refine ⟨l.w, l.r, l.b, fun c hc => ?_⟩
    rcases mem_insert.1 hc with rfl | hc
    · intro e; cases e
    · exact l.q c hc
  | register o => simp only [step, register]; split <;> first | exact l | exact ⟨l.w, l.r, l.b, l.q⟩
  | unregister i => simp only [step, unregister]; split <;> first | exact l | exact ⟨l.w, l.r, l.b, l.q⟩
  | call t' o =>
    simp only [step, call]
    split
    · exact l
    · split
      · exact l
      · rename_i hw
        have : t ≠ t' := fun e => l.w (by rw [e, hw])
        refine ⟨fun e => l.w ((upd_ne _ _ this).symm.trans e), (upd_ne _ _ this).trans l.r, l.b, fun c hc => ?_⟩
        rcases mem_insert.1 hc with rfl | hc
        · intro e; injection e with e; exact this e.symm
        · exact l.q c hc
  | resume t' =>
    simp only [step, resume]
    split
    · rename_i hr
      have : t ≠ t' := fun e => by rw [← e, l.r] at hr; cases hr
      exact ⟨fun e => l.w ((upd_ne _ _ this).symm.trans e), (upd_ne _ _ this).trans l.r, l.b, l.q⟩
    · exact l
  | cleanHere o =>
    simp only [step, cleanHere]
    split
    · exact l
    · split
      · exact lost_clean l o
      · exact l
  | serverClean o =>
    simp only [step, serverClean]
    split
    · exact lost_clean l o
    · exact l
  | «begin» n => simp only [step, begin']; split <;> first | exact l | exact ⟨l.w, l.r, l.b, l.q⟩
  | turn =>
    simp only [step, turn]
    split
    · exact ⟨l.w, l.r, l.b, l.q⟩
    · rename_i c q hb hn hq
      split
      · exact ⟨l.w, l.r, l.b, l.q⟩
      · split
        · exact ⟨l.w, l.r, fun e => (by cases e), fun x hx => l.q x (by rw [hq]; simp [show x ∈ q from hx])⟩
        · rename_i t' hw
          refine ⟨l.w, l.r, fun e => ?_, fun x hx => l.q x ?_⟩
          · injection e with e
            exact l.q c (by rw [hq]; simp) (by rw [hw, e])
          · rw [hq]; exact List.mem_cons_of_mem _ (List.mem_filter.1 hx).1
    · exact l
  | fire i =>
    simp only [step, fire]
    split
    · exact ⟨l.w, l.r, fun e => (by cases e), l.q⟩
    · exact l
  | finish =>
    simp only [step, finish]
    split
    · exact l
    · exact ⟨l.w, l.r, fun e => (by cases e), l.q⟩
    · rename_i t' hb
      have : t ≠ t' := fun e => l.b (by rw [hb, e])
      exact ⟨l.w, (upd_ne _ _ this).trans l.r, fun e => (by cases e), l.q⟩

theorem lost_run {qnx : Bool} {t : Nat} : ∀ (ops : List Op) {s : St}, Lost t s → Lost t (run qnx s ops)
  | [], _, l => l
  | op :: ops, _, l => lost_run ops (lost_step l op)

end Verif.EngineClean
