import Verif.Spec.GwTransport
/-! Invariants of requests and acknowledgements. -/
namespace Verif.GwTransport

/-- The number of the newest request of thread `t`. -/
def lastReg (t : Nat) : List Ev → Option UInt32
  | [] => none
  | .registered t' q :: l => if t' = t then some q else lastReg t l
  | _ :: l => lastReg t l

/-- Number of attempts to send the newest request of thread `t`. -/
def attempts (t : Nat) : List Ev → Nat
  | [] => 0
  | .registered t' _ :: l => if t' = t then 0 else attempts t l
  | .transmitted t' _ :: l => if t' = t then attempts t l + 1 else attempts t l
  | .sendFailed t' _ :: l => if t' = t then attempts t l + 1 else attempts t l
  | _ :: l => attempts t l

/-- An acknowledgement with number `q` arrived since the newest registration of this number. -/
def ackedSince (q : UInt32) : List Ev → Prop
  | [] => False
  | .acked q' :: l => q' = q ∨ ackedSince q l
  | .registered _ q' :: l => q' ≠ q ∧ ackedSince q l
  | _ :: l => ackedSince q l

/-- The same since the newest registration by thread `t`. -/
def ackedOwn (t : Nat) (q : UInt32) : List Ev → Prop
  | [] => False
  | .acked q' :: l => q' = q ∨ ackedOwn t q l
  | .registered t' _ :: l => t' ≠ t ∧ ackedOwn t q l
  | _ :: l => ackedOwn t q l

/-- Every event of the log is justified by older ones. -/
def Legal : List Ev → Prop
  | [] => True
  | .registered _ _ :: l => Legal l
  | .transmitted t q :: l => lastReg t l = some q ∧ attempts t l < 5 ∧ Legal l
  | .sendFailed t q :: l => lastReg t l = some q ∧ attempts t l < 5 ∧ Legal l
  | .received q :: l => (∃ t, .transmitted t q ∈ l) ∧ Legal l
  | .acked q :: l => .received q ∈ l ∧ Legal l
  | .succeeded t q :: l => lastReg t l = some q ∧ ackedOwn t q l ∧ Legal l
  | .failed t q :: l => lastReg t l = some q ∧ Legal l

/-- What holds of a thread. -/
def PcOk (t : Nat) (log : List Ev) : Pc → Prop
  | .idle => True
  | .check q a => lastReg t log = some q ∧ attempts t log = a ∧ a < 5
  | .reset q a => lastReg t log = some q ∧ attempts t log = a ∧ a < 5
  | .send q a => lastReg t log = some q ∧ attempts t log = a ∧ a < 5
  | .wait q a => lastReg t log = some q ∧ attempts t log = a + 1 ∧ a < 5
  | .retry q a => lastReg t log = some q ∧ attempts t log = a + 1 ∧ a < 5
  | .erase q ok => lastReg t log = some q ∧ (ok = true → ackedOwn t q log)

/-- Numbers in the order of registration, newest first. -/
def regs : List Ev → List UInt32
  | [] => []
  | .registered _ q :: l => q :: regs l
  | _ :: l => regs l

/-- The numbers of the first `n` requests, newest first. -/
def numbers : Nat → List UInt32
  | 0 => []
  | n + 1 => UInt32.ofNat (n + 1) :: numbers n

structure Inv (s : St) : Prop where
  legal : Legal s.log
  pcs : ∀ t, PcOk t s.log (s.pc t)
  pend : ∀ q, s.pending q = some true → ackedSince q s.log
  owner : ∀ q, s.pending q ≠ none → q ∈ regs s.log
  fwd : ∀ q ∈ s.fwd, ∃ t, .transmitted t q ∈ s.log
  acks : ∀ q ∈ s.acks, .received q ∈ s.log
  nums : regs s.log = numbers s.started
  next : s.next = UInt32.ofNat (s.started + 1)

theorem own_of_since {t : Nat} {q : UInt32} {l : List Ev} (hr : lastReg t l = some q) (h : ackedSince q l) :
    ackedOwn t q l := by
  induction l with
  | nil => exact h
  | cons e l ih =>
    cases e with
    | acked q' =>
      simp only [ackedSince, ackedOwn, lastReg] at *
      rcases h with h | h
      · exact Or.inl h
      · exact Or.inr (ih hr h)
    | registered t' q' =>
      simp only [ackedSince, ackedOwn, lastReg] at *
      split at hr
      · simp only [Option.some.injEq] at hr
        exact absurd hr h.1
      · exact ⟨by assumption, ih hr h.2⟩
    | transmitted t' q' => exact ih hr h
    | sendFailed t' q' => exact ih hr h
    | received q' => exact ih hr h
    | succeeded t' q' => exact ih hr h
    | failed t' q' => exact ih hr h

/-- Events that do not touch thread `t`. -/
def Foreign (t : Nat) : Ev → Prop
  | .registered t' _ => t' ≠ t
  | .transmitted t' _ => t' ≠ t
  | .sendFailed t' _ => t' ≠ t
  | _ => True

theorem pcOk_cons {t : Nat} {e : Ev} {l : List Ev} {p : Pc} (he : Foreign t e) (h : PcOk t l p) : PcOk t (e :: l) p := by
  have h1 : lastReg t (e :: l) = lastReg t l := by
    cases e <;> simp only [lastReg, Foreign] at * <;> try rfl
    rw [if_neg he]
  have h2 : attempts t (e :: l) = attempts t l := by
    cases e <;> simp only [attempts, Foreign] at * <;> try rfl
    all_goals rw [if_neg he]
  have h3 : ∀ q, ackedOwn t q l → ackedOwn t q (e :: l) := by
    intro q hq
    cases e <;> simp only [ackedOwn, Foreign] at * <;> try exact hq
    · exact ⟨he, hq⟩
    · exact Or.inr hq
  cases p <;> simp only [PcOk, h1, h2] at * <;> first | exact h | exact ⟨h.1, fun hk => h3 _ (h.2 hk)⟩

theorem init_inv : Inv init :=
  ⟨trivial, fun _ => trivial, by simp [init], by simp [init], by simp [init], by simp [init], rfl, by rfl⟩

theorem updP_self (f : UInt32 → Option Bool) (i : UInt32) (v : Option Bool) : updP f i v i = v := by simp [updP]
theorem updP_ne (f : UInt32 → Option Bool) {i j : UInt32} (v : Option Bool) (h : j ≠ i) : updP f i v j = f j := by
  simp [updP, h]

theorem pcs_upd {log : List Ev} {pc : Nat → Pc} {t : Nat} {p : Pc} (h : ∀ t', t' ≠ t → PcOk t' log (pc t'))
    (hp : PcOk t log p) : ∀ t', PcOk t' log (upd pc t p t') := by
  intro t'
  by_cases ht : t' = t
  · subst ht; rw [upd_self]; exact hp
  · rw [upd_ne _ _ ht]; exact h t' ht

theorem threadStep_inv {s : St} (h : Inv s) (t : Nat) (b : Bool) : Inv (threadStep s t b) := by
  have hp := h.pcs t
  unfold threadStep
  split
  · exact h
  · rename_i q a heq
    rw [heq] at hp
    obtain ⟨h1, h2, h3⟩ := hp
    split
    · exact { h with pcs := pcs_upd (fun t' _ => h.pcs t') ⟨h1, by simp⟩ }
    · split
      · exact { h with pcs := pcs_upd (fun t' _ => h.pcs t') ⟨h1, h2, h3⟩ }
      · exact { h with pcs := pcs_upd (fun t' _ => h.pcs t') ⟨h1, h2, h3⟩ }
  · rename_i q a heq
    rw [heq] at hp
    refine { h with pcs := pcs_upd (fun t' _ => h.pcs t') hp, pend := ?_, owner := ?_ }
    · intro q' hq
      dsimp only at hq
      split at hq
      · by_cases he : q' = q
        · subst he; rw [updP_self] at hq; simp at hq
        · rw [updP_ne _ _ he] at hq; exact h.pend q' hq
      · exact h.pend q' hq
    · intro q' hq
      dsimp only at hq
      split at hq
      · rename_i hs
        by_cases he : q' = q
        · subst he; exact h.owner q' (by intro hn; rw [hn] at hs; simp at hs)
        · rw [updP_ne _ _ he] at hq; exact h.owner q' hq
      · exact h.owner q' hq
  · rename_i q a heq
    rw [heq] at hp
    obtain ⟨h1, h2, h3⟩ := hp
    split
    · refine ⟨⟨h1, by omega, h.legal⟩, ?_, h.pend, h.owner, ?_, fun q hq => List.mem_cons_of_mem _ (h.acks q hq), h.nums, h.next⟩
      · apply pcs_upd
        · intro t' ht
          exact pcOk_cons (by simp only [Foreign]; exact fun e => ht e.symm) (h.pcs t')
        · exact ⟨h1, by simp only [attempts, if_true]; omega, h3⟩
      · intro q' hq
        simp only [List.mem_append, List.mem_singleton] at hq
        rcases hq with hq | rfl
        · obtain ⟨t', ht⟩ := h.fwd q' hq
          exact ⟨t', List.mem_cons_of_mem _ ht⟩
        · exact ⟨t, List.mem_cons_self⟩
    · refine ⟨⟨h1, by omega, h.legal⟩, ?_, h.pend, h.owner, ?_, fun q hq => List.mem_cons_of_mem _ (h.acks q hq), h.nums, h.next⟩
      · apply pcs_upd
        · intro t' ht
          exact pcOk_cons (by simp only [Foreign]; exact fun e => ht e.symm) (h.pcs t')
        · exact ⟨h1, by simp only [attempts, if_true]; omega, h3⟩
      · intro q' hq
        obtain ⟨t', ht⟩ := h.fwd q' hq
        exact ⟨t', List.mem_cons_of_mem _ ht⟩
  · rename_i q a heq
    rw [heq] at hp
    obtain ⟨h1, h2, h3⟩ := hp
    split
    · exact { h with pcs := pcs_upd (fun t' _ => h.pcs t') ⟨h1, h2, h3⟩ }
    · rename_i hq
      exact { h with pcs := pcs_upd (fun t' _ => h.pcs t') ⟨h1, fun _ => own_of_since h1 (h.pend q hq)⟩ }
    · split
      · exact { h with pcs := pcs_upd (fun t' _ => h.pcs t') ⟨h1, h2, h3⟩ }
      · exact h
  · rename_i q a heq
    rw [heq] at hp
    obtain ⟨h1, h2, h3⟩ := hp
    split
    · exact { h with pcs := pcs_upd (fun t' _ => h.pcs t') ⟨h1, by simp⟩ }
    · refine { h with pcs := pcs_upd (fun t' _ => h.pcs t') ?_ }
      unfold loopHead
      split
      · exact ⟨h1, h2, by assumption⟩
      · exact ⟨h1, by simp⟩
  · rename_i q ok heq
    rw [heq] at hp
    obtain ⟨h1, h2⟩ := hp
    have hpend : ∀ q', updP s.pending q none q' ≠ none → s.pending q' = updP s.pending q none q' := by
      intro q' hq
      by_cases he : q' = q
      · subst he; rw [updP_self] at hq; simp at hq
      · rw [updP_ne _ _ he]
    cases ok with
    | true =>
      refine ⟨⟨h1, h2 rfl, h.legal⟩, ?_, ?_, ?_, ?_, fun q hq => List.mem_cons_of_mem _ (h.acks q hq), h.nums, h.next⟩
      · exact pcs_upd (fun t' _ => pcOk_cons trivial (h.pcs t')) trivial
      · intro q' hq
        dsimp only at hq
        exact h.pend q' ((hpend q' (by rw [hq]; simp)).trans hq)
      · intro q' hq
        exact h.owner q' (by rw [hpend q' hq]; exact hq)
      · intro q' hq
        obtain ⟨t', ht⟩ := h.fwd q' hq
        exact ⟨t', List.mem_cons_of_mem _ ht⟩
    | false =>
      refine ⟨⟨h1, h.legal⟩, ?_, ?_, ?_, ?_, fun q hq => List.mem_cons_of_mem _ (h.acks q hq), h.nums, h.next⟩
      · exact pcs_upd (fun t' _ => pcOk_cons trivial (h.pcs t')) trivial
      · intro q' hq
        dsimp only at hq
        exact h.pend q' ((hpend q' (by rw [hq]; simp)).trans hq)
      · intro q' hq
        exact h.owner q' (by rw [hpend q' hq]; exact hq)
      · intro q' hq
        obtain ⟨t', ht⟩ := h.fwd q' hq
        exact ⟨t', List.mem_cons_of_mem _ ht⟩

theorem step_inv {s : St} (h : Inv s) (o : Op) : Inv (step s o) := by
  cases o with
  | start t =>
    simp only [step]
    split
    · unfold start
      split
      · exact h
      · refine ⟨h.legal, ?_, ?_, ?_, ?_, fun q hq => List.mem_cons_of_mem _ (h.acks q hq), ?_, ?_⟩
        · apply pcs_upd
          · intro t' ht
            exact pcOk_cons (by simp only [Foreign]; exact fun e => ht e.symm) (h.pcs t')
          · exact ⟨by simp [lastReg], by simp [attempts], by omega⟩
        · intro q hq
          dsimp only at hq
          by_cases he : q = s.next
          · subst he; rw [updP_self] at hq; simp at hq
          · rw [updP_ne _ _ he] at hq
            exact ⟨fun e => he e.symm, h.pend q hq⟩
        · intro q hq
          dsimp only at hq
          simp only [regs, List.mem_cons]
          by_cases he : q = s.next
          · exact Or.inl he
          · rw [updP_ne _ _ he] at hq
            exact Or.inr (h.owner q hq)
        · intro q' hq
          obtain ⟨t', ht⟩ := h.fwd q' hq
          exact ⟨t', List.mem_cons_of_mem _ ht⟩
        · simp only [regs, numbers, h.nums, h.next]
        · simp only [h.next]
          rw [show UInt32.ofNat (s.started + 1 + 1) = UInt32.ofNat (s.started + 1) + UInt32.ofNat 1 by
            rw [← UInt32.ofNat_add]]
          rfl
    · exact h
  | step t b => exact threadStep_inv h t b
  | deliver i b =>
    simp only [step]
    split
    · exact h
    · rename_i q hq
      have hm := List.mem_of_getElem? hq
      refine ⟨⟨h.fwd q hm, h.legal⟩, fun t => pcOk_cons trivial (h.pcs t), h.pend, h.owner, ?_, ?_, h.nums, h.next⟩
      · intro q' hq'
        obtain ⟨t', ht⟩ := h.fwd q' (List.mem_of_mem_eraseIdx hq')
        exact ⟨t', List.mem_cons_of_mem _ ht⟩
      · intro q' hq'
        dsimp only at hq'
        split at hq'
        · simp only [List.mem_append, List.mem_singleton] at hq'
          rcases hq' with hq' | rfl
          · exact List.mem_cons_of_mem _ (h.acks q' hq')
          · exact List.mem_cons_self
        · exact List.mem_cons_of_mem _ (h.acks q' hq')
  | ackArrives i =>
    simp only [step]
    split
    · exact h
    · rename_i q hq
      have hm := List.mem_of_getElem? hq
      unfold acknowledge
      dsimp only
      split
      · exact { h with acks := fun q' hq' => h.acks q' (List.mem_of_mem_eraseIdx hq') }
      · rename_i x hx
        refine ⟨⟨h.acks q hm, h.legal⟩, fun t => pcOk_cons trivial (h.pcs t), ?_, ?_, ?_,
          fun q' hq' => List.mem_cons_of_mem _ (h.acks q' (List.mem_of_mem_eraseIdx hq')), h.nums, h.next⟩
        · intro q' hq'
          dsimp only at hq'
          by_cases he : q' = q
          · exact Or.inl he.symm
          · rw [updP_ne _ _ he] at hq'
            exact Or.inr (h.pend q' hq')
        · intro q' hq'
          dsimp only at hq'
          by_cases he : q' = q
          · subst he; exact h.owner q' (by rw [hx]; simp)
          · rw [updP_ne _ _ he] at hq'
            exact h.owner q' hq'
        · intro q' hq'
          obtain ⟨t', ht⟩ := h.fwd q' hq'
          exact ⟨t', List.mem_cons_of_mem _ ht⟩
  | loseRequest i => exact { h with fwd := fun q' hq' => h.fwd q' (List.mem_of_mem_eraseIdx hq') }
  | loseAck i => exact { h with acks := fun q' hq' => h.acks q' (List.mem_of_mem_eraseIdx hq') }
  | setConnected b => exact { h with }

theorem run_inv {s : St} (h : Inv s) (ops : List Op) : Inv (run s ops) := by
  induction ops generalizing s with
  | nil => exact h
  | cons o ops ih => exact ih (step_inv h o)

theorem legal_append {l1 l2 : List Ev} (h : Legal (l1 ++ l2)) : Legal l2 := by
  induction l1 with
  | nil => exact h
  | cons e l ih =>
    apply ih
    cases e <;> simp only [List.cons_append, Legal] at h
    all_goals first | exact h | exact h.2 | exact h.2.2

theorem lastReg_split {t : Nat} {q : UInt32} {l : List Ev} (h : lastReg t l = some q) :
    ∃ l3 l4, l = l3 ++ .registered t q :: l4 ∧ ∀ q', .registered t q' ∉ l3 := by
  induction l with
  | nil => simp [lastReg] at h
  | cons e l ih =>
    by_cases he : ∃ q', e = .registered t q'
    · obtain ⟨q', rfl⟩ := he
      simp only [lastReg, if_true, Option.some.injEq] at h
      subst h
      exact ⟨[], l, rfl, by simp⟩
    · have : lastReg t (e :: l) = lastReg t l := by
        cases e <;> simp only [lastReg]
        rename_i t' q'
        rw [if_neg (by rintro rfl; exact he ⟨q', rfl⟩)]
      rw [this] at h
      obtain ⟨l3, l4, h1, h2⟩ := ih h
      refine ⟨e :: l3, l4, by rw [h1]; rfl, ?_⟩
      intro q' hq
      simp only [List.mem_cons] at hq
      rcases hq with hq | hq
      · exact he ⟨q', hq.symm⟩
      · exact h2 q' hq

theorem ackedOwn_split {t : Nat} {q qr : UInt32} {l3 l4 : List Ev} (h : ackedOwn t q (l3 ++ .registered t qr :: l4)) :
    .acked q ∈ l3 := by
  induction l3 with
  | nil => simp [ackedOwn] at h
  | cons e l ih =>
    cases e <;> simp only [List.cons_append, ackedOwn] at h <;> simp only [List.mem_cons]
    case acked q' =>
      rcases h with rfl | h
      · exact Or.inl rfl
      · exact Or.inr (ih h)
    case registered => exact Or.inr (ih h.2)
    all_goals exact Or.inr (ih h)

theorem legal_tries {t : Nat} {q : UInt32} {l3 l4 : List Ev} (h : Legal (l3 ++ .registered t q :: l4))
    (hr : ∀ q', .registered t q' ∉ l3) :
    lastReg t (l3 ++ .registered t q :: l4) = some q ∧
    attempts t (l3 ++ .registered t q :: l4) = (l3.filter (isTry t)).length ∧ (l3.filter (isTry t)).length ≤ 5 ∧
    (∀ e ∈ l3, isTry t e → e = .transmitted t q ∨ e = .sendFailed t q) := by
  induction l3 with
  | nil => simp [lastReg, attempts]
  | cons e l ih =>
    have hl : Legal (l ++ .registered t q :: l4) := legal_append (l1 := [e]) h
    obtain ⟨i1, i2, i3, i4⟩ := ih hl (fun q' hq => hr q' (List.mem_cons_of_mem _ hq))
    simp only [List.cons_append]
    by_cases ht : isTry t e = true
    · have key : e = .transmitted t q ∨ e = .sendFailed t q := by
        cases e <;> simp only [isTry, Bool.false_eq_true, beq_iff_eq] at ht <;> subst ht <;>
          simp only [List.cons_append, Legal] at h
        · left; rw [i1] at h; rw [Option.some.inj h.1]
        · right; rw [i1] at h; rw [Option.some.inj h.1]
      have hlt : attempts t (l ++ .registered t q :: l4) < 5 := by
        rcases key with rfl | rfl <;> simp only [List.cons_append, Legal] at h <;> exact h.2.1
      rw [List.filter_cons_of_pos ht]
      refine ⟨?_, ?_, ?_, ?_⟩
      · rcases key with rfl | rfl <;> exact i1
      · rcases key with rfl | rfl <;> simp only [attempts, if_true, List.length_cons, i2]
      · simp only [List.length_cons]; omega
      · intro e' he' ht'
        simp only [List.mem_cons] at he'
        rcases he' with rfl | he'
        · exact key
        · exact i4 e' he' ht'
    · rw [List.filter_cons_of_neg ht]
      refine ⟨?_, ?_, i3, ?_⟩
      · cases e <;> simp only [lastReg] <;> try exact i1
        rename_i t' q'
        rw [if_neg (by rintro rfl; exact hr q' (List.mem_cons_self))]
        exact i1
      · cases e <;> simp only [attempts] <;> try exact i2
        · rename_i t' q'
          rw [if_neg (by rintro rfl; exact hr q' (List.mem_cons_self))]
          exact i2
        · rename_i t' q'
          rw [if_neg (by rintro rfl; simp [isTry] at ht)]
          exact i2
        · rename_i t' q'
          rw [if_neg (by rintro rfl; simp [isTry] at ht)]
          exact i2
      · intro e' he' ht'
        simp only [List.mem_cons] at he'
        rcases he' with rfl | he'
        · exact absurd ht' ht
        · exact i4 e' he' ht'

theorem legal_received {q : UInt32} {l : List Ev} (h : Legal l) (hr : .received q ∈ l) : ∃ t, .transmitted t q ∈ l := by
  induction l with
  | nil => simp at hr
  | cons e l ih =>
    have hl : Legal l := legal_append (l1 := [e]) h
    simp only [List.mem_cons] at hr
    rcases hr with rfl | hr
    · simp only [Legal] at h
      obtain ⟨t, ht⟩ := h.1
      exact ⟨t, List.mem_cons_of_mem _ ht⟩
    · obtain ⟨t, ht⟩ := ih hl hr
      exact ⟨t, List.mem_cons_of_mem _ ht⟩

theorem lastReg_mem {t : Nat} {q : UInt32} {l : List Ev} (h : lastReg t l = some q) : .registered t q ∈ l := by
  obtain ⟨l3, l4, rfl, _⟩ := lastReg_split h
  simp

theorem legal_transmitted {t : Nat} {q : UInt32} {l : List Ev} (h : Legal l) (hr : .transmitted t q ∈ l) :
    .registered t q ∈ l := by
  induction l with
  | nil => simp at hr
  | cons e l ih =>
    have hl : Legal l := legal_append (l1 := [e]) h
    simp only [List.mem_cons] at hr
    rcases hr with rfl | hr
    · simp only [Legal] at h
      exact List.mem_cons_of_mem _ (lastReg_mem h.1)
    · exact List.mem_cons_of_mem _ (ih hl hr)

theorem mem_regs {t : Nat} {q : UInt32} {l : List Ev} (h : .registered t q ∈ l) : q ∈ regs l := by
  induction l with
  | nil => simp at h
  | cons e l ih =>
    simp only [List.mem_cons] at h
    rcases h with rfl | h
    · simp [regs]
    · cases e <;> simp only [regs, List.mem_cons] <;> first | exact ih h | exact Or.inr (ih h)

theorem regs_append (l1 l2 : List Ev) : regs (l1 ++ l2) = regs l1 ++ regs l2 := by
  induction l1 with
  | nil => rfl
  | cons e l ih => cases e <;> simp only [List.cons_append, regs, ih]

theorem mem_numbers {q : UInt32} {n : Nat} (h : q ∈ numbers n) : ∃ i, i < n ∧ q = UInt32.ofNat (i + 1) := by
  induction n with
  | zero => simp [numbers] at h
  | succ n ih =>
    simp only [numbers, List.mem_cons] at h
    rcases h with rfl | h
    · exact ⟨n, by omega, rfl⟩
    · obtain ⟨i, h1, h2⟩ := ih h
      exact ⟨i, by omega, h2⟩

theorem numbers_nodup (n : Nat) (h : n ≤ 2 ^ 32) : (numbers n).Nodup := by
  induction n with
  | zero => simp [numbers]
  | succ n ih =>
    simp only [numbers, List.nodup_cons]
    refine ⟨?_, ih (by omega)⟩
    intro hm
    obtain ⟨i, h1, h2⟩ := mem_numbers hm
    have := congrArg UInt32.toNat h2
    simp only [UInt32.toNat_ofNat'] at this
    omega

/-- With fewer than 2^32 requests so far, a successful request was transmitted, received and acknowledged, in this order,
after its registration. -/
theorem legal_success {t : Nat} {q : UInt32} {l : List Ev} (h : Legal (.succeeded t q :: l)) (hn : (regs l).Nodup) :
    ∃ a b c d, l = a ++ .acked q :: b ++ .received q :: c ++ .transmitted t q :: d ∧ .registered t q ∈ d := by
  simp only [Legal] at h
  obtain ⟨h1, h2, h3⟩ := h
  obtain ⟨l3, l4, rfl, h5⟩ := lastReg_split h1
  have hq : .acked q ∈ l3 := ackedOwn_split h2
  have hnot : q ∉ regs l4 := by
    rw [regs_append] at hn
    simp only [regs] at hn
    have := (List.nodup_append.mp hn).2.1
    exact (List.nodup_cons.mp this).1
  have hnot3 : q ∉ regs l3 := by
    rw [regs_append] at hn
    simp only [regs] at hn
    intro hm
    exact (List.nodup_append.mp hn).2.2 q hm q (by simp) rfl
  obtain ⟨a, b, rfl⟩ := List.append_of_mem hq
  have hleg : Legal (.acked q :: (b ++ .registered t q :: l4)) := by
    have : a ++ .acked q :: b ++ .registered t q :: l4 = a ++ (.acked q :: (b ++ .registered t q :: l4)) := by simp
    rw [this] at h3
    exact legal_append h3
  simp only [Legal] at hleg
  obtain ⟨hr, hleg⟩ := hleg
  have hl4 : Legal l4 := by
    have : b ++ .registered t q :: l4 = (b ++ [.registered t q]) ++ l4 := by simp
    rw [this] at hleg
    exact legal_append hleg
  have hrb : .received q ∈ b := by
    simp only [List.mem_append, List.mem_cons] at hr
    rcases hr with hr | hr | hr
    · exact hr
    · simp at hr
    · obtain ⟨t', ht'⟩ := legal_received hl4 hr
      exact absurd (mem_regs (legal_transmitted hl4 ht')) hnot
  obtain ⟨b1, c, rfl⟩ := List.append_of_mem hrb
  have hleg2 : Legal (.received q :: (c ++ .registered t q :: l4)) := by
    have : b1 ++ .received q :: c ++ .registered t q :: l4 = b1 ++ (.received q :: (c ++ .registered t q :: l4)) := by simp
    rw [this] at hleg
    exact legal_append hleg
  simp only [Legal] at hleg2
  obtain ⟨⟨t', ht'⟩, hleg2⟩ := hleg2
  have htt : t' = t ∧ .transmitted t q ∈ c := by
    have hreg := legal_transmitted hleg2 ht'
    simp only [List.mem_append, List.mem_cons] at hreg
    have e : t' = t := by
      rcases hreg with hreg | hreg | hreg
      · exfalso
        apply hnot3
        rw [regs_append]
        simp only [regs]
        rw [List.mem_append]
        right
        rw [regs_append]
        simp only [regs]
        rw [List.mem_append]
        exact Or.inr (mem_regs hreg)
      · simp only [Ev.registered.injEq] at hreg; exact hreg.1
      · exact absurd (mem_regs hreg) hnot
    subst e
    refine ⟨rfl, ?_⟩
    simp only [List.mem_append, List.mem_cons] at ht'
    rcases ht' with ht' | ht' | ht'
    · exact ht'
    · simp at ht'
    · exact absurd (mem_regs (legal_transmitted hl4 ht')) hnot
  obtain ⟨c1, d, rfl⟩ := List.append_of_mem htt.2
  exact ⟨a, b1, c1, d ++ .registered t q :: l4, by simp, by simp⟩

end Verif.GwTransport

namespace Verif.GwReceiver

/-- Every handled request has been acknowledged before. -/
def AckedFirst : List Ev → Prop
  | [] => True
  | .handled m :: l => (m.kind = .request → .acked m.id ∈ l) ∧ AckedFirst l
  | .acked _ :: l => AckedFirst l

structure Inv (s : St) : Prop where
  ackedFirst : AckedFirst s.log
  queued : ∀ m ∈ s.queue, m.kind = .request → .acked m.id ∈ s.log
  sorted : List.Pairwise (fun a b => a.id < b.id) (handled s.log ++ s.queue)
  below : ∀ m ∈ handled s.log ++ s.queue, m.id < s.next ∧ m.kind ≠ .response
  kept : ∀ i, .acked i ∈ s.log → ∃ m ∈ handled s.log ++ s.queue, m.id = i ∧ m.kind = .request

theorem init_inv : Inv init := ⟨trivial, by simp [init], by simp [init, handled], by simp [init, handled], by simp [init]⟩

theorem push_inv {s : St} (h : Inv s) (m : Msg) (hm : m.id = s.next) (hk : m.kind = .notification) :
    Inv { s with queue := s.queue ++ [m], next := s.next + 1 } := by
  refine ⟨h.ackedFirst, ?_, ?_, ?_, ?_⟩
  · intro x hx
    simp only [List.mem_append, List.mem_singleton] at hx
    rcases hx with hx | rfl
    · exact h.queued x hx
    · intro e; rw [hk] at e; simp at e
  · dsimp only
    rw [← List.append_assoc, List.pairwise_append]
    refine ⟨h.sorted, by simp, ?_⟩
    intro a ha b hb
    simp only [List.mem_singleton] at hb
    subst hb
    rw [hm]; exact (h.below a ha).1
  · intro x hx
    dsimp only at hx ⊢
    rw [← List.append_assoc, List.mem_append, List.mem_singleton] at hx
    rcases hx with hx | rfl
    · have := h.below x hx; exact ⟨by omega, this.2⟩
    · exact ⟨by omega, by rw [hk]; simp⟩
  · intro i hi
    obtain ⟨x, hx, h1⟩ := h.kept i hi
    exact ⟨x, by dsimp only; rw [← List.append_assoc]; exact List.mem_append_left _ hx, h1⟩

theorem push_acked_inv {s : St} (h : Inv s) (m : Msg) (hm : m.id = s.next) (hk : m.kind = .request) :
    Inv { s with queue := s.queue ++ [m], next := s.next + 1, log := .acked m.id :: s.log } := by
  refine ⟨h.ackedFirst, ?_, ?_, ?_, ?_⟩
  · intro x hx
    simp only [List.mem_append, List.mem_singleton] at hx
    rcases hx with hx | rfl
    · intro e; exact List.mem_cons_of_mem _ (h.queued x hx e)
    · intro _; exact List.mem_cons_self
  · dsimp only [handled]
    rw [← List.append_assoc, List.pairwise_append]
    refine ⟨h.sorted, by simp, ?_⟩
    intro a ha b hb
    simp only [List.mem_singleton] at hb
    subst hb
    rw [hm]; exact (h.below a ha).1
  · intro x hx
    dsimp only [handled] at hx ⊢
    rw [← List.append_assoc, List.mem_append, List.mem_singleton] at hx
    rcases hx with hx | rfl
    · have := h.below x hx; exact ⟨by omega, this.2⟩
    · exact ⟨by omega, by rw [hk]; simp⟩
  · intro i hi
    dsimp only [handled]
    simp only [List.mem_cons, Ev.acked.injEq] at hi
    rcases hi with rfl | hi
    · exact ⟨m, by simp, rfl, hk⟩
    · obtain ⟨x, hx, h1⟩ := h.kept i hi
      exact ⟨x, by rw [← List.append_assoc]; exact List.mem_append_left _ hx, h1⟩

theorem bump_inv {s : St} (h : Inv s) : Inv { s with next := s.next + 1 } :=
  ⟨h.ackedFirst, h.queued, h.sorted, fun m hm => by have := h.below m hm; exact ⟨by simp; omega, this.2⟩, h.kept⟩

theorem step_inv {s : St} (h : Inv s) (o : Op) : Inv (step s o) := by
  cases o with
  | setHandler => exact ⟨h.ackedFirst, h.queued, h.sorted, h.below, h.kept⟩
  | shutdown => exact ⟨h.ackedFirst, h.queued, h.sorted, h.below, h.kept⟩
  | arrive k b =>
    simp only [step, arrive]
    split
    · exact bump_inv h
    · split
      · exact bump_inv h
      · split
        · split
          · exact push_acked_inv h ⟨s.next, k⟩ rfl (by assumption)
          · exact bump_inv h
        · rename_i h1 _ h2
          have hk : k = .notification := by
            cases k
            · exact absurd rfl h2
            · rfl
            · exact absurd rfl h1
          exact push_inv h ⟨s.next, k⟩ rfl hk
  | dispatch =>
    simp only [step, dispatch]
    split
    · exact h
    · split
      · split
        · exact ⟨h.ackedFirst, h.queued, h.sorted, h.below, h.kept⟩
        · exact h
      · rename_i m q hq
        have hmem : m ∈ s.queue := by rw [hq]; simp
        have happ : handled s.log ++ s.queue = handled s.log ++ [m] ++ q := by rw [hq]; simp
        refine ⟨⟨h.queued m hmem, h.ackedFirst⟩, ?_, ?_, ?_, ?_⟩
        · intro x hx e
          exact List.mem_cons_of_mem _ (h.queued x (by rw [hq]; exact List.mem_cons_of_mem _ hx) e)
        · dsimp only [handled]; rw [← happ]; exact h.sorted
        · dsimp only [handled]; rw [← happ]; exact h.below
        · intro i hi
          dsimp only [handled]
          rw [← happ]
          simp only [List.mem_cons] at hi
          rcases hi with hi | hi
          · simp at hi
          · exact h.kept i hi

theorem run_inv {s : St} (h : Inv s) (ops : List Op) : Inv (run s ops) := by
  induction ops generalizing s with
  | nil => exact h
  | cons o ops ih => exact ih (step_inv h o)

end Verif.GwReceiver
