import Verif.Spec.EngineClean

namespace Verif.EngineClean

theorem mem_insert {c x : Cmd} : ∀ {l : List Cmd}, x ∈ insert c l ↔ x = c ∨ x ∈ l
  | [] => by simp [insert]
  | y :: l => by
    simp only [insert]
    split
    · simp
    · simp only [List.mem_cons, mem_insert (l := l)]
      constructor
      · rintro (h | h | h) <;> simp [h]
      · rintro (h | h | h) <;> simp [h]

theorem pairwise_insert {R : Cmd → Cmd → Prop} {c : Cmd} : ∀ {l : List Cmd}, l.Pairwise R →
    (∀ x ∈ l, R c x ∧ R x c) → (insert c l).Pairwise R
  | [], _, _ => by simp [insert]
  | y :: l, h, hc => by
    simp only [insert]
    have h' := List.pairwise_cons.1 h
    split
    · exact List.pairwise_cons.2 ⟨fun x hx => (hc x hx).1, h⟩
    · refine List.pairwise_cons.2 ⟨fun x hx => ?_, pairwise_insert h'.2 fun x hx => hc x (by simp [hx])⟩
      rcases mem_insert.1 hx with rfl | hx
      · exact (hc y (by simp)).2
      · exact h'.1 x hx

theorem sorted_insert {c : Cmd} : ∀ {l : List Cmd}, l.Pairwise (fun a b => a.due ≤ b.due) →
    (insert c l).Pairwise (fun a b => a.due ≤ b.due)
  | [], _ => by simp [insert]
  | y :: l, h => by
    simp only [insert]
    have h' := List.pairwise_cons.1 h
    split
    · rename_i hd
      refine List.pairwise_cons.2 ⟨fun x hx => ?_, h⟩
      rcases List.mem_cons.1 hx with rfl | hx
      · omega
      · have := h'.1 x hx; omega
    · refine List.pairwise_cons.2 ⟨fun x hx => ?_, sorted_insert h'.2⟩
      rcases mem_insert.1 hx with rfl | hx
      · omega
      · exact h'.1 x hx

/-- Nothing that owner `o` registered before number `k` is there any more. -/
structure Gone (o k : Nat) (s : St) : Prop where
  q : ∀ c ∈ s.queue, c.waiter = none → c.owner = o → k ≤ c.id
  e : ∀ e ∈ s.eps, e.owner = o → k ≤ e.id
  b : ∀ i, s.busy = .callback i o → k ≤ i

structure Inv (s : St) : Prop where
  fresh : ∀ i o, (i, o) ∈ s.made → i < s.next
  uniq : ∀ i o o', (i, o) ∈ s.made → (i, o') ∈ s.made → o = o'
  q : ∀ c ∈ s.queue, c.waiter = none → (c.id, c.owner) ∈ s.made
  qw : ∀ c ∈ s.queue, ∀ t, c.waiter = some t → (∃ k, s.wait t = some (c.owner, k)) ∧ s.ready t = false ∧ s.busy ≠ .clean t ∧ c.due = 0
  u : s.queue.Pairwise fun a b => ∀ t, a.waiter = some t → b.waiter ≠ some t
  e : ∀ e ∈ s.eps, (e.id, e.owner) ∈ s.made
  b : ∀ i o, s.busy = .callback i o → (i, o) ∈ s.made
  cl : ∀ t, s.busy = .clean t → s.ready t = false ∧ ∃ o k, s.wait t = some (o, k) ∧ Gone o k s
  r : ∀ t, s.ready t = true → ∃ o k, s.wait t = some (o, k) ∧ Gone o k s
  w : ∀ t o k, s.wait t = some (o, k) → k ≤ s.next
  sorted : s.queue.Pairwise fun a b => a.due ≤ b.due

theorem gone_clean {o k o' : Nat} {s : St} (g : Gone o k s) : Gone o k (processCleanup s o') :=
  ⟨fun c hc => g.q c (List.mem_filter.1 hc).1, fun e he => g.e e (List.mem_filter.1 he).1, g.b⟩

theorem gone_step {qnx : Bool} {o k : Nat} {s : St} (g : Gone o k s) (hk : k ≤ s.next) (op : Op) : Gone o k (step qnx s op) := by
  cases op with
  | enqueue d o' =>
    refine ⟨fun c hc hw ho => ?_, g.e, g.b⟩
    rcases mem_insert.1 hc with rfl | hc
    · exact hk
    · exact g.q c hc hw ho
  | register o' =>
    simp only [step, register]
    split
    · refine ⟨g.q, fun e he ho => ?_, g.b⟩
      rcases List.mem_append.1 he with he | he
      · exact g.e e he ho
      · rw [List.mem_singleton.1 he]; exact hk
    · exact g
  | unregister i =>
    simp only [step, unregister]
    split
    · exact ⟨g.q, fun e he => g.e e (List.mem_filter.1 he).1, g.b⟩
    · exact g
  | call t o' =>
    simp only [step, call]
    split
    · exact g
    · split
      · exact g
      · refine ⟨fun c hc hw ho => ?_, g.e, g.b⟩
        rcases mem_insert.1 hc with rfl | hc
        · cases hw
        · exact g.q c hc hw ho
  | resume t =>
    simp only [step, resume]
    split
    · exact ⟨g.q, g.e, g.b⟩
    · exact g
  | cleanHere o' =>
    simp only [step, cleanHere]
    split
    · exact g
    · split
      · exact gone_clean g
      · exact g
  | serverClean o' =>
    simp only [step, serverClean]
    split
    · exact gone_clean g
    · exact g
  | «begin» n =>
    simp only [step, begin']
    split
    · exact ⟨g.q, g.e, g.b⟩
    · exact g
  | turn =>
    simp only [step, turn]
    split
    · exact ⟨g.q, g.e, g.b⟩
    · rename_i c q hb hn hq
      split
      · exact ⟨g.q, g.e, g.b⟩
      · split
        · rename_i hw
          refine ⟨fun x hx => g.q x (by rw [hq]; simp [show x ∈ q from hx]), g.e, fun i hi => ?_⟩
          dsimp only at hi
          injection hi with h1 h2
          rw [← h1]
          exact g.q c (by rw [hq]; simp) hw h2
        · refine ⟨fun x hx => g.q x ?_, fun e he => g.e e (List.mem_filter.1 he).1, fun i hi => ?_⟩
          · rw [hq]; exact List.mem_cons_of_mem _ (List.mem_filter.1 hx).1
          · cases hi
    · exact g
  | fire i =>
    simp only [step, fire]
    split
    · rename_i e hb hn hf
      refine ⟨g.q, g.e, fun i' hi => ?_⟩
      dsimp only at hi
      injection hi with h1 h2
      rw [← h1]
      exact g.e e (List.mem_of_find?_eq_some hf) h2
    · exact g
  | finish =>
    simp only [step, finish]
    split
    · exact g
    · exact ⟨g.q, g.e, fun _ h => by cases h⟩
    · exact ⟨g.q, g.e, fun _ h => by cases h⟩

theorem inv_init : Inv init :=
  ⟨fun _ _ h => (by cases h), fun _ _ _ h => (by cases h), fun _ h => (by cases h), fun _ h => (by cases h), List.Pairwise.nil,
   fun _ h => (by cases h), fun _ _ h => (by cases h), fun _ h => (by cases h), fun _ h => (by cases h), fun _ _ _ h => (by cases h),
   List.Pairwise.nil⟩

theorem inv_clean {s : St} (h : Inv s) (o : Nat) : Inv (processCleanup s o) :=
  ⟨h.fresh, h.uniq, fun c hc => h.q c (List.mem_filter.1 hc).1, fun c hc => h.qw c (List.mem_filter.1 hc).1,
   h.u.sublist List.filter_sublist, fun e he => h.e e (List.mem_filter.1 he).1, h.b,
   fun t ht => (by
    obtain ⟨a, o', k, b, g⟩ := h.cl t ht
    exact ⟨a, o', k, b, gone_clean g⟩),
   fun t ht => (by
    obtain ⟨o', k, b, g⟩ := h.r t ht
    exact ⟨o', k, b, gone_clean g⟩), h.w, h.sorted.sublist List.filter_sublist⟩

theorem inv_enqueue {s : St} (h : Inv s) (d o : Nat) : Inv (enqueue s d o) := by
  have hg : ∀ o' k, k ≤ s.next → Gone o' k s → Gone o' k (enqueue s d o) :=
    fun o' k hk g => gone_step (qnx := false) g hk (.enqueue d o)
  refine ⟨fun i o' hm => ?_, fun i a b ha hb => ?_, fun c hc hw => ?_, fun c hc t ht => ?_, pairwise_insert h.u fun x _ => ⟨?_, ?_⟩,
    fun e he => List.mem_cons_of_mem _ (h.e e he), fun i o' hb => List.mem_cons_of_mem _ (h.b i o' hb), fun t ht => ?_, fun t ht => ?_,
    fun t o' k hw => Nat.le_succ_of_le (h.w t o' k hw), sorted_insert h.sorted⟩
  · rcases List.mem_cons.1 hm with e | hm
    · injection e with e _; subst e; exact Nat.lt_succ_self _
    · exact Nat.lt_succ_of_lt (h.fresh i o' hm)
  · rcases List.mem_cons.1 ha with e | ha <;> rcases List.mem_cons.1 hb with e' | hb
    · injection e with _ e; injection e' with _ e'; rw [e, e']
    · injection e with e _; subst e; exact absurd (h.fresh _ _ hb) (Nat.lt_irrefl _)
    · injection e' with e' _; subst e'; exact absurd (h.fresh _ _ ha) (Nat.lt_irrefl _)
    · exact h.uniq i a b ha hb
  · rcases mem_insert.1 hc with rfl | hc
    · exact List.mem_cons_self
    · exact List.mem_cons_of_mem _ (h.q c hc hw)
  · rcases mem_insert.1 hc with rfl | hc
    · cases ht
    · exact h.qw c hc t ht
  · intro t ht; cases ht
  · intro t _ ht; cases ht
  · obtain ⟨a, o', k, b, g⟩ := h.cl t ht
    exact ⟨a, o', k, b, hg o' k (h.w _ _ _ b) g⟩
  · obtain ⟨o', k, b, g⟩ := h.r t ht
    exact ⟨o', k, b, hg o' k (h.w _ _ _ b) g⟩

theorem inv_register {s : St} (h : Inv s) (o : Nat) : Inv (register s o) := by
  have hg : ∀ o' k, k ≤ s.next → Gone o' k s → Gone o' k (register s o) :=
    fun o' k hk g => gone_step (qnx := false) g hk (.register o)
  simp only [register] at hg ⊢
  split at hg
  · rename_i i0 o0 hb0
    refine ⟨fun i o' hm => ?_, fun i a b ha hb => ?_, fun c hc hw => List.mem_cons_of_mem _ (h.q c hc hw), h.qw, h.u,
      fun e he => ?_, fun i o' hb => List.mem_cons_of_mem _ (h.b i o' hb), fun t ht => ?_, fun t ht => ?_,
      fun t o' k hw => Nat.le_succ_of_le (h.w t o' k hw), h.sorted⟩
    · rcases List.mem_cons.1 hm with e | hm
      · injection e with e _; subst e; exact Nat.lt_succ_self _
      · exact Nat.lt_succ_of_lt (h.fresh i o' hm)
    · rcases List.mem_cons.1 ha with e | ha <;> rcases List.mem_cons.1 hb with e' | hb
      · injection e with _ e; injection e' with _ e'; rw [e, e']
      · injection e with e _; subst e; exact absurd (h.fresh _ _ hb) (Nat.lt_irrefl _)
      · injection e' with e' _; subst e'; exact absurd (h.fresh _ _ ha) (Nat.lt_irrefl _)
      · exact h.uniq i a b ha hb
    · rcases List.mem_append.1 he with he | he
      · exact List.mem_cons_of_mem _ (h.e e he)
      · rw [List.mem_singleton.1 he]; exact List.mem_cons_self
    · dsimp only at ht; rw [hb0] at ht; cases ht
    · obtain ⟨o', k, b, g⟩ := h.r t ht
      exact ⟨o', k, b, hg o' k (h.w _ _ _ b) g⟩
  · exact h

theorem inv_unregister {s : St} (h : Inv s) (i : Nat) : Inv (unregister s i) := by
  have hg : ∀ o' k, k ≤ s.next → Gone o' k s → Gone o' k (unregister s i) :=
    fun o' k hk g => gone_step (qnx := false) g hk (.unregister i)
  simp only [unregister] at hg ⊢
  split at hg
  · rename_i i0 o0 hb0
    refine ⟨h.fresh, h.uniq, h.q, h.qw, h.u, fun e he => h.e e (List.mem_filter.1 he).1, h.b, fun t ht => ?_, fun t ht => ?_, h.w, h.sorted⟩
    · dsimp only at ht; rw [hb0] at ht; cases ht
    · obtain ⟨o', k, b, g⟩ := h.r t ht
      exact ⟨o', k, b, hg o' k (h.w _ _ _ b) g⟩
  · exact h

theorem upd_same {α : Type} (f : Nat → α) (i : Nat) (a : α) : upd f i a i = a := by simp [upd]
theorem upd_ne {α : Type} (f : Nat → α) {i j : Nat} (a : α) (h : j ≠ i) : upd f i a j = f j := by simp [upd, h]

theorem inv_call {s : St} (h : Inv s) (t o : Nat) : Inv (call s t o) := by
  have hg : ∀ o' k, k ≤ s.next → Gone o' k s → Gone o' k (call s t o) :=
    fun o' k hk g => gone_step (qnx := false) g hk (.call t o)
  simp only [call] at hg ⊢
  split
  · exact h
  · rename_i ho
    rw [if_neg ho] at hg
    split
    · exact h
    · rename_i hw
      simp only [hw] at hg
      have nq : ∀ c ∈ s.queue, c.waiter ≠ some t := fun c hc e => by
        obtain ⟨⟨k, hk⟩, _⟩ := h.qw c hc t e
        rw [hw] at hk; cases hk
      refine ⟨fun i o' hm => Nat.lt_succ_of_lt (h.fresh i o' hm), h.uniq, fun c hc hn => ?_, fun c hc t' ht => ?_,
        pairwise_insert h.u fun x hx => ⟨?_, ?_⟩, h.e, h.b, fun t' ht => ?_, fun t' ht => ?_, fun t' o' k hk => ?_, sorted_insert h.sorted⟩
      · rcases mem_insert.1 hc with rfl | hc
        · cases hn
        · exact h.q c hc hn
      · rcases mem_insert.1 hc with rfl | hc
        · injection ht with ht
          subst ht
          refine ⟨⟨s.next, upd_same _ _ _⟩, upd_same _ _ _, fun hb => ?_, rfl⟩
          obtain ⟨_, o', k, b, _⟩ := h.cl _ hb
          rw [hw] at b; cases b
        · have : t' ≠ t := fun e => nq c hc (by rw [ht, e])
          obtain ⟨⟨k, a⟩, b, c', d⟩ := h.qw c hc t' ht
          exact ⟨⟨k, (upd_ne _ _ this).trans a⟩, (upd_ne _ _ this).trans b, c', d⟩
      · intro t' ht; injection ht with ht; subst ht; exact nq x hx
      · intro t' ht e; injection e with e; subst e; exact nq x hx ht
      · obtain ⟨a, o', k, b, g⟩ := h.cl t' ht
        have : t' ≠ t := fun e => by rw [e, hw] at b; cases b
        exact ⟨(upd_ne _ _ this).trans a, o', k, (upd_ne _ _ this).trans b, hg o' k (h.w _ _ _ b) g⟩
      · by_cases e : t' = t
        · subst e; dsimp only at ht; rw [upd_same] at ht; cases ht
        · dsimp only at ht; rw [upd_ne _ _ e] at ht
          obtain ⟨o', k, b, g⟩ := h.r t' ht
          exact ⟨o', k, (upd_ne _ _ e).trans b, hg o' k (h.w _ _ _ b) g⟩
      · by_cases e : t' = t
        · subst e; dsimp only at hk; rw [upd_same] at hk; injection hk with hk; injection hk with _ hk
          rw [← hk]; exact Nat.le_succ _
        · dsimp only at hk; rw [upd_ne _ _ e] at hk
          exact Nat.le_succ_of_le (h.w t' o' k hk)

theorem inv_resume {s : St} (h : Inv s) (t : Nat) : Inv (resume s t) := by
  simp only [resume]
  split
  · rename_i hr
    have gg : ∀ {o k}, Gone o k s → Gone o k { s with wait := upd s.wait t none, ready := upd s.ready t false } := fun g => ⟨g.q, g.e, g.b⟩
    refine ⟨h.fresh, h.uniq, h.q, fun c hc t' ht => ?_, h.u, h.e, h.b, fun t' ht => ?_, fun t' ht => ?_, fun t' o k hk => ?_, h.sorted⟩
    · obtain ⟨⟨k, a⟩, b, c', d⟩ := h.qw c hc t' ht
      have : t' ≠ t := fun e => by rw [e, hr] at b; cases b
      exact ⟨⟨k, (upd_ne _ _ this).trans a⟩, (upd_ne _ _ this).trans b, c', d⟩
    · obtain ⟨a, o', k, b, g⟩ := h.cl t' ht
      have : t' ≠ t := fun e => by rw [e, hr] at a; cases a
      exact ⟨(upd_ne _ _ this).trans a, o', k, (upd_ne _ _ this).trans b, gg g⟩
    · by_cases e : t' = t
      · subst e; dsimp only at ht; rw [upd_same] at ht; cases ht
      · dsimp only at ht; rw [upd_ne _ _ e] at ht
        obtain ⟨o', k, b, g⟩ := h.r t' ht
        exact ⟨o', k, (upd_ne _ _ e).trans b, gg g⟩
    · by_cases e : t' = t
      · subst e; dsimp only at hk; rw [upd_same] at hk; cases hk
      · dsimp only at hk; rw [upd_ne _ _ e] at hk
        exact h.w t' o k hk
  · exact h

theorem inv_begin {s : St} (h : Inv s) (n : Nat) : Inv (begin' s n) := by
  have hg : ∀ o' k, k ≤ s.next → Gone o' k s → Gone o' k (begin' s n) :=
    fun o' k hk g => gone_step (qnx := false) g hk (.begin n)
  simp only [begin'] at hg ⊢
  split at hg
  · rename_i hb hn
    refine ⟨h.fresh, h.uniq, h.q, h.qw, h.u, h.e, h.b, fun t ht => ?_, fun t ht => ?_, h.w, h.sorted⟩
    · dsimp only at ht; rw [hb] at ht; cases ht
    · obtain ⟨o', k, b, g⟩ := h.r t ht
      exact ⟨o', k, b, hg o' k (h.w _ _ _ b) g⟩
  · exact h

theorem inv_turn {s : St} (h : Inv s) : Inv (turn s) := by
  have hg : ∀ o' k, k ≤ s.next → Gone o' k s → Gone o' k (turn s) :=
    fun o' k hk g => gone_step (qnx := false) g hk .turn
  simp only [turn]
  split
  · exact ⟨h.fresh, h.uniq, h.q, h.qw, h.u, h.e, h.b, fun t ht => (by
      obtain ⟨a, o, k, b, g⟩ := h.cl t ht; exact ⟨a, o, k, b, ⟨g.q, g.e, g.b⟩⟩), fun t ht => (by
      obtain ⟨o, k, b, g⟩ := h.r t ht; exact ⟨o, k, b, ⟨g.q, g.e, g.b⟩⟩), h.w, h.sorted⟩
  · rename_i n c q hb hn hq
    have hc : c ∈ s.queue := by rw [hq]; simp
    have hx : ∀ x ∈ q, x ∈ s.queue := fun x hx => by rw [hq]; simp [hx]
    have hu := h.u; rw [hq] at hu; have hu := List.pairwise_cons.1 hu
    have hs := h.sorted; rw [hq] at hs; have hs := List.pairwise_cons.1 hs
    split
    · exact ⟨h.fresh, h.uniq, h.q, h.qw, h.u, h.e, h.b, fun t ht => (by
        obtain ⟨a, o, k, b, g⟩ := h.cl t ht; exact ⟨a, o, k, b, ⟨g.q, g.e, g.b⟩⟩), fun t ht => (by
        obtain ⟨o, k, b, g⟩ := h.r t ht; exact ⟨o, k, b, ⟨g.q, g.e, g.b⟩⟩), h.w, h.sorted⟩
    · rename_i hd
      split
      · rename_i hw
        simp only [turn, hb, hn, hq, if_neg hd, hw] at hg
        refine ⟨h.fresh, h.uniq, fun x hx' => h.q x (hx x hx'), fun x hx' t ht => ?_, hu.2, h.e, fun i o hi => ?_, fun t ht => (by cases ht),
          fun t ht => ?_, h.w, hs.2⟩
        · obtain ⟨a, b, _, d⟩ := h.qw x (hx x hx') t ht
          exact ⟨a, b, (fun e => by cases e), d⟩
        · dsimp only at hi; injection hi with h1 h2; subst h1; subst h2; exact h.q c hc hw
        · obtain ⟨o', k, b, g⟩ := h.r t ht
          exact ⟨o', k, b, by simpa only [hb, hn, hq] using hg o' k (h.w _ _ _ b) g⟩
      · rename_i t hw
        simp only [turn, hb, hn, hq, if_neg hd, hw] at hg
        obtain ⟨⟨k, hk⟩, hr, _, _⟩ := h.qw c hc t hw
        refine ⟨h.fresh, h.uniq, fun x hx' => h.q x (hx x (List.mem_filter.1 hx').1), fun x hx' t' ht => ?_,
          hu.2.sublist List.filter_sublist, fun e he => h.e e (List.mem_filter.1 he).1, fun i o hi => (by cases hi), fun t' ht => ?_,
          fun t' ht => ?_, h.w, hs.2.sublist List.filter_sublist⟩
        · have hx2 := (List.mem_filter.1 hx').1
          obtain ⟨a, b, _, d⟩ := h.qw x (hx x hx2) t' ht
          refine ⟨a, b, fun e => ?_, d⟩
          injection e with e
          subst e
          exact hu.1 x hx2 t hw ht
        · dsimp only at ht; injection ht with ht; subst ht
          refine ⟨hr, c.owner, k, hk, fun x hx' _ ho => ?_, fun e he ho => ?_, fun i hi => (by cases hi)⟩
          · have := (List.mem_filter.1 hx').2; simp [ho] at this
          · have := (List.mem_filter.1 he).2; simp [ho] at this
        · obtain ⟨o', k, b, g⟩ := h.r t' ht
          have g' := hg o' k (h.w _ _ _ b) g
          exact ⟨o', k, b, ⟨g'.q, g'.e, g'.b⟩⟩
  · exact h

theorem inv_fire {s : St} (h : Inv s) (i : Nat) : Inv (fire s i) := by
  have hg : ∀ o' k, k ≤ s.next → Gone o' k s → Gone o' k (fire s i) :=
    fun o' k hk g => gone_step (qnx := false) g hk (.fire i)
  simp only [fire]
  split
  · rename_i e hb hn hf
    simp only [fire, hb, hn, hf] at hg
    refine ⟨h.fresh, h.uniq, h.q, fun x hx' t ht => ?_, h.u, h.e, fun i o hi => ?_, fun t ht => (by cases ht), fun t ht => ?_, h.w, h.sorted⟩
    · obtain ⟨a, b, _, d⟩ := h.qw x hx' t ht
      exact ⟨a, b, (fun e => by cases e), d⟩
    · dsimp only at hi; injection hi with h1 h2; subst h1; subst h2; exact h.e e (List.mem_of_find?_eq_some hf)
    · obtain ⟨o', k, b, g⟩ := h.r t ht
      exact ⟨o', k, b, by simpa only [hn] using hg o' k (h.w _ _ _ b) g⟩
  · exact h

theorem inv_finish {s : St} (h : Inv s) : Inv (finish s) := by
  simp only [finish]
  split
  · exact h
  · rename_i i o hb
    refine ⟨h.fresh, h.uniq, h.q, fun x hx' t ht => ?_, h.u, h.e, fun _ _ e => (by cases e), fun _ e => (by cases e), fun t ht => ?_, h.w, h.sorted⟩
    · obtain ⟨a, b, _, d⟩ := h.qw x hx' t ht
      exact ⟨a, b, (fun e => by cases e), d⟩
    · obtain ⟨o', k, b, g⟩ := h.r t ht
      exact ⟨o', k, b, ⟨g.q, g.e, (fun _ e => by cases e)⟩⟩
  · rename_i t hb
    obtain ⟨hr, o, k, hk, g⟩ := h.cl t hb
    refine ⟨h.fresh, h.uniq, h.q, fun x hx' t' ht => ?_, h.u, h.e, fun _ _ e => (by cases e), fun _ e => (by cases e), fun t' ht => ?_, h.w, h.sorted⟩
    · obtain ⟨a, b, c, d⟩ := h.qw x hx' t' ht
      have : t' ≠ t := fun e => by subst e; exact c hb
      exact ⟨a, (upd_ne _ _ this).trans b, (fun e => by cases e), d⟩
    · by_cases e : t' = t
      · subst e; exact ⟨o, k, hk, ⟨g.q, g.e, (fun _ e => by cases e)⟩⟩
      · dsimp only at ht; rw [upd_ne _ _ e] at ht
        obtain ⟨o', k, b, g⟩ := h.r t' ht
        exact ⟨o', k, b, ⟨g.q, g.e, (fun _ e => by cases e)⟩⟩

theorem inv_step {qnx : Bool} {s : St} (h : Inv s) (op : Op) : Inv (step qnx s op) := by
  cases op with
  | enqueue d o => exact inv_enqueue h d o
  | register o => exact inv_register h o
  | unregister i => exact inv_unregister h i
  | call t o => exact inv_call h t o
  | resume t => exact inv_resume h t
  | cleanHere o =>
    simp only [step, cleanHere]
    split
    · exact h
    · split
      · exact inv_clean h o
      · exact h
  | serverClean o =>
    simp only [step, serverClean]
    split
    · exact inv_clean h o
    · exact h
  | «begin» n => exact inv_begin h n
  | turn => exact inv_turn h
  | fire i => exact inv_fire h i
  | finish => exact inv_finish h

theorem inv_run {qnx : Bool} : ∀ (ops : List Op) {s : St}, Inv s → Inv (run qnx s ops)
  | [], _, h => h
  | op :: ops, _, h => inv_run ops (inv_step h op)

end Verif.EngineClean
