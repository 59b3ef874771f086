import Verif.Proofs.EngineClean2

namespace Verif.EngineClean

/-! ### Progress of the engine's thread -/

theorem run_append (qnx : Bool) (s : St) (a b : List Op) : run qnx s (a ++ b) = run qnx (run qnx s a) b := by
  simp [run, List.foldl_append]

theorem finish_idle (s : St) : (finish s).busy = .idle := by
  simp only [finish]
  split
  · rename_i h; exact h
  · rfl
  · rfl

theorem finish_queue (s : St) : (finish s).queue = s.queue := by
  simp only [finish]; split <;> rfl

theorem finish_now (s : St) : (finish s).now = s.now := by
  simp only [finish]; split <;> rfl

theorem reach_nil (qnx : Bool) (x : Cmd) (s : St) (post : List Cmd) (hb : s.busy = .idle) (hq : s.queue = x :: post) :
    ∃ ops, (∀ op ∈ ops, Engine op) ∧ (run qnx s ops).busy = .idle ∧ (∃ post', (run qnx s ops).queue = x :: post') ∧
      ∃ m, (run qnx s ops).now = some m ∧ x.due ≤ m := by
  cases hn : s.now with
  | none =>
    refine ⟨[.begin x.due], fun op ho => (by rw [List.mem_singleton.1 ho]; trivial), ?_⟩
    have e : run qnx s [.begin x.due] = { s with now := some x.due } := by
      simp only [run, List.foldl, step, begin', hb, hn]
    rw [e]
    exact ⟨hb, ⟨post, hq⟩, x.due, rfl, Nat.le_refl _⟩
  | some m =>
    by_cases hd : x.due > m
    · refine ⟨[.turn, .begin x.due], fun op ho => ?_, ?_⟩
      · rcases List.mem_cons.1 ho with rfl | ho
        · trivial
        · rw [List.mem_singleton.1 ho]; trivial
      have e : run qnx s [.turn, .begin x.due] = { s with now := some x.due } := by
        simp only [run, List.foldl, step, turn, begin', hb, hn, hq, if_pos hd]
      rw [e]
      exact ⟨hb, ⟨post, hq⟩, x.due, rfl, Nat.le_refl _⟩
    · exact ⟨[], fun _ ho => (by cases ho), hb, ⟨post, hq⟩, m, hn, by omega⟩

/-- The engine's thread comes to any command before which no command cleans up its owner. -/
theorem reach (qnx : Bool) (x : Cmd) : ∀ (n : Nat) (s : St) (pre post : List Cmd), pre.length ≤ n → Inv s → s.busy = .idle →
    s.queue = pre ++ x :: post → (∀ p ∈ pre, p.waiter ≠ none → p.owner ≠ x.owner) →
    ∃ ops, (∀ op ∈ ops, Engine op) ∧ (run qnx s ops).busy = .idle ∧ (∃ post', (run qnx s ops).queue = x :: post') ∧
      ∃ m, (run qnx s ops).now = some m ∧ x.due ≤ m := by
  intro n
  induction n with
  | zero =>
    intro s pre post hl h hb hq hp
    have : pre = [] := List.eq_nil_of_length_eq_zero (Nat.le_zero.1 hl)
    subst this
    exact reach_nil qnx x s post hb hq
  | succ n ih =>
    intro s pre post hl h hb hq hp
    cases pre with
    | nil => exact reach_nil qnx x s post hb hq
    | cons p pre =>
      have hle : p.due ≤ x.due := by
        have hs := h.sorted
        rw [hq] at hs
        exact (List.pairwise_cons.1 hs).1 x (by simp)
      -- first a state in which `p` is due
      have start : ∃ ops, (∀ op ∈ ops, Engine op) ∧ ∃ m, run qnx s ops = { s with now := some m } ∧ p.due ≤ m := by
        cases hn : s.now with
        | none =>
          refine ⟨[.begin x.due], fun op ho => (by rw [List.mem_singleton.1 ho]; trivial), x.due, ?_, hle⟩
          simp only [run, List.foldl, step, begin', hb, hn]
        | some m =>
          by_cases hd : p.due > m
          · refine ⟨[.turn, .begin x.due], fun op ho => ?_, x.due, ?_, hle⟩
            · rcases List.mem_cons.1 ho with rfl | ho
              · trivial
              · rw [List.mem_singleton.1 ho]; trivial
            simp only [run, List.foldl, step, turn, begin', hb, hn, hq, List.cons_append, if_pos hd]
          · exact ⟨[], fun _ ho => (by cases ho), m, (by simp only [run, List.foldl, ← hn]), by omega⟩
      obtain ⟨ops, ho, m, e, hd⟩ := start
      have hi : Inv (run qnx s (ops ++ [.turn, .finish])) := inv_run _ h
      have hl' : pre.length ≤ n := by simpa using hl
      have hd' : ¬ p.due > m := by omega
      have e2 : run qnx s (ops ++ [.turn, .finish]) = finish (turn { s with now := some m }) := by
        rw [run_append, e]; rfl
      have idle : (run qnx s (ops ++ [.turn, .finish])).busy = .idle := by rw [e2]; exact finish_idle _
      have all : ∀ op ∈ ops ++ [.turn, .finish], Engine op := fun op h' => by
        rcases List.mem_append.1 h' with h' | h'
        · exact ho op h'
        · rcases List.mem_cons.1 h' with rfl | h'
          · trivial
          · rw [List.mem_singleton.1 h']; trivial
      have cont : ∃ pre' post', (∀ q ∈ pre', q ∈ pre) ∧ pre'.length ≤ n ∧
          (run qnx s (ops ++ [.turn, .finish])).queue = pre' ++ x :: post' := by
        rw [e2, finish_queue]
        cases hw : p.waiter with
        | none =>
          refine ⟨pre, post, fun _ h => h, by omega, ?_⟩
          simp only [turn, hb, hq, List.cons_append, if_neg hd', hw]
        | some t =>
          have hne : p.owner ≠ x.owner := hp p (by simp) (by rw [hw]; intro e; cases e)
          refine ⟨pre.filter fun c => c.owner != p.owner, post.filter fun c => c.owner != p.owner,
            fun _ h => (List.mem_filter.1 h).1, Nat.le_trans (List.length_filter_le _ _) (by omega), ?_⟩
          have hne' : (x.owner != p.owner) = true := by simpa using fun e => hne e.symm
          simp only [turn, hb, hq, List.cons_append, if_neg hd', hw, processCleanup, List.filter_append]
          rw [List.filter_cons_of_pos (p := fun c : Cmd => c.owner != p.owner) hne']
      obtain ⟨pre', post', hsub, hlen, hq'⟩ := cont
      obtain ⟨ops', ho', r⟩ := ih _ pre' post' hlen hi idle hq' fun q hq => hp q (List.mem_cons_of_mem _ (hsub q hq))
      refine ⟨(ops ++ [.turn, .finish]) ++ ops', fun op h' => ?_, ?_⟩
      · rcases List.mem_append.1 h' with h' | h'
        · exact all op h'
        · exact ho' op h'
      · rw [run_append]; exact r

/-! ### The command of a blocked thread -/

/-- The command of thread `t` for owner `o` is there, being run or done, and no other thread cleans up `o`. -/
structure Alone (t o : Nat) (s : St) : Prop where
  cmd : (∃ c ∈ s.queue, c.waiter = some t ∧ c.owner = o) ∨ s.busy = .clean t ∨ s.ready t = true
  only : ∀ t' k, s.wait t' = some (o, k) → t' = t
  wt : ∃ k, s.wait t = some (o, k)

theorem alone_clean {t o o' : Nat} {s : St} (a : Alone t o s) (hne : o' ≠ o) : Alone t o (processCleanup s o') := by
  refine ⟨?_, a.only, a.wt⟩
  rcases a.cmd with ⟨c, hc, h1, h2⟩ | h | h
  · exact Or.inl ⟨c, List.mem_filter.2 ⟨hc, by simp [h2, Ne.symm hne]⟩, h1, h2⟩
  · exact Or.inr (Or.inl h)
  · exact Or.inr (Or.inr h)

theorem alone_step {qnx : Bool} {t o : Nat} {s : St} (h : Inv s) (a : Alone t o s) (op : Op) (hc : ¬ Cleans o op)
    (hr : op ≠ .resume t) : Alone t o (step qnx s op) := by
  have same : ∀ {s' : St}, s'.queue = s.queue → s'.busy = s.busy → s'.ready = s.ready → s'.wait = s.wait → Alone t o s' := by
    intro s' e1 e2 e3 e4
    refine ⟨?_, fun t' k => ?_, ?_⟩
    · rw [e1, e2, e3]; exact a.cmd
    · rw [e4]; exact a.only t' k
    · rw [e4]; exact a.wt
  cases op with
  | enqueue d o' =>
    refine ⟨?_, a.only, a.wt⟩
    rcases a.cmd with ⟨c, hc, h1⟩ | h | h
    · exact Or.inl ⟨c, mem_insert.2 (Or.inr hc), h1⟩
    · exact Or.inr (Or.inl h)
    · exact Or.inr (Or.inr h)
  | register o' => simp only [step, register]; split <;> exact same rfl rfl rfl rfl
  | unregister i => simp only [step, unregister]; split <;> exact same rfl rfl rfl rfl
  | call t' o' =>
    simp only [step, call]
    split
    · exact a
    · split
      · exact a
      · rename_i hw
        have ne : t ≠ t' := fun e => by
          obtain ⟨k, hk⟩ := a.wt
          rw [e, hw] at hk; cases hk
        refine ⟨?_, fun t2 k hk => ?_, ?_⟩
        · rcases a.cmd with ⟨c, hc, h1⟩ | h | h
          · exact Or.inl ⟨c, mem_insert.2 (Or.inr hc), h1⟩
          · exact Or.inr (Or.inl h)
          · exact Or.inr (Or.inr ((upd_ne _ _ ne).trans h))
        · by_cases e : t2 = t'
          · subst e
            dsimp only at hk
            rw [upd_same] at hk
            injection hk with hk
            injection hk with hk _
            exact absurd hk hc
          · dsimp only at hk
            rw [upd_ne _ _ e] at hk
            exact a.only t2 k hk
        · obtain ⟨k, hk⟩ := a.wt
          exact ⟨k, (upd_ne _ _ ne).trans hk⟩
  | resume t' =>
    simp only [step, resume]
    split
    · have ne : t ≠ t' := fun e => hr (by rw [e])
      refine ⟨?_, fun t2 k hk => ?_, ?_⟩
      · rcases a.cmd with h | h | h
        · exact Or.inl h
        · exact Or.inr (Or.inl h)
        · exact Or.inr (Or.inr ((upd_ne _ _ ne).trans h))
      · by_cases e : t2 = t'
        · subst e; dsimp only at hk; rw [upd_same] at hk; cases hk
        · dsimp only at hk; rw [upd_ne _ _ e] at hk; exact a.only t2 k hk
      · obtain ⟨k, hk⟩ := a.wt
        exact ⟨k, (upd_ne _ _ ne).trans hk⟩
    · exact a
  | cleanHere o' =>
    simp only [step, cleanHere]
    split
    · exact a
    · split
      · exact alone_clean a hc
      · exact a
  | serverClean o' =>
    simp only [step, serverClean]
    split
    · exact alone_clean a hc
    · exact a
  | «begin» n => simp only [step, begin']; split <;> exact same rfl rfl rfl rfl
  | turn =>
    simp only [step, turn]
    split
    · exact same rfl rfl rfl rfl
    · rename_i c q hb hn hq
      split
      · exact same rfl rfl rfl rfl
      · split
        · rename_i hw
          refine ⟨?_, a.only, a.wt⟩
          rcases a.cmd with ⟨x, hx, h1, h2⟩ | h | h
          · rw [hq] at hx
            rcases List.mem_cons.1 hx with rfl | hx
            · rw [hw] at h1; cases h1
            · exact Or.inl ⟨x, hx, h1, h2⟩
          · rw [hb] at h; cases h
          · exact Or.inr (Or.inr h)
        · rename_i t' hw
          refine ⟨?_, a.only, a.wt⟩
          by_cases e : t' = t
          · subst e; exact Or.inr (Or.inl rfl)
          · have hne : c.owner ≠ o := fun e' => by
              obtain ⟨⟨k, hk⟩, _⟩ := h.qw c (by rw [hq]; simp) t' hw
              rw [e'] at hk
              exact e (a.only t' k hk)
            rcases a.cmd with ⟨x, hx, h1, h2⟩ | h | h
            · rw [hq] at hx
              rcases List.mem_cons.1 hx with rfl | hx
              · exact absurd h2 hne
              · exact Or.inl ⟨x, List.mem_filter.2 ⟨hx, by simp [h2, Ne.symm hne]⟩, h1, h2⟩
            · rw [hb] at h; cases h
            · exact Or.inr (Or.inr h)
    · exact a
  | fire i =>
    simp only [step, fire]
    split
    · rename_i hb _ _
      refine ⟨?_, a.only, a.wt⟩
      rcases a.cmd with h | h | h
      · exact Or.inl h
      · rw [hb] at h; cases h
      · exact Or.inr (Or.inr h)
    · exact a
  | finish =>
    simp only [step, finish]
    split
    · exact a
    · rename_i hb
      refine ⟨?_, a.only, a.wt⟩
      rcases a.cmd with h | h | h
      · exact Or.inl h
      · rw [hb] at h; cases h
      · exact Or.inr (Or.inr h)
    · rename_i t' hb
      refine ⟨?_, a.only, a.wt⟩
      by_cases e : t = t'
      · subst e; exact Or.inr (Or.inr (upd_same _ _ _))
      · rcases a.cmd with h | h | h
        · exact Or.inl h
        · rw [hb] at h; injection h with h; exact absurd h.symm e
        · exact Or.inr (Or.inr ((upd_ne _ _ e).trans h))

theorem alone_run {qnx : Bool} {t o : Nat} : ∀ (ops : List Op) {s : St}, Inv s → Alone t o s → (∀ op ∈ ops, ¬ Cleans o op) →
    .resume t ∉ ops → Alone t o (run qnx s ops)
  | [], _, _, a, _, _ => a
  | op :: ops, _, h, a, hc, hr =>
    alone_run ops (inv_step h op) (alone_step h a op (hc op (by simp)) fun e => hr (by simp [e]))
      (fun x hx => hc x (by simp [hx])) fun hm => hr (by simp [hm])

theorem engine_no_clean {op : Op} (h : Engine op) (o t : Nat) : ¬ Cleans o op ∧ op ≠ .resume t := by
  cases op <;> first | exact h.elim | exact ⟨fun h => h, fun e => by cases e⟩

/-- The clean-up of a thread that is alone is done by steps of the engine's thread. -/
theorem alone_done (qnx : Bool) {t o : Nat} {s : St} (h : Inv s) (a : Alone t o s) :
    ∃ ops, (∀ op ∈ ops, Engine op) ∧ (run qnx s ops).ready t = true := by
  -- first the running callback ends
  have h1 : Inv (run qnx s [.finish]) := inv_run _ h
  have a1 : Alone t o (run qnx s [.finish]) := alone_run _ h a (fun op ho => by rw [List.mem_singleton.1 ho]; exact fun h => h)
    (fun hm => by cases List.mem_singleton.1 hm)
  have b1 : (run qnx s [.finish]).busy = .idle := finish_idle s
  have pre : ∃ ops, (∀ op ∈ ops, Engine op) ∧ (run qnx (run qnx s [.finish]) ops).ready t = true := by
    generalize run qnx s [.finish] = s1 at h1 a1 b1
    rcases a1.cmd with ⟨x, hx, hw, ho⟩ | hb | hr
    · obtain ⟨pre, post, hq⟩ := List.append_of_mem hx
      have hp : ∀ p ∈ pre, p.waiter ≠ none → p.owner ≠ x.owner := by
        intro p hp hn he
        cases hw' : p.waiter with
        | none => exact hn hw'
        | some t' =>
          obtain ⟨⟨k, hk⟩, _⟩ := h1.qw p (by rw [hq]; simp [hp]) t' hw'
          rw [he, ho] at hk
          have e := a1.only t' k hk
          subst e
          have hu := h1.u
          rw [hq] at hu
          exact (List.pairwise_append.1 hu).2.2 p hp x (by simp) t' hw' hw
      obtain ⟨ops, hops, r1, ⟨post', r2⟩, m, r3, r4⟩ := reach qnx x _ s1 pre post (Nat.le_refl _) h1 b1 hq hp
      refine ⟨ops ++ [.turn, .finish], fun op h' => ?_, ?_⟩
      · rcases List.mem_append.1 h' with h' | h'
        · exact hops op h'
        · rcases List.mem_cons.1 h' with rfl | h'
          · trivial
          · rw [List.mem_singleton.1 h']; trivial
      · rw [run_append]
        generalize run qnx s1 ops = s2 at r1 r2 r3
        have hd : ¬ x.due > m := by omega
        simp only [run, List.foldl, step, turn, r1, r2, r3, if_neg hd, hw, finish, upd_same]
    · rw [b1] at hb; cases hb
    · exact ⟨[], fun _ ho => (by cases ho), hr⟩
  obtain ⟨ops, ho, r⟩ := pre
  refine ⟨.finish :: ops, fun op h' => ?_, r⟩
  rcases List.mem_cons.1 h' with rfl | h'
  · trivial
  · exact ho op h'

theorem alone_call {t o : Nat} {s : St} (ho : o ≠ 0) (hb : ¬ Blocked s t) (hc : ¬ Cleaning s o) : Alone t o (call s t o) := by
  have hw : s.wait t = none := Classical.byContradiction hb
  simp only [call, if_neg ho, hw]
  refine ⟨Or.inl ⟨⟨s.next, 0, o, some t⟩, mem_insert.2 (Or.inl rfl), rfl, rfl⟩, fun t' k hk => ?_, s.next, upd_same _ _ _⟩
  by_cases e : t' = t
  · exact e
  · dsimp only at hk; rw [upd_ne _ _ e] at hk; exact (hc ⟨t', k, hk⟩).elim

end Verif.EngineClean
