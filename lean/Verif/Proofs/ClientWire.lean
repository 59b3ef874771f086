import Verif.Proofs.ClientMain
/-! No admitted message is lost while the connection is up and transmissions succeed. -/
namespace Verif.Client

/-- Every message admitted on this connection is on the wire, queued, or being transmitted. -/
structure Kept (T : Nat) (s : St) : Prop where
  up : s.open_ = true
  conn : s.conn ≠ .starting ∧ s.conn ≠ .stopped
  eng : s.eng ≠ .take ∧ s.eng ≠ .drain ∧ ∀ r, s.eng ≠ .stopCall r
  all : ∀ id ∈ s.order, id ∈ s.wire ∨ id ∈ ids s.queue ∨ (∃ m c, s.eng = .xmit m c ∧ m.id = id) ∨ ∃ t < T, s.uth t = .sending id

theorem Kept.user {T t : Nat} {s s' : St} {u : U} (h : Kept T s) (hs : ∀ i, s.uth t ≠ .sending i) (e1 : s'.uth = upd s.uth t u)
    (e2 : s'.open_ = s.open_) (e3 : s'.conn = s.conn) (e4 : s'.eng = s.eng) (e5 : s'.order = s.order) (e6 : s'.wire = s.wire)
    (e7 : s'.queue = s.queue) : Kept T s' := by
  refine ⟨e2.trans h.up, by rw [e3]; exact h.conn, by rw [e4]; exact h.eng, ?_⟩
  intro id hid
  rw [e5] at hid
  rw [e6, e7, e4]
  rcases h.all id hid with a | a | a | ⟨t', ht', a⟩
  · exact .inl a
  · exact .inr (.inl a)
  · exact .inr (.inr (.inl a))
  · refine .inr (.inr (.inr ⟨t', ht', ?_⟩))
    rw [e1, upd_ne]; exact a
    rintro rfl; exact hs _ a

theorem Kept.queued {T id : Nat} {req : Bool} {s s' : St} (h : Kept T s) (hs : tryQueue s id req = some s') : Kept T s' := by
  obtain ⟨-, rfl⟩ := tryQueue_eq hs
  refine ⟨h.up, h.conn, h.eng, ?_⟩
  intro i hi
  rcases List.mem_append.mp hi with hi | hi
  · rcases h.all i hi with a | a | a | a
    · exact .inl a
    · refine .inr (.inl ?_); simp only [ids, List.map_append, List.mem_append] at a ⊢; exact .inl a
    · exact .inr (.inr (.inl a))
    · exact .inr (.inr (.inr a))
  · refine .inr (.inl ?_)
    simp only [List.mem_singleton] at hi; subst hi
    simp [ids]

theorem Kept.loop {T : Nat} {s : St} {c : Cont} (h1 : s.open_ = true) (h2 : s.conn ≠ .starting ∧ s.conn ≠ .stopped)
    (h3 : ∀ id ∈ s.order, id ∈ s.wire ∨ id ∈ ids s.queue ∨ ∃ t < T, s.uth t = .sending id) : Kept T (loopHead s c) := by
  unfold loopHead
  split
  · rename_i hq
    split
    all_goals
      refine ⟨h1, h2, by simp, fun id hid => ?_⟩
      rcases h3 id hid with a | a | a
      · exact .inl a
      · exact .inr (.inl a)
      · exact .inr (.inr (.inr a))
  · rename_i m q hq
    refine ⟨h1, h2, by simp, fun id hid => ?_⟩
    rcases h3 id hid with a | a | a
    · exact .inl a
    · rw [hq] at a
      simp only [ids, List.map_cons, List.mem_cons] at a
      rcases a with a | a
      · exact .inr (.inr (.inl ⟨m, c, rfl, a.symm⟩))
      · exact .inr (.inl a)
    · exact .inr (.inr (.inr a))

/-- A successful transmission. -/
theorem transmit_ok {s : St} (h : s.open_ = true) (id : Nat) (req : Bool) :
    transmit s id req true = ({ s with wire := s.wire ++ [id], out := if req then s.out ++ [id] else s.out }, true) := by
  simp [transmit, h]

theorem Kept.noXmit {T : Nat} {s : St} (h : Kept T s) (hn : ∀ m c, s.eng ≠ .xmit m c) :
    ∀ id ∈ s.order, id ∈ s.wire ∨ id ∈ ids s.queue ∨ ∃ t < T, s.uth t = .sending id := by
  intro id hid
  rcases h.all id hid with a | a | ⟨m, c, a, -⟩ | a
  · exact .inl a
  · exact .inr (.inl a)
  · exact (hn m c a).elim
  · exact .inr (.inr a)

theorem Kept.step {cfg : Cfg} {T : Nat} {s : St} {op : Op} (h : Kept T s) (hs : Smooth op) : Kept T (step cfg T s op) := by
  unfold Verif.Client.step
  split
  · exact h
  cases op with
  | call t k =>
    dsimp only
    split
    · rename_i hh
      exact h.user (t := t) (u := .checked s.next k) (by intro i; rw [hh.2.1]; simp) rfl rfl rfl rfl rfl rfl rfl
    · exact h
  | enter t ok =>
    cases hs
    dsimp only
    split
    · rename_i ht
      have ns : ∀ {id k}, s.uth t = .checked id k → ∀ i, s.uth t ≠ .sending i := by
        intro id k e i; rw [e]; simp
      have que : ∀ {id req s' u} {s'' : St}, (∀ i, s.uth t ≠ .sending i) → tryQueue s id req = some s' → s''.uth = upd s'.uth t u →
          s''.open_ = s'.open_ → s''.conn = s'.conn → s''.eng = s'.eng → s''.order = s'.order → s''.wire = s'.wire →
          s''.queue = s'.queue → Kept T s'' := by
        intro id req s' u s'' hn hq e1 e2 e3 e4 e5 e6 e7
        exact (h.queued hq).user (t := t) (u := u) (by rw [tryQueue_uth hq]; exact hn) e1 e2 e3 e4 e5 e6 e7
      have direct : ∀ {id} {s'' : St}, (∀ i, s.uth t ≠ .sending i) → s''.uth = upd s.uth t .idle → s''.open_ = s.open_ →
          s''.conn = s.conn → s''.eng = s.eng → (∀ x ∈ s''.order, x ∈ s.order ∨ x = id) → s''.wire = s.wire ++ [id] →
          s''.queue = s.queue → Kept T s'' := by
        intro id s'' hn e1 e2 e3 e4 e5 e6 e7
        refine ⟨e2.trans h.up, by rw [e3]; exact h.conn, by rw [e4]; exact h.eng, ?_⟩
        intro i hi
        rw [e6, e7, e4]
        rcases e5 i hi with hi | rfl
        · rcases h.all i hi with a | a | a | ⟨t', ht', a⟩
          · exact .inl (by simp [a])
          · exact .inr (.inl a)
          · exact .inr (.inr (.inl a))
          · refine .inr (.inr (.inr ⟨t', ht', ?_⟩))
            rw [e1, upd_ne]; exact a
            rintro rfl; exact hn _ a
        · exact .inl (by simp)
      split
      · rename_i id hu
        unfold enterPlain
        rw [transmit_ok h.up]
        split
        · exact direct (id := id) (ns hu) rfl rfl rfl rfl (fun x hx => .inl hx) rfl rfl
        · split
          · split
            · split
              · exact h.user (ns hu) (u := .idle) rfl rfl rfl rfl rfl rfl rfl
              · rename_i hq; exact que (u := .idle) (ns hu) hq rfl rfl rfl rfl rfl rfl rfl
            · exact direct (id := id) (ns hu) rfl rfl rfl rfl (fun x hx => by simpa [ret] using hx) rfl rfl
          · split
            · exact h.user (ns hu) (u := .idle) rfl rfl rfl rfl rfl rfl rfl
            · rename_i hq; exact que (u := .idle) (ns hu) hq rfl rfl rfl rfl rfl rfl rfl
      · rename_i id hu
        unfold enterCb
        rw [transmit_ok h.up]
        split
        · split
          · exact h.user (ns hu) (u := .idle) rfl rfl rfl rfl rfl rfl rfl
          · rename_i hq; exact que (u := .idle) (ns hu) hq rfl rfl rfl rfl rfl rfl rfl
        · split
          · split
            · exact h.user (ns hu) (u := .idle) rfl rfl rfl rfl rfl rfl rfl
            · rename_i hq; exact que (u := .idle) (ns hu) hq rfl rfl rfl rfl rfl rfl rfl
          · rw [if_pos rfl]
            exact direct (id := id) (ns hu) rfl rfl rfl rfl (fun x hx => by simpa [ret] using hx) rfl rfl
      · rename_i id hu
        unfold enterWait
        split
        · split
          · exact h.user (ns hu) (u := .idle) rfl rfl rfl rfl rfl rfl rfl
          · rename_i hq; exact que (u := .blocked id) (ns hu) hq rfl rfl rfl rfl rfl rfl rfl
        · refine ⟨h.up, h.conn, h.eng, ?_⟩
          intro i hi
          dsimp only at hi ⊢
          rcases List.mem_append.mp hi with hi | hi
          · rcases h.all i hi with a | a | a | ⟨t', ht', a⟩
            · exact .inl a
            · exact .inr (.inl a)
            · exact .inr (.inr (.inl a))
            · refine .inr (.inr (.inr ⟨t', ht', ?_⟩))
              rw [upd_ne]; exact a
              rintro rfl; exact ns hu _ a
          · simp only [List.mem_singleton] at hi; subst hi
            exact .inr (.inr (.inr ⟨t, ht, by simp⟩))
      · exact h
    · exact h
  | xmit t ok =>
    cases hs
    dsimp only
    split
    · rename_i ht
      split
      · rename_i id hu
        rw [transmit_ok h.up]
        refine ⟨h.up, h.conn, h.eng, ?_⟩
        intro i hi
        dsimp only at hi ⊢
        rcases h.all i hi with a | a | a | ⟨t', ht', a⟩
        · exact .inl (by simp [a])
        · exact .inr (.inl a)
        · exact .inr (.inr (.inl a))
        · by_cases e : t' = t
          · subst e; rw [hu] at a; cases a; exact .inl (by simp)
          · refine .inr (.inr (.inr ⟨t', ht', ?_⟩))
            rw [upd_ne _ _ e]; exact a
      · exact h
    · exact h
  | relock t =>
    dsimp only
    split
    · split
      · rename_i id ok hu
        have ns : ∀ i, s.uth t ≠ .sending i := by intro i; rw [hu]; simp
        unfold relock
        split
        · exact h.user ns (u := .blocked id) rfl rfl rfl rfl rfl rfl rfl
        · split
          · exact h.user ns (u := .idle) rfl rfl rfl rfl rfl rfl rfl
          · exact h.user ns (u := .idle) rfl rfl rfl rfl rfl rfl rfl
      · exact h
    · exact h
  | wake t =>
    dsimp only
    split
    · split
      · rename_i id hu
        split
        · exact h.user (t := t) (by intro i; rw [hu]; simp) (u := .idle) rfl rfl rfl rfl rfl rfl rfl
        · exact h
      · exact h
    · exact h
  | stop =>
    dsimp only
    split
    · exact ⟨h.up, by simp, h.eng, h.all⟩
    · exact h
  | restart =>
    dsimp only
    rw [if_neg h.conn.2]; exact h
  | connect =>
    dsimp only
    rw [if_neg h.conn.1]; exact h
  | reply =>
    dsimp only
    split
    · rename_i he _
      have hn : ∀ m c, s.eng ≠ .xmit m c := by intro m c; rw [he]; simp
      split
      · split
        · exact Kept.loop h.up h.conn (h.noXmit hn)
        · exact ⟨h.up, by simp, h.eng, h.all⟩
      · exact h
    · exact h
  | bogusReply =>
    dsimp only
    split
    · rename_i he
      have hn : ∀ m c, s.eng ≠ .xmit m c := by intro m c; rw [he.1]; simp
      split
      · exact Kept.loop h.up h.conn (h.noXmit hn)
      · exact ⟨h.up, by simp, h.eng, h.all⟩
    · exact h
  | async =>
    dsimp only
    split
    · rename_i he
      have hn : ∀ m c, s.eng ≠ .xmit m c := by intro m c; rw [he.1]; simp
      exact Kept.loop h.up h.conn (h.noXmit hn)
    · exact h
  | engXmit ok =>
    cases hs
    dsimp only
    split
    · rename_i m c he
      rw [transmit_ok h.up]
      refine ⟨h.up, h.conn, by simp, ?_⟩
      intro i hi
      dsimp only at hi ⊢
      rcases h.all i hi with a | a | ⟨m', c', a, e⟩ | a
      · exact .inl (by simp [a])
      · exact .inr (.inl a)
      · rw [he] at a; cases a; exact .inl (by simp [e])
      · exact .inr (.inr (.inr a))
    · exact h
  | engFin =>
    dsimp only
    split
    · rename_i m ok c he
      have hn : ∀ m c, s.eng ≠ .xmit m c := by intro m c; rw [he]; simp
      have w : ∀ {s' : St}, s'.open_ = s.open_ → s'.conn = s.conn → s'.order = s.order → s'.wire = s.wire → s'.queue = s.queue →
          s'.uth = s.uth → (s'.eng ≠ .take ∧ s'.eng ≠ .drain ∧ ∀ r, s'.eng ≠ .stopCall r) → Kept T s' := by
        intro s' e1 e2 e3 e4 e5 e6 e7
        refine ⟨e1.trans h.up, by rw [e2]; exact h.conn, e7, ?_⟩
        intro i hi
        rw [e3] at hi
        rw [e4, e5, e6]
        rcases h.noXmit hn i hi with a | a | a
        · exact .inl a
        · exact .inr (.inl a)
        · exact .inr (.inr (.inr a))
      split
      · split
        · split
          · exact w rfl rfl rfl rfl rfl rfl (by simp)
          · exact w rfl rfl rfl rfl rfl rfl (by simp)
        · exact w rfl rfl rfl rfl rfl rfl (by simp)
      · exact Kept.loop h.up h.conn (h.noXmit hn)
    · exact h
  | engCall =>
    dsimp only
    have w : ∀ {s' : St}, (∀ m c, s.eng ≠ .xmit m c) → s'.open_ = s.open_ → s'.conn = s.conn → s'.order = s.order → s'.wire = s.wire →
        s'.queue = s.queue → s'.uth = s.uth → (s'.eng ≠ .take ∧ s'.eng ≠ .drain ∧ ∀ r, s'.eng ≠ .stopCall r) → Kept T s' := by
      intro s' hn e1 e2 e3 e4 e5 e6 e7
      refine ⟨e1.trans h.up, by rw [e2]; exact h.conn, e7, ?_⟩
      intro i hi
      rw [e3] at hi
      rw [e4, e5, e6]
      rcases h.noXmit hn i hi with a | a | a
      · exact .inl a
      · exact .inr (.inl a)
      · exact .inr (.inr (.inr a))
    have cb : ∀ c res, (callback s c res).open_ = s.open_ ∧ (callback s c res).conn = s.conn ∧ (callback s c res).order = s.order ∧
        (callback s c res).wire = s.wire ∧ (callback s c res).queue = s.queue ∧ (callback s c res).uth = s.uth := by
      intro c res; unfold callback; split <;> exact ⟨rfl, rfl, rfl, rfl, rfl, rfl⟩
    split
    · rename_i r c he
      obtain ⟨a1, a2, a3, a4, a5, a6⟩ := cb r .err
      exact w (by intro m c'; rw [he]; simp) a1 a2 a3 a4 a5 a6 (by simp)
    · rename_i c res he
      obtain ⟨a1, a2, a3, a4, a5, a6⟩ := cb c res
      exact w (by intro m c'; rw [he]; simp) a1 a2 a3 a4 a5 a6 (by simp)
    · rename_i r he
      exact (h.eng.2.2 r he).elim
    · exact h
  | engNext =>
    dsimp only
    split
    · rename_i c he
      have hn : ∀ m c, s.eng ≠ .xmit m c := by intro m c; rw [he]; simp
      exact Kept.loop h.up h.conn (h.noXmit hn)
    · exact h
  | teardown p => exact hs.elim
  | take => dsimp only; rw [if_neg h.eng.1]; exact h
  | drain => dsimp only; rw [if_neg h.eng.2.1]; exact h

theorem Kept.run {cfg : Cfg} {T : Nat} {ops : List Op} : ∀ {s : St}, Kept T s → (∀ op ∈ ops, Smooth op) → Kept T (run cfg T s ops) := by
  induction ops with
  | nil => intro s h _; exact h
  | cons op ops ih =>
    intro s h hs
    exact ih (h.step (hs op (by simp))) (fun o ho => hs o (by simp [ho]))

theorem nodup_length_le {l l' : List Nat} (h : l.Nodup) (hs : ∀ x ∈ l, x ∈ l') : l.length ≤ l'.length := by
  induction l generalizing l' with
  | nil => simp
  | cons a l ih =>
    obtain ⟨ha, hl⟩ := List.nodup_cons.mp h
    have h1 : ∀ x ∈ l, x ∈ l'.erase a := by
      intro x hx
      have hne : x ≠ a := by rintro rfl; exact ha hx
      exact (List.mem_erase_of_ne hne).mpr (hs x (by simp [hx]))
    have h2 := ih hl h1
    have h3 : a ∈ l' := hs a (by simp)
    rw [List.length_erase_of_mem h3] at h2
    have := List.length_pos_of_mem h3
    simp only [List.length_cons]; omega

theorem calmRun_prefix {cfg : Cfg} {T : Nat} : ∀ {ops ops' : List Op} {s : St}, CalmRun cfg T s (ops ++ ops') → CalmRun cfg T s ops
  | [], _, _, _ => trivial
  | _ :: _, _, _, h => ⟨h.1, calmRun_prefix h.2⟩

end Verif.Client
