import Verif.Proofs.ShmLifeOffer
/-! A consumer that nobody disturbs connects. -/
namespace Verif.ShmLife

/-- The steps that are left until the consumer is connected. -/
def left : PPc → Nat
  | .pTry _ => 6
  | .pLk .ctl => 5
  | .pShm .ctl => 4
  | .pLk .dat => 3
  | .pShm .dat => 2
  | .pEnd => 1
  | _ => 0

/-- The consumer is on its way. -/
structure OnWay (s : St) (x : Nat) : Prop where
  way : (s.px x).pc = .conn ∨ 0 < left (s.px x).pc
  lk : s.sk.lk = false
  shm : ∀ p, (s.shm p).isSome = true
  lockf : ∀ p, (s.px x).pc ≠ .pShm p → s.lockf p = false

theorem onWay_next {c : Cfg} {s : St} {x : Nat} (h : OnWay s x) :
    OnWay (pxNext c s x true) x ∧ left ((pxNext c s x true).px x).pc ≤ left (s.px x).pc - 1 := by
  obtain ⟨hw, hl, hs, hf⟩ := h
  have hpart : ∀ p : Part, p ≠ .ctl → p = .dat := by intro p; cases p <;> simp
  unfold pxNext
  dsimp only
  split
  · rename_i k hp
    simp only [hl, Bool.false_and, Bool.false_eq_true, if_false]
    refine ⟨⟨?_, hl, hs, ?_⟩, ?_⟩ <;> simp_all [upd, left]
  · rename_i p hp
    split
    · rename_i o ho
      cases p <;> refine ⟨⟨?_, hl, hs, ?_⟩, ?_⟩ <;> simp_all [upd, left]
    · have := hf p (by simp [hp])
      simp only [this, Bool.false_eq_true, if_false]
      refine ⟨⟨?_, hl, hs, ?_⟩, ?_⟩
      · cases p <;> simp [upd, left]
      · intro q hq
        simp only [upd, if_true] at hq
        have hqp : q ≠ p := fun e => hq (by rw [e])
        simp only [setP, hqp, if_false]
        exact hf q (by simp [hp])
      · cases p <;> simp [upd, left, hp]
  · rename_i p hp
    obtain ⟨o, ho⟩ := Option.isSome_iff_exists.1 (hs p)
    rw [ho]
    dsimp only
    refine ⟨⟨?_, hl, hs, ?_⟩, ?_⟩
    · cases p <;> simp [upd, left]
    · intro q _
      simp only [setP]
      split
      · rfl
      · rename_i hqp
        exact hf q (by rw [hp]; intro e; cases e; exact hqp rfl)
    · cases p <;> simp [upd, left, hp]
  · rename_i hp
    refine ⟨⟨?_, hl, hs, ?_⟩, ?_⟩ <;> simp_all [upd, left]
  · rename_i hp; simp [hp, left] at hw
  · rename_i hp; simp [hp, left] at hw
  · rename_i hp; exact ⟨⟨hw, hl, hs, hf⟩, by simp [hp, left]⟩

theorem onWay_run {c : Cfg} {x : Nat} : ∀ (k : Nat) {s : St}, OnWay s x →
    OnWay (run c s (List.replicate k (.pxNext x true))) x ∧
    left ((run c s (List.replicate k (.pxNext x true))).px x).pc ≤ left (s.px x).pc - k := by
  intro k
  induction k with
  | zero => intro s h; exact ⟨h, by simp [run]⟩
  | succ k ih =>
    intro s h
    obtain ⟨h1, h2⟩ := onWay_next (c := c) h
    obtain ⟨h3, h4⟩ := ih h1
    rw [List.replicate_succ]
    have e : run c s (.pxNext x true :: List.replicate k (.pxNext x true)) =
        run c (pxNext c s x true) (List.replicate k (.pxNext x true)) := rfl
    rw [e]
    exact ⟨h3, by omega⟩

theorem orderlyFrom_prefix {c : Cfg} : ∀ (a : List Op) {b : List Op} {s : St},
    OrderlyFrom c s (a ++ b) → OrderlyFrom c s a := by
  intro a
  induction a with
  | nil =>
    intro b s h
    cases b with
    | nil => exact h
    | cons o b => exact ⟨h.1, h.2.1⟩
  | cons o a ih => intro b s h; exact ⟨h.1, h.2.1, ih h.2.2⟩

theorem orderly_prefix {c : Cfg} {a b : List Op} (h : Orderly c (a ++ b)) : Orderly c a :=
  orderlyFrom_prefix a h

/-- A step of a consumer that is not ended changes only the consumer, lock files and the table. -/
theorem pxNext_frame {c : Cfg} {s : St} {x : Nat} {ok : Bool} :
    ((pxNext c s x ok).px x).pc = .none ∨
    ((pxNext c s x ok).sk = s.sk ∧ (pxNext c s x ok).shm = s.shm) := by
  unfold pxNext
  dsimp only
  repeat' split
  all_goals first | exact Or.inr ⟨rfl, rfl⟩ | exact Or.inl (by simp [terminate, crash, noPx])

theorem pxNext_none {c : Cfg} {s : St} {x : Nat} {ok : Bool} (h : (s.px x).pc = .none) :
    pxNext c s x ok = s := by
  unfold pxNext
  simp [h]

theorem nexts_frame {c : Cfg} {x : Nat} : ∀ (k : Nat) {s : St},
    ((run c s (List.replicate k (.pxNext x true))).px x).pc = .none ∨
    ((run c s (List.replicate k (.pxNext x true))).sk = s.sk ∧
     (run c s (List.replicate k (.pxNext x true))).shm = s.shm) := by
  intro k
  induction k with
  | zero => intro s; exact Or.inr ⟨rfl, rfl⟩
  | succ k ih =>
    intro s
    rw [List.replicate_succ]
    have e : run c s (.pxNext x true :: List.replicate k (.pxNext x true)) =
        run c (pxNext c s x true) (List.replicate k (.pxNext x true)) := rfl
    rw [e]
    rcases pxNext_frame (c := c) (s := s) (x := x) (ok := true) with h | ⟨h1, h2⟩
    · left
      have stay : ∀ (k : Nat) (t : St), (t.px x).pc = .none →
          run c t (List.replicate k (.pxNext x true)) = t := by
        intro k
        induction k with
        | zero => intro t _; rfl
        | succ k ih2 =>
          intro t ht
          rw [List.replicate_succ]
          show run c (pxNext c t x true) (List.replicate k (.pxNext x true)) = t
          rw [pxNext_none ht, ih2 t ht]
      rw [stay k _ h]; exact h
    · rcases ih (s := pxNext c s x true) with h | ⟨h3, h4⟩
      · exact Or.inl h
      · exact Or.inr ⟨h3.trans h1, h4.trans h2⟩

theorem connect_frame {c : Cfg} {s : St} {x : Nat} (h : Connected (run c s (connect x)) x) :
    (run c s (connect x)).sk = s.sk ∧ (run c s (connect x)).shm = s.shm := by
  have e : run c s (connect x) =
      run c (step c s (.pxStart x true)) (List.replicate 6 (.pxNext x true)) := rfl
  have hs : (step c s (.pxStart x true)).sk = s.sk ∧ (step c s (.pxStart x true)).shm = s.shm := by
    simp only [step]
    repeat' split
    all_goals exact ⟨rfl, rfl⟩
  rw [e] at h ⊢
  rcases nexts_frame (c := c) (x := x) 6 (s := step c s (.pxStart x true)) with h1 | ⟨h1, h2⟩
  · unfold Connected at h; rw [h1] at h; cases h
  · exact ⟨h1.trans hs.1, h2.trans hs.2⟩

/-- A consumer connects to a service whose memory is complete and not locked. -/
theorem connect_done {c : Cfg} {s : St} {x i : Nat} (hx : x < c.n) (hp : (s.px x).pc = .none)
    (hu : s.usage = some i) (hl : s.sk.lk = false) (hs : ∀ p, (s.shm p).isSome = true)
    (hf : ∀ p, s.lockf p = false) : Connected (run c s (connect x)) x := by
  have e : run c s (connect x) =
      run c { s with px := upd s.px x { noPx with pc := .pTry 0, u := some i } }
        (List.replicate 6 (.pxNext x true)) := by
    simp only [connect, run, List.foldl_cons, step, hu, hx, hp, and_self, if_true]
  rw [e]
  obtain ⟨h1, h2⟩ := onWay_run (c := c) 6
    (s := { s with px := upd s.px x { noPx with pc := .pTry 0, u := some i } }) (x := x)
    ⟨by simp [upd, left], hl, hs, fun p _ => hf p⟩
  have h3 : left (({ s with px := upd s.px x { noPx with pc := .pTry 0, u := some i } } : St).px x).pc = 6 := by
    simp [upd, left]
  rw [h3] at h2
  rcases h1.way with h | h
  · exact h
  · omega

end Verif.ShmLife
