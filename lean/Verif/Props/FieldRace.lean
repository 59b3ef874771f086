import Verif.Proofs.FieldRaceSend

namespace Verif.Demo.C112
open Verif.FieldRace Verif.FieldRaceSpec

/-- A whole `Send` of `k` steps. -/
def whole (b : Bool) (v k : Nat) : List (Op Nat) := .send b v :: List.replicate k (.sendStep b)
/-- Steps of the `Get`. -/
def gets (k : Nat) : List (Op Nat) := List.replicate k (.getStep false)
/-- Steps of the `Update`. -/
def ups (k : Nat) : List (Op Nat) := List.replicate k (.sendStep false)

/-- Three slots; 10, 20 and 30 have been sent. -/
def three : List (Op Nat) := whole false 10 7 ++ whole false 20 8 ++ whole false 30 9

/-- Two slots: a `Get` looks at each of them while an `Update` writes to it. -/
def missed : List (Op Nat) :=
  whole false 10 7 ++ whole false 20 8 ++ .send false 30 :: ups 4 ++ .get :: gets 1 ++ ups 5 ++
    .send false 40 :: ups 4 ++ gets 2

/-- Three slots, a consumer holds the sample with 10.  A `Get` is answered with 30, the next one with 10. -/
def back : List (Op Nat) :=
  three ++ [.take 0] ++ .get :: gets 7 ++ .send false 40 :: ups 5 ++ .get :: gets 2 ++ ups 5 ++
    .send false 50 :: ups 5 ++ gets 5

/-- An `Update` to 20 and a `Set` to 30 overlap; the `Set` ends last. -/
def both : List (Op Nat) :=
  whole false 10 7 ++ .send false 20 :: ups 4 ++ .send true 30 :: List.replicate 5 (.sendStep true) ++ ups 1 ++
    List.replicate 1 (.sendStep true) ++ ups 3 ++ List.replicate 3 (.sendStep true)

/-- One `Set` that overlaps with a `Get`. -/
def overlap : List (Op Nat) := .send true 40 :: List.replicate 6 (.sendStep true)

/-- `Serial`, step by step. -/
def serialB : St Nat → List (Op Nat) → Bool
  | _, [] => true
  | s, o :: ops =>
    (match o with | .send _ _ => decide (s.upd = .idle) && decide (s.set = .idle) | _ => true) && serialB (step s o) ops

theorem serial_of {s : St Nat} {ops : List (Op Nat)} (h : serialB s ops = true) : Serial s ops := by
  induction ops generalizing s with
  | nil => intro pre b v post e; cases pre <;> cases e
  | cons o ops ih =>
    unfold serialB at h
    rw [Bool.and_eq_true] at h
    intro pre b v post e
    cases pre with
    | nil => cases e; simpa [run] using h.1
    | cons q pre => cases e; exact ih h.2 pre b v post rfl

/-- Only slot `j` is in use at any moment. -/
def usesB (j : Nat) : St Nat → List (Op Nat) → Bool
  | s, ops => (List.range s.n).all (fun i => i == j || match s.slots i with | .ready _ rc => rc == 0 | _ => true) &&
    match ops with
    | [] => true
    | o :: ops => usesB j (step s o) ops

theorem uses_of {n : Nat} {q ops : List (Op Nat)} {j : Nat} (h : usesB j (run (start n 0) q) ops = true) :
    UsesAtMost (run (start n 0) q) ops 1 := by
  refine ⟨[j], by simp, ?_⟩
  have hg := good_run (good_start n 0) q
  generalize run (start n 0) q = s at *
  intro pre post i e hi
  induction pre generalizing s ops with
  | nil =>
    obtain ⟨ts, rc, hi⟩ := hi
    replace hi : s.slots i = .ready ts (rc + 1) := hi
    have hn : i < s.n := by
      by_cases hx : i < s.n
      · exact hx
      · have := hg.out i (by omega); rw [hi] at this; cases this
    unfold usesB at h
    rw [Bool.and_eq_true] at h
    have := List.all_eq_true.1 h.1 i (List.mem_range.2 hn)
    simp [hi] at this
    simp [this]
  | cons o pre ih =>
    subst e
    unfold usesB at h
    rw [Bool.and_eq_true] at h
    exact ih (step s o) h.2 (good_step hg o) rfl hi

end Verif.Demo.C112

namespace Verif.Props.C112
open Verif.FieldRace Verif.FieldRaceSpec Verif.Demo.C112
variable {V : Type}

/-- **C112.** Whatever overlaps, a value that answers a `Get` was sent by an `Update` or a `Set` before. -/
theorem answers_were_sent (n : Nat) (v0 : V) (ops : List (Op V)) (g : Got V) (hg : g ∈ (run (start n v0) ops).gets)
    (ts : Nat) (v : V) (ha : g.ans = .value ts v) : (ts, v) ∈ g.after :=
  (good_run (good_start n v0) ops).gets g hg ts v ha

example : ∃ g ∈ (run (start 3 0) back).gets, g.ans = .value 3 30 ∧ (3, 30) ∈ g.after := by decide +kernel

/-- **C112.** Whatever overlaps, nothing writes to the slot that a `Get` copies, and two sends never write to
the same slot. -/
theorem not_torn (n : Nat) (v0 : V) (ops : List (Op V)) (i : Nat) :
    (∀ ts, (run (start n v0) ops).get = .copy i ts → ∀ b v, (run (start n v0) ops).pc b ≠ .write v i) ∧
    (∀ v, (run (start n v0) ops).upd = .write v i → ∀ w, (run (start n v0) ops).set ≠ .write w i) := by
  have h := good_run (good_start n v0) ops
  generalize run (start n v0) ops = s at *
  refine ⟨fun ts hc b v hw => ?_, fun v h1 w h2 => ?_⟩
  · have h1 := h.gfine
    rw [hc] at h1
    obtain ⟨rc, h1⟩ := h1
    have h2 := h.own b i (by rw [hw]; exact rfl)
    rw [h1] at h2; cases h2
  · exact h.one i (show (s.upd).owns i by rw [h1]; exact rfl) (show (s.set).owns i by rw [h2]; exact rfl)

/-- A `Get` copies slot 2 while a `Set` writes to slot 0. -/
example : (run (start 3 0) (three ++ .get :: gets 5 ++ .send true 40 :: List.replicate 5 (.sendStep true))).get = .copy 2 3 ∧
    (run (start 3 0) (three ++ .get :: gets 5 ++ .send true 40 :: List.replicate 5 (.sendStep true))).set = .write 40 0 := by
  decide +kernel

/-- **C112.** Whatever overlaps, everything that is sent is the value of an `Update` or a `Set`. -/
theorem sent_by (n : Nat) (v0 : V) (ops : List (Op V)) (x : Nat × V) (hx : x ∈ (run (start n v0) ops).sent) :
    ∃ b, Op.send b x.2 ∈ ops :=
  (from_run (good_start n v0) (from_start (fun v => ∃ b, Op.send b v ∈ ops) n v0) ops (fun b _ h => ⟨b, h⟩)).sent x hx

example : (2, 20) ∈ (run (start 3 0) three).sent := by decide +kernel

/-- **C112.** Whatever overlaps, a `Get` keeps no reference: when none is running, a slot has the references
that consumers took and did not give back. -/
theorem given_back (n : Nat) (v0 : V) (ops : List (Op V)) (hget : (run (start n v0) ops).get = .idle) (i ts rc : Nat)
    (hi : (run (start n v0) ops).slots i = .ready ts rc) : rc = (run (start n v0) ops).held i := by
  have h := (good_run (good_start n v0) ops).rc i ts rc hi
  rw [hget] at h
  exact h

example : (run (start 3 0) (three ++ [.take 2] ++ .get :: gets 7)).get = .idle ∧
    (run (start 3 0) (three ++ [.take 2] ++ .get :: gets 7)).gets.length = 1 ∧
    (run (start 3 0) (three ++ [.take 2] ++ .get :: gets 7)).slots 2 = .ready 3 1 := by decide +kernel

/-- **C112.** An `Update` or a `Set` sends its value if nothing overlaps with its steps and there is a free slot.
It uses a free slot and changes no other. -/
theorem send_alone (n : Nat) (v0 : V) (q : List (Op V)) (b : Bool) (v : V) (hid : (run (start n v0) q).pc b = .idle)
    (hf : ∃ i, i < n ∧ Free (run (start n v0) q) i) :
    ∃ k, k ≤ n + 7 ∧ ∃ ts i, Free (run (start n v0) q) i ∧
      (run (start n v0) (q ++ .send b v :: List.replicate k (.sendStep b))).sent = (ts, v) :: (run (start n v0) q).sent ∧
      (run (start n v0) (q ++ .send b v :: List.replicate k (.sendStep b))).pc b = .idle ∧
      (run (start n v0) (q ++ .send b v :: List.replicate k (.sendStep b))).slots i = .ready ts 0 ∧
      (run (start n v0) (q ++ .send b v :: List.replicate k (.sendStep b))).data i = v ∧
      ∀ j, j ≠ i → (run (start n v0) (q ++ .send b v :: List.replicate k (.sendStep b))).slots j = (run (start n v0) q).slots j ∧
        (run (start n v0) (q ++ .send b v :: List.replicate k (.sendStep b))).data j = (run (start n v0) q).data j := by
  have hn : (run (start n v0) q).n = n := n_run _ _
  have key : ∀ k, run (start n v0) (q ++ .send b v :: List.replicate k (.sendStep b)) =
      run ((run (start n v0) q).goto b (.find v 0 0 none)) (List.replicate k (.sendStep b)) := by
    intro k
    rw [run_append, run_cons]
    unfold step; dsimp only; rw [hid]
  generalize run (start n v0) q = s at *
  obtain ⟨j, i, w, h1, h2, h3, h4, h5, h6, h7⟩ := find_run n (s := s.goto b (.find v 0 0 none)) (goto_pc_same ..)
    (by rw [goto_n, hn]; omega) (fun _ _ e => by cases e) (by
      obtain ⟨i, hi, hf⟩ := hf
      exact Or.inr ⟨i, Nat.zero_le _, by rw [goto_n, hn]; exact hi, by rw [goto_slots]; exact hf⟩)
  obtain ⟨ts, g1, g2, g3, g4⟩ := cas_run h2 (by rw [h5]; exact h3)
  refine ⟨j + 6, by omega, ts, i, ?_, ?_⟩
  · rw [goto_slots] at h3
    unfold Free; rw [h3]; exact h4
  · rw [key, ← List.replicate_append_replicate, run_append, g1, g2, g3, g4, h5, h6, h7, goto_slots, goto_sent, goto_data]
    exact ⟨rfl, rfl, put_same .., put_same .., fun j hj => ⟨put_other _ _ _ _ hj, put_other _ _ _ _ hj⟩⟩

/-- The consumer keeps the oldest value, and the `Get` is busy with the newest one. -/
example : Free (run (start 3 0) (three ++ .take 0 :: .get :: gets 5)) 1 ∧
    (run (start 3 0) (three ++ .take 0 :: .get :: gets 5 ++ .send true 40 :: List.replicate 10 (.sendStep true))).sent =
      [(4, 40), (3, 30), (2, 20), (1, 10)] := ⟨Or.inr ⟨2, by decide +kernel⟩, by decide +kernel⟩

/-- **C112.** A `Get` is answered after at most `100 * (n + 2) + 2` steps of its own, whatever the others do. -/
theorem answered (n : Nat) (v0 : V) (q1 q2 : List (Op V)) (hid : (run (start n v0) q1).get = .idle)
    (hk : 100 * (n + 2) + 2 ≤ getSteps q2) :
    ∃ nw g, (run (start n v0) (q1 ++ .get :: q2)).gets = nw ++ g :: (run (start n v0) q1).gets := by
  have hn : (run (start n v0) q1).n = n := n_run _ _
  rw [run_append, run_cons]
  generalize run (start n v0) q1 = t at *
  have hstep : step t .get = { t with get := .find 0 0 none, before := t.sent } := by
    unfold step; dsimp only; rw [hid]
  have := bound_run (step t .get) q2 (by rw [hstep]; intro e; cases e) (by
    rw [hstep]
    simp only [GPc.bound]
    rw [hn]
    omega)
  rw [hstep] at this ⊢
  exact this

example : (run (start 3 0) three).get = .idle ∧ 100 * (3 + 2) + 2 ≤ getSteps (overlap ++ gets 502) := by decide +kernel

/-- **C112.** An `Update` or a `Set` ends after at most `101 * (n + 2) + 6` steps of its own, whatever the
others do. -/
theorem send_ends (n : Nat) (v0 : V) (q1 q2 : List (Op V)) (b : Bool) (v : V)
    (hid : (run (start n v0) q1).pc b = .idle) (hno : ∀ w, Op.send b w ∉ q2)
    (hk : 101 * (n + 2) + 6 ≤ sendSteps b q2) : (run (start n v0) (q1 ++ .send b v :: q2)).pc b = .idle := by
  have hn : (run (start n v0) q1).n = n := n_run _ _
  rw [run_append, run_cons]
  generalize run (start n v0) q1 = t at *
  have hstep : step t (.send b v) = t.goto b (.find v 0 0 none) := by unfold step; dsimp only; rw [hid]
  refine bound_send_run _ b q2 hno ?_
  rw [hstep, goto_pc_same, goto_n, hn]
  simp only [WPc.bound]
  omega

example : (run (start 3 0) three).pc true = .idle ∧ 101 * (3 + 2) + 6 ≤ sendSteps true (List.replicate 511 (.sendStep true : Op Nat)) := by
  decide +kernel

/-- **C112.** A `Get` that does not overlap with an `Update` or a `Set` is answered with the value that was
sent last, or fails because the reference could not be taken.  Consumers may take and give back samples
at any time.  Up to the `Get`, `Update` and `Set` must not have overlapped each other. -/
theorem undisturbed_partial (n : Nat) (v0 : V) (q1 q2 : List (Op V)) (hser : Serial (start n v0) q1)
    (hu : (run (start n v0) q1).upd = .idle) (hs : (run (start n v0) q1).set = .idle)
    (hget : (run (start n v0) q1).get = .idle) (h0 : sends q2 = 0) (g : Got V)
    (hend : (run (start n v0) (q1 ++ .get :: q2)).gets = g :: (run (start n v0) q1).gets)
    (x : Nat × V) (hx : (run (start n v0) q1).sent.head? = some x) : g.ans = .value x.1 x.2 ∨ g.ans = .busy := by
  have hg1 := good_run (good_start n v0) q1
  have hs1 := ser_run (good_start n v0) (ser_start n v0) q1 hser
  rw [run_append] at hend
  generalize run (start n v0) q1 = t at *
  have hid : ∀ b, t.pc b = .idle := by intro b; cases b; exact hu; exact hs
  have h0' : sends (.get :: q2) = 0 := by rw [sends_cons]; simpa [sends] using h0
  have hst : Staying t.sent.length t (.get :: q2) := staying_quiet hg1 hid _ h0' _
  have hser2 : Serial t (.get :: q2) := by
    intro pre b v post e
    rw [e] at h0'
    simp [sends] at h0'
  have hd := get_ends hg1 hs1 (Nat.le_refl _) (present_idle hs1 hid) [] (.get :: q2 |>.tail) hser2 hst hget g hend
  obtain ⟨hb, h1 | ⟨_, h1⟩ | ⟨ts, v, h1, h2, h3⟩⟩ := hd
  · exact .inr h1
  · replace h1 : t.sent = [] := h1
    rw [h1] at hx; cases hx
  · refine .inl ?_
    have hf := good_run hg1 (.get :: q2)
    have hm := hf.gets' g (by rw [hend]; exact List.mem_cons_self) ts v h1
    rw [sent_quiet hg1 hid _ h0'] at hm
    rw [head_of hs1 hm h2] at hx
    cases hx
    exact h1

/-- Consumers take and give back samples during the `Get`. -/
example : Serial (start 3 0) three ∧
    (run (start 3 0) (three ++ .get :: ([.take 1, .getStep false, .take 2, .getStep true, .drop 1] ++ gets 10))).gets =
      [⟨[(3, 30), (2, 20), (1, 10)], [(3, 30), (2, 20), (1, 10)], .value 3 30⟩] :=
  ⟨serial_of (by decide +kernel), by decide +kernel⟩

/-- **C112.** A `Get` that nothing overlaps is answered with the value that was sent last. -/
theorem alone_partial (n : Nat) (v0 : V) (q1 : List (Op V)) (hser : Serial (start n v0) q1)
    (hu : (run (start n v0) q1).upd = .idle) (hs : (run (start n v0) q1).set = .idle)
    (hget : (run (start n v0) q1).get = .idle) (x : Nat × V) (hx : (run (start n v0) q1).sent.head? = some x) :
    ∃ k, k ≤ n + 4 ∧ (run (start n v0) (q1 ++ .get :: List.replicate k (.getStep false))).gets =
      ⟨(run (start n v0) q1).sent, (run (start n v0) q1).sent, .value x.1 x.2⟩ :: (run (start n v0) q1).gets := by
  have hn : (run (start n v0) q1).n = n := n_run _ _
  have hstep : step (run (start n v0) q1) .get =
      { run (start n v0) q1 with get := .find 0 0 none, before := (run (start n v0) q1).sent } := by
    unfold step; dsimp only; rw [hget]
  obtain ⟨a, ha, _, k, hk, hr, _⟩ := alone_run (n + 4) (s := step (run (start n v0) q1) .get) (by
    rw [hstep]
    exact ⟨rfl, Nat.zero_le _, by rw [hn]; omega, fun _ _ _ e => by cases e⟩)
  have e : (run (start n v0) (q1 ++ .get :: List.replicate k (.getStep false))).gets =
      ⟨(run (start n v0) q1).sent, (run (start n v0) q1).sent, a⟩ :: (run (start n v0) q1).gets := by
    rw [run_append, run_cons, hr, hstep]
  refine ⟨k, hk, ?_⟩
  have h0 : sends (List.replicate k (.getStep false : Op V)) = 0 := by
    simp [sends]
  rcases undisturbed_partial n v0 q1 _ hser hu hs hget h0 _ e x hx with h | h
  · rw [e]; dsimp only at h; rw [h]
  · exact absurd h ha

example : Serial (start 3 0) three ∧ (run (start 3 0) three).sent.head? = some (3, 30) :=
  ⟨serial_of (by decide +kernel), by decide +kernel⟩

/-- **C112.** `Update` and `Set` may overlap with a `Get` as long as there are enough slots: more than sends
begin and slots are in use at one moment or another, from a moment on when no `Update` and no `Set` was
running.  Then the `Get` is answered with a value that was the current one at some moment of the `Get`, or
fails because the reference could not be taken.  `Update` and `Set` must not overlap each other. -/
theorem atomic_partial (n : Nat) (v0 : V) (q0 q1 q2 : List (Op V)) (u : Nat)
    (hser : Serial (start n v0) (q0 ++ (q1 ++ .get :: q2)))
    (hu : (run (start n v0) q0).upd = .idle) (hs : (run (start n v0) q0).set = .idle)
    (huse : UsesAtMost (run (start n v0) q0) (q1 ++ .get :: q2) u)
    (hn : sends (q1 ++ .get :: q2) + u < n)
    (hget : (run (start n v0) (q0 ++ q1)).get = .idle) (g : Got V)
    (hend : (run (start n v0) (q0 ++ (q1 ++ .get :: q2))).gets = g :: (run (start n v0) (q0 ++ q1)).gets) :
    g.before = (run (start n v0) (q0 ++ q1)).sent ∧
    ((∃ ts v, g.ans = .value ts v ∧ CurrentDuring g (ts, v)) ∨ g.ans = .busy ∨ (g.ans = .noSample ∧ g.before = [])) := by
  obtain ⟨a1, a2⟩ := serial_append hser
  have hg0 := good_run (good_start n v0) q0
  have hs0 := ser_run (good_start n v0) (ser_start n v0) q0 a1
  have hn0 : (run (start n v0) q0).n = n := n_run _ _
  rw [run_append] at hend hget ⊢
  rw [run_append (start n v0) q0 q1] at hend
  generalize run (start n v0) q0 = t at *
  have hid : ∀ b, t.pc b = .idle := by intro b; cases b; exact hu; exact hs
  obtain ⟨l, hl, hl2⟩ := huse
  have hk : Keep l t.sent.length 0 t :=
    ⟨Nat.le_refl _, Nat.le_refl _, fun b hb => absurd (hid b) hb, fun b => by rw [hid b]; trivial,
      fun i hi => hl2 [] _ i rfl hi⟩
  have hst := staying_keep hg0 hs0 hk _ a2 (by rw [hn0]; omega) hl2
  obtain ⟨h1, h2⟩ := get_ends hg0 hs0 (Nat.le_refl _) (present_idle hs0 hid) q1 q2 a2 hst hget g hend
  refine ⟨h1, ?_⟩
  rcases h2 with h2 | ⟨h2, h3⟩ | ⟨ts, v, h2, _, h3⟩
  · exact .inr (.inl h2)
  · exact .inr (.inr ⟨h2, by rw [h1]; exact h3⟩)
  · exact .inl ⟨ts, v, h2, h3⟩

/-- Three slots, of which the `Get` uses one, and one `Set`. -/
example : Serial (start 3 0) (three ++ ([.send true 40] ++ .get :: (gets 3 ++ List.replicate 10 (.sendStep true) ++ gets 5))) ∧
    (run (start 3 0) (three ++ ([.send true 40] ++ .get :: (gets 3 ++ List.replicate 10 (.sendStep true) ++ gets 5)))).gets =
      [⟨[(3, 30), (2, 20), (1, 10)], [(4, 40), (3, 30), (2, 20), (1, 10)], .value 3 30⟩] ∧
    sends ([.send true 40] ++ .get :: (gets 3 ++ List.replicate 10 (.sendStep true) ++ gets 5)) + 1 < 3 :=
  ⟨serial_of (by decide +kernel), by decide +kernel, by decide +kernel⟩

example : UsesAtMost (run (start 3 0) three) ([.send true 40] ++ .get :: (gets 3 ++ List.replicate 10 (.sendStep true) ++ gets 5)) 1 :=
  uses_of (j := 2) (by decide +kernel)

/-- **C112.** Under the same conditions values do not go back: the sample is not older than that of any `Get`
that was answered before this one began. -/
theorem never_backwards_partial (n : Nat) (v0 : V) (q0 q1 q2 : List (Op V)) (u : Nat)
    (hser : Serial (start n v0) (q0 ++ (q1 ++ .get :: q2)))
    (hu : (run (start n v0) q0).upd = .idle) (hs : (run (start n v0) q0).set = .idle)
    (huse : UsesAtMost (run (start n v0) q0) (q1 ++ .get :: q2) u)
    (hn : sends (q1 ++ .get :: q2) + u < n)
    (hget : (run (start n v0) (q0 ++ q1)).get = .idle) (g : Got V)
    (hend : (run (start n v0) (q0 ++ (q1 ++ .get :: q2))).gets = g :: (run (start n v0) (q0 ++ q1)).gets)
    (g' : Got V) (hg' : g' ∈ (run (start n v0) (q0 ++ q1)).gets) (ts ts' : Nat) (v v' : V)
    (ha : g.ans = .value ts v) (ha' : g'.ans = .value ts' v') : ts' ≤ ts := by
  obtain ⟨a1, a2⟩ := serial_append hser
  obtain ⟨b1, _⟩ := serial_append a2
  have hg0 := good_run (good_start n v0) q0
  have hs0 := ser_run (good_start n v0) (ser_start n v0) q0 a1
  have hn0 : (run (start n v0) q0).n = n := n_run _ _
  rw [run_append] at hend hget hg'
  rw [run_append (start n v0) q0 q1] at hend
  generalize run (start n v0) q0 = t at *
  have hid : ∀ b, t.pc b = .idle := by intro b; cases b; exact hu; exact hs
  obtain ⟨l, hl, hl2⟩ := huse
  have hk : Keep l t.sent.length 0 t :=
    ⟨Nat.le_refl _, Nat.le_refl _, fun b hb => absurd (hid b) hb, fun b => by rw [hid b]; trivial,
      fun i hi => hl2 [] _ i rfl hi⟩
  have hst := staying_keep hg0 hs0 hk _ a2 (by rw [hn0]; omega) hl2
  obtain ⟨_, h2⟩ := get_ends hg0 hs0 (Nat.le_refl _) (present_idle hs0 hid) q1 q2 a2 hst hget g hend
  have h3 := (good_run hg0 q1).gets' g' hg' ts' v' ha'
  have h4 := (num_mem (ser_run hg0 hs0 q1 b1) h3).2
  rcases h2 with h2 | ⟨h2, _⟩ | ⟨ts2, v2, h2, h5, _⟩
  · rw [h2] at ha; cases ha
  · rw [h2] at ha; cases ha
  · rw [h2] at ha; cases ha; omega

/-- After a `Get` has been answered with 30, one that overlaps with a `Set` is answered with 40. -/
example : (run (start 3 0) ((three ++ .get :: gets 7) ++ ([.send true 40] ++ .get :: (gets 0 ++ List.replicate 10 (.sendStep true) ++ gets 8)))).gets =
      [⟨[(3, 30), (2, 20), (1, 10)], [(4, 40), (3, 30), (2, 20), (1, 10)], .value 4 40⟩,
        ⟨[(3, 30), (2, 20), (1, 10)], [(3, 30), (2, 20), (1, 10)], .value 3 30⟩] ∧
    Serial (start 3 0) ((three ++ .get :: gets 7) ++ ([.send true 40] ++ .get :: (gets 0 ++ List.replicate 10 (.sendStep true) ++ gets 8))) ∧
    UsesAtMost (run (start 3 0) (three ++ .get :: gets 7)) ([.send true 40] ++ .get :: (gets 0 ++ List.replicate 10 (.sendStep true) ++ gets 8)) 1 :=
  ⟨by decide +kernel, serial_of (by decide +kernel), uses_of (j := 0) (by decide +kernel)⟩

/-- **C112.** As long as `Update` and `Set` do not overlap, every value that is sent gets the next timestamp. -/
theorem stamps_partial (n : Nat) (v0 : V) (ops : List (Op V)) (hser : Serial (start n v0) ops) (i ts : Nat) (v : V)
    (hi : (run (start n v0) ops).sent[i]? = some (ts, v)) : ts + i = (run (start n v0) ops).sent.length :=
  (ser_run (good_start n v0) (ser_start n v0) ops hser).num i ts v hi

example : Serial (start 3 0) back ∧ (run (start 3 0) back).sent[1]? = some (3, 30) :=
  ⟨serial_of (by decide +kernel), by decide +kernel⟩

/-- **C112. Violated.** A `Get` of a field that has two slots, as is recommended for a field without
notifications, fails although the field had a value at all times: it looks at each slot just when an
`Update` writes to it. -/
theorem get_without_value_fails : Serial (start 2 0) missed ∧
    (run (start 2 0) missed).gets = [⟨[(2, 20), (1, 10)], [(3, 30), (2, 20), (1, 10)], .noSample⟩] :=
  ⟨serial_of (by decide +kernel), by decide +kernel⟩

/-- **C112. Violated.** A `Get` is answered with 30, and a later one with 10, which was replaced before the
first one began.  A consumer holds the sample with 10 all the time. -/
theorem goes_back_fails : Serial (start 3 0) back ∧
    (run (start 3 0) back).gets = [⟨[(3, 30), (2, 20), (1, 10)], [(4, 40), (3, 30), (2, 20), (1, 10)], .value 1 10⟩,
      ⟨[(3, 30), (2, 20), (1, 10)], [(3, 30), (2, 20), (1, 10)], .value 3 30⟩] ∧
    ¬ CurrentDuring ⟨[(3, 30), (2, 20), (1, 10)], [(4, 40), (3, 30), (2, 20), (1, 10)], .value 1 10⟩ (1, 10) :=
  ⟨serial_of (by decide +kernel), by decide +kernel, by unfold CurrentDuring; decide +kernel⟩

/-- **C112. Violated.** An `Update` to 20 and a `Set` to 30 overlap and get the same timestamp.  The `Set` ends
last, and nothing is running any more, but `Get` is answered with 20. -/
theorem set_is_lost_fails : (run (start 3 0) both).sent = [(2, 30), (2, 20), (1, 10)] ∧
    (run (start 3 0) both).upd = .idle ∧ (run (start 3 0) both).set = .idle ∧
    (run (start 3 0) (both ++ .get :: gets 7)).gets =
      [⟨[(2, 30), (2, 20), (1, 10)], [(2, 30), (2, 20), (1, 10)], .value 2 20⟩] := by decide +kernel

end Verif.Props.C112
