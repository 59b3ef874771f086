import Verif.Proofs.FieldRaceKeep

namespace Verif.FieldRace
open Verif.FieldRaceSpec
variable {V : Type}

/-- No step of the schedule takes a slot with at least that timestamp. -/
def Staying (lo : Nat) (s : St V) (ops : List (Op V)) : Prop :=
  ∀ pre o post, ops = pre ++ o :: post → Stays lo (run s pre) (step (run s pre) o)

theorem staying_cons {lo : Nat} {s : St V} {o : Op V} {ops : List (Op V)} (h : Staying lo s (o :: ops)) :
    Stays lo s (step s o) ∧ Staying lo (step s o) ops :=
  ⟨h [] o ops rfl, fun pre p post e => h (o :: pre) p post (by rw [e]; rfl)⟩

theorem staying_append {lo : Nat} {s : St V} {a b : List (Op V)} (h : Staying lo s (a ++ b)) :
    Staying lo s a ∧ Staying lo (run s a) b := by
  refine ⟨fun pre o post e => h pre o (post ++ b) (by rw [e]; simp), fun pre o post e => ?_⟩
  have := h (a ++ pre) o post (by rw [e]; simp)
  rwa [run_append] at this

theorem staying_mk {lo : Nat} {s : St V} {o : Op V} {ops : List (Op V)} (h1 : Stays lo s (step s o))
    (h2 : Staying lo (step s o) ops) : Staying lo s (o :: ops) := by
  intro pre p post e
  cases pre with
  | nil => cases e; exact h1
  | cons q pre => cases e; exact h2 pre p post rfl

theorem n_step (s : St V) (o : Op V) : (step s o).n = s.n := by
  cases o with
  | send b v => unfold step; dsimp only; split; exact goto_n _ _ _; rfl
  | sendStep b =>
    unfold step; dsimp only; unfold St.send
    split
    · rfl
    · exact goto_n _ _ _
    · split <;> simp
    all_goals simp
  | get => unfold step; dsimp only; split <;> rfl
  | getStep sp =>
    unfold step; dsimp only; unfold St.getStep
    split
    · rfl
    · unfold St.findNewest
      split
      · split
        · split <;> rfl
        · rfl
      · split <;> rfl
    · split
      · rfl
      · split <;> rfl
    · rfl
    · split <;> rfl
  | take i => unfold step; dsimp only; split <;> rfl
  | drop i =>
    unfold step; dsimp only
    split
    · split <;> rfl
    · rfl

theorem n_run (s : St V) (ops : List (Op V)) : (run s ops).n = s.n := by
  induction ops generalizing s with
  | nil => rfl
  | cons o ops ih => rw [run_cons, ih, n_step]

theorem sends_cons (o : Op V) (ops : List (Op V)) : sends (o :: ops) = sends [o] + sends ops := by
  cases o <;> simp [sends] <;> omega

theorem staying_keep {s : St V} (hg : Good s) (hs : Ser s) {l : List Nat} {lo c : Nat} (h : Keep l lo c s)
    (ops : List (Op V)) (hser : Serial s ops) (hn : c + sends ops + l.length < s.n)
    (hu : ∀ pre post i, ops = pre ++ post → InUse (run s pre) i → i ∈ l) : Staying lo s ops := by
  induction ops generalizing s c with
  | nil => intro pre o post e; cases pre <;> cases e
  | cons o ops ih =>
    obtain ⟨h1, h2⟩ := serial_cons hser
    rw [sends_cons] at hn
    obtain ⟨h3, h4⟩ := keep_step hg hs h o h1 (by omega) (fun i hi => hu [o] ops i rfl hi)
    refine staying_mk h4 (ih (good_step hg o) (ser_step hg hs o h1) h3 h2 (by rw [n_step]; omega) ?_)
    intro pre post i e hi
    exact hu (o :: pre) post i (by rw [e]; rfl) hi

theorem staying_quiet {s : St V} (hg : Good s) (hid : ∀ b, s.pc b = .idle) (ops : List (Op V)) (h0 : sends ops = 0)
    (lo : Nat) : Staying lo s ops := by
  induction ops generalizing s with
  | nil => intro pre o post e; cases pre <;> cases e
  | cons o ops ih =>
    rw [sends_cons] at h0
    obtain ⟨h1, h2⟩ := quiet_step hg hid o (by omega) lo
    exact staying_mk h2 (ih (good_step hg o) h1 (by omega))

/-- What has been sent since is in the slots. -/
def Present (lo : Nat) (s : St V) : Prop :=
  ∀ t, lo ≤ t → 0 < t → t ≤ s.sent.length → ∃ i rc, s.slots i = .ready t rc

theorem send_sent {s : St V} (hs : Ser s) (b : Bool) :
    (s.send b).sent = s.sent ∨ ((s.send b).sent.length = s.sent.length + 1 ∧
      ∃ i, (s.send b).slots i = .ready (s.sent.length + 1) 0) := by
  unfold St.send
  by_cases hid : s.pc b = .idle
  · rw [hid]; exact .inl rfl
  have hst := hs.cur b (hs.one b hid)
  cases hp : s.pc b with
  | idle => exact .inl rfl
  | find v r k best => exact .inl (goto_sent _ _ _)
  | cas v r i w =>
    dsimp only
    split <;> exact .inl (goto_sent _ _ _)
  | write v i => exact .inl (goto_sent _ _ _)
  | load v i => exact .inl (goto_sent _ _ _)
  | store v i x => exact .inl (goto_sent _ _ _)
  | reload v i => exact .inl (goto_sent _ _ _)
  | ready v i x =>
    rw [hp] at hst
    refine .inr ⟨by rw [goto_sent]; simp, i, ?_⟩
    rw [goto_slots]
    simp only [put_same]
    rw [hst.2, hst.1]

theorem sent_step {s : St V} (hg : Good s) (hs : Ser s) (o : Op V) :
    (step s o).sent = s.sent ∨ ((step s o).sent.length = s.sent.length + 1 ∧
      ∃ i, (step s o).slots i = .ready (s.sent.length + 1) 0) := by
  cases o with
  | send b v =>
    unfold step; dsimp only
    split
    · exact .inl (goto_sent _ _ _)
    · exact .inl rfl
  | sendStep b => exact send_sent hs b
  | get => exact .inl (refs_step hg _ rfl).sent
  | getStep sp => exact .inl (refs_step hg _ rfl).sent
  | take i => exact .inl (refs_step hg _ rfl).sent
  | drop i => exact .inl (refs_step hg _ rfl).sent

theorem present_step {lo : Nat} {s : St V} (hg : Good s) (hs : Ser s) (h : Present lo s) (o : Op V)
    (hst : Stays lo s (step s o)) : Present lo (step s o) ∧ s.sent.length ≤ (step s o).sent.length := by
  rcases sent_step hg hs o with e | ⟨e, i, hi⟩
  · refine ⟨fun t h1 h2 h3 => ?_, by rw [e]; exact Nat.le_refl _⟩
    rw [e] at h3
    obtain ⟨i, rc, hi⟩ := h t h1 h2 h3
    obtain ⟨rc', hr⟩ := hst i t rc h1 hi
    exact ⟨i, rc', hr⟩
  · refine ⟨fun t h1 h2 h3 => ?_, by omega⟩
    by_cases ht : t = s.sent.length + 1
    · subst ht; exact ⟨i, 0, hi⟩
    · obtain ⟨j, rc, hj⟩ := h t h1 h2 (by omega)
      obtain ⟨rc', hr⟩ := hst j t rc h1 hj
      exact ⟨j, rc', hr⟩

theorem present_run {lo : Nat} {s : St V} (hg : Good s) (hs : Ser s) (h : Present lo s) (ops : List (Op V))
    (hser : Serial s ops) (hst : Staying lo s ops) :
    Present lo (run s ops) ∧ s.sent.length ≤ (run s ops).sent.length := by
  induction ops generalizing s with
  | nil => exact ⟨h, Nat.le_refl _⟩
  | cons o ops ih =>
    obtain ⟨h1, h2⟩ := serial_cons hser
    obtain ⟨h3, h4⟩ := staying_cons hst
    obtain ⟨h5, h6⟩ := present_step hg hs h o h3
    obtain ⟨h7, h8⟩ := ih (good_step hg o) (ser_step hg hs o h1) h5 h2 h4
    exact ⟨h7, Nat.le_trans h6 h8⟩

/-- How far the `Get` is towards a sample that is not older than `M`, which is in slot `j`. -/
def GPc.sees (p : GPc V) (M j : Nat) : Prop :=
  match p with
  | .idle => False
  | .find _ k best => j < k → M ≤ newest best
  | .cas _ _ ts _ => M ≤ ts
  | .copy _ ts => M ≤ ts
  | .release _ ts _ => M ≤ ts

/-- A good end of a `Get`. -/
def Done (B : List (Nat × V)) (g : Got V) : Prop :=
  g.before = B ∧ (g.ans = .busy ∨ (g.ans = .noSample ∧ B = []) ∨
    ∃ ts v, g.ans = .value ts v ∧ B.length ≤ ts ∧ CurrentDuring g (ts, v))

/-- The `Get` is running or has ended. -/
def Phase (B : List (Nat × V)) (j : Nat) (gs : List (Got V)) (s : St V) : Prop :=
  (s.gets = gs ∧ s.before = B ∧ s.get.sees B.length j) ∨ ∃ nw g, s.gets = nw ++ g :: gs ∧ Done B g

theorem current_of {s : St V} (hs : Ser s) {B : List (Nat × V)} (hB : B.length ≤ s.sent.length) {ts : Nat} {v : V}
    (hm : (ts, v) ∈ s.sent) (hts : B.length ≤ ts) (a : Ans V) : CurrentDuring ⟨B, s.sent, a⟩ (ts, v) := by
  obtain ⟨i, hi⟩ := List.getElem?_of_mem hm
  have h1 := hs.num i ts v hi
  obtain ⟨h2, _⟩ := List.getElem?_eq_some_iff.1 hi
  show (ts, v) ∈ s.sent.take (s.sent.length - B.length + 1)
  refine List.mem_of_getElem? (i := i) ?_
  rw [List.getElem?_take_of_lt (by omega)]
  exact hi

theorem get_fields (s : St V) (o : Op V) (ho : ∀ sp, o ≠ .getStep sp) (hg : o = .get → s.get ≠ .idle) :
    (step s o).get = s.get ∧ (step s o).gets = s.gets ∧ (step s o).before = s.before := by
  cases o with
  | send b v => unfold step; dsimp only; split <;> simp
  | sendStep b =>
    unfold step; dsimp only; unfold St.send
    split
    · simp
    · simp
    · split <;> simp
    all_goals simp
  | get =>
    unfold step; dsimp only
    split
    · rename_i h; exact absurd h (hg rfl)
    · exact ⟨rfl, rfl, rfl⟩
  | getStep sp => exact absurd rfl (ho sp)
  | take i => unfold step; dsimp only; split <;> exact ⟨rfl, rfl, rfl⟩
  | drop i =>
    unfold step; dsimp only
    split
    · split <;> exact ⟨rfl, rfl, rfl⟩
    · exact ⟨rfl, rfl, rfl⟩

theorem gets_getStep (s : St V) (sp : Bool) :
    (s.getStep sp).gets = s.gets ∨ ∃ g, (s.getStep sp).gets = g :: s.gets := by
  unfold St.getStep
  split
  · exact .inl rfl
  · unfold St.findNewest
    split
    · split
      · split <;> exact .inl rfl
      · exact .inl rfl
    · split
      · exact .inr ⟨_, rfl⟩
      · exact .inl rfl
  · split
    · exact .inl rfl
    · split
      · exact .inl rfl
      · exact .inr ⟨_, rfl⟩
  · exact .inl rfl
  · split <;> exact .inr ⟨_, rfl⟩

theorem gets_step (s : St V) (o : Op V) : (step s o).gets = s.gets ∨ ∃ g, (step s o).gets = g :: s.gets := by
  by_cases h : ∃ sp, o = .getStep sp
  · obtain ⟨sp, rfl⟩ := h; exact gets_getStep s sp
  by_cases h2 : o = .get ∧ s.get = .idle
  · obtain ⟨rfl, h2⟩ := h2
    refine .inl ?_
    unfold step; dsimp only; rw [h2]
  · exact .inl (get_fields s o (fun sp e => h ⟨sp, e⟩) (fun e x => h2 ⟨e, x⟩)).2.1

theorem phase_getStep {s : St V} (hg : Good s) (hs : Ser s) {B : List (Nat × V)} {j : Nat} {gs : List (Got V)}
    (hB : B.length ≤ s.sent.length) (hj : B ≠ [] → ∃ rc, s.slots j = .ready B.length rc)
    (h1 : s.gets = gs) (h2 : s.before = B) (h3 : s.get.sees B.length j) (sp : Bool) :
    Phase B j gs (s.getStep sp) := by
  have hgf := hg.gfine
  unfold St.getStep
  cases hp : s.get with
  | idle => rw [hp] at h3; cases h3
  | find r k best =>
    rw [hp] at h3
    dsimp only
    unfold St.findNewest
    by_cases hk : k < s.n
    · rw [if_pos hk]
      cases hsl : s.slots k with
      | ready ts rc =>
        dsimp only
        by_cases hlt : newest best < ts
        · rw [if_pos hlt]
          refine .inl ⟨h1, h2, fun hjk => ?_⟩
          by_cases e : j = k
          · subst e
            by_cases hb : B = []
            · subst hb; exact Nat.zero_le _
            · obtain ⟨rc', hr⟩ := hj hb
              rw [hsl] at hr; cases hr; exact Nat.le_refl _
          · have := h3 (by omega)
            show B.length ≤ ts
            omega
        · rw [if_neg hlt]
          refine .inl ⟨h1, h2, fun hjk => ?_⟩
          by_cases e : j = k
          · subst e
            by_cases hb : B = []
            · subst hb; exact Nat.zero_le _
            · obtain ⟨rc', hr⟩ := hj hb
              rw [hsl] at hr; cases hr; omega
          · exact h3 (by omega)
      | invalid =>
        refine .inl ⟨h1, h2, fun hjk => ?_⟩
        by_cases e : j = k
        · subst e
          by_cases hb : B = []
          · subst hb; exact Nat.zero_le _
          · obtain ⟨rc', hr⟩ := hj hb
            rw [hsl] at hr; cases hr
        · exact h3 (by omega)
      | writing =>
        refine .inl ⟨h1, h2, fun hjk => ?_⟩
        by_cases e : j = k
        · subst e
          by_cases hb : B = []
          · subst hb; exact Nat.zero_le _
          · obtain ⟨rc', hr⟩ := hj hb
            rw [hsl] at hr; cases hr
        · exact h3 (by omega)
    · rw [if_neg hk]
      have hM : B.length ≤ newest best := by
        by_cases hb : B = []
        · subst hb; exact Nat.zero_le _
        · obtain ⟨rc', hr⟩ := hj hb
          refine h3 ?_
          by_cases hjn : j < s.n
          · omega
          · have := hg.out j (by omega); rw [hr] at this; cases this
      cases best with
      | none =>
        refine .inr ⟨[], ⟨B, s.sent, .noSample⟩, ?_, rfl, .inr (.inl ⟨rfl, ?_⟩)⟩
        · show ⟨s.before, s.sent, .noSample⟩ :: s.gets = _
          rw [h1, h2]; rfl
        · exact List.length_eq_zero_iff.1 (Nat.le_zero.1 hM)
      | some x =>
        obtain ⟨i, ts, rc⟩ := x
        exact .inl ⟨h1, h2, hM⟩
  | cas r i ts rc =>
    rw [hp] at h3
    dsimp only
    split
    · exact .inl ⟨h1, h2, h3⟩
    · split
      · exact .inl ⟨h1, h2, fun hx => absurd hx (by omega)⟩
      · refine .inr ⟨[], ⟨B, s.sent, .busy⟩, ?_, rfl, .inl rfl⟩
        show ⟨s.before, s.sent, .busy⟩ :: s.gets = _
        rw [h1, h2]; rfl
  | copy i ts =>
    rw [hp] at h3
    exact .inl ⟨h1, h2, h3⟩
  | release i ts v =>
    rw [hp] at h3 hgf
    obtain ⟨⟨rc, hrc⟩, hm⟩ := hgf
    dsimp only
    rw [hrc]
    refine .inr ⟨[], ⟨B, s.sent, .value ts v⟩, ?_, rfl, .inr (.inr ⟨ts, v, rfl, h3, current_of hs hB hm h3 _⟩)⟩
    show ⟨s.before, s.sent, .value ts v⟩ :: s.gets = _
    rw [h1, h2]; rfl

theorem phase_run {lo : Nat} {B : List (Nat × V)} {j : Nat} {gs : List (Got V)} (hlo : lo ≤ B.length) {s : St V}
    (hg : Good s) (hs : Ser s) (hB : B.length ≤ s.sent.length)
    (hj : B ≠ [] → ∃ rc, s.slots j = .ready B.length rc) (hp : Phase B j gs s) (ops : List (Op V))
    (hser : Serial s ops) (hst : Staying lo s ops) : Phase B j gs (run s ops) := by
  induction ops generalizing s with
  | nil => exact hp
  | cons o ops ih =>
    obtain ⟨h1, h2⟩ := serial_cons hser
    obtain ⟨h3, h4⟩ := staying_cons hst
    refine ih (good_step hg o) (ser_step hg hs o h1) ?_ ?_ ?_ h2 h4
    · rcases sent_step hg hs o with e | ⟨e, _⟩
      · rw [e]; exact hB
      · omega
    · intro hne
      obtain ⟨rc, hr⟩ := hj hne
      exact h3 j B.length rc hlo hr
    · rcases hp with ⟨a1, a2, a3⟩ | ⟨nw, g, a1, a2⟩
      · by_cases h : ∃ sp, o = .getStep sp
        · obtain ⟨sp, rfl⟩ := h
          exact phase_getStep hg hs hB hj a1 a2 a3 sp
        · obtain ⟨b1, b2, b3⟩ := get_fields s o (fun sp e => h ⟨sp, e⟩) (fun _ e => by rw [e] at a3; cases a3)
          exact .inl ⟨by rw [b2]; exact a1, by rw [b3]; exact a2, by rw [b1]; exact a3⟩
      · rcases gets_step s o with e | ⟨g', e⟩
        · exact .inr ⟨nw, g, by rw [e]; exact a1, a2⟩
        · exact .inr ⟨g' :: nw, g, by rw [e, a1]; rfl, a2⟩

/-- The `Get` that begins after `q1` ends well. -/
theorem get_ends {lo : Nat} {s : St V} (hg : Good s) (hs : Ser s) (hlo : lo ≤ s.sent.length) (hpr : Present lo s)
    (q1 q2 : List (Op V)) (hser : Serial s (q1 ++ .get :: q2)) (hst : Staying lo s (q1 ++ .get :: q2))
    (hid : (run s q1).get = .idle) (g : Got V)
    (hend : (run s (q1 ++ .get :: q2)).gets = g :: (run s q1).gets) : Done (run s q1).sent g := by
  obtain ⟨a1, a2⟩ := serial_append hser
  obtain ⟨b1, b2⟩ := staying_append hst
  obtain ⟨c1, c2⟩ := present_run hg hs hpr q1 a1 b1
  have hg1 := good_run hg q1
  have hs1 := ser_run hg hs q1 a1
  rw [run_append, run_cons] at hend
  generalize run s q1 = t at *
  obtain ⟨d1, d2⟩ := serial_cons a2
  obtain ⟨e1, e2⟩ := staying_cons b2
  have hstep : step t .get = { t with get := .find 0 0 none, before := t.sent } := by
    unfold step; dsimp only; rw [hid]
  have hj : ∃ j, t.sent ≠ [] → ∃ rc, t.slots j = .ready t.sent.length rc := by
    by_cases hne : t.sent = []
    · exact ⟨0, fun x => absurd hne x⟩
    · obtain ⟨j, rc, hr⟩ := c1 t.sent.length (by omega) (List.length_pos_iff.2 hne) (Nat.le_refl _)
      exact ⟨j, fun _ => ⟨rc, hr⟩⟩
  obtain ⟨j, hj⟩ := hj
  have hfin := phase_run (B := t.sent) (j := j) (gs := t.gets) (lo := lo) (by omega) (good_step hg1 .get)
    (ser_step hg1 hs1 .get d1) (by rw [hstep]; exact Nat.le_refl _) (by rw [hstep]; exact hj)
    (.inl ⟨by rw [hstep], by rw [hstep], by rw [hstep]; exact fun hx => absurd hx (by omega)⟩) q2 d2 e2
  rcases hfin with ⟨f1, _, _⟩ | ⟨nw, g', f1, f2⟩
  · rw [f1] at hend
    have := congrArg List.length hend
    simp at this
  · rw [f1] at hend
    have := congrArg List.length hend
    simp at this
    rw [this] at hend
    cases hend
    exact f2

theorem present_idle {s : St V} (hs : Ser s) (hid : ∀ b, s.pc b = .idle) : Present s.sent.length s := by
  intro t h1 h2 h3
  have : t = s.sent.length := by omega
  subst this
  exact hs.last (fun b i x => by rw [hid] at x; cases x) h2

/-- A `Get` that nothing overlaps, and the steps it still needs. -/
def GPc.rest (p : GPc V) (n : Nat) (slots : Nat → W) (m : Nat) : Prop :=
  match p with
  | .idle => False
  | .find r k best => r = 0 ∧ k ≤ n ∧ m = (n - k) + 4 ∧ ∀ i ts rc, best = some (i, ts, rc) → slots i = .ready ts rc
  | .cas r i ts rc => r = 0 ∧ m = 3 ∧ slots i = .ready ts rc
  | .copy _ _ => m = 2
  | .release _ _ _ => m = 1

theorem alone_run (m : Nat) {s : St V} (h : s.get.rest s.n s.slots m) :
    ∃ a, ¬ a = .busy ∧ (a = .noSample → ∃ k, m = k + 4) ∧
      ∃ k, k ≤ m ∧ (run s (List.replicate k (.getStep false))).gets = ⟨s.before, s.sent, a⟩ :: s.gets ∧
        (run s (List.replicate k (.getStep false))).get = .idle := by
  induction m generalizing s with
  | zero =>
    cases hp : s.get with
    | find r k best => rw [hp] at h; exact absurd h.2.2.1 (by omega)
    | cas r i ts rc => rw [hp] at h; exact absurd h.2.1 (by omega)
    | copy i ts => rw [hp] at h; exact absurd h (by simp [GPc.rest])
    | release i ts v => rw [hp] at h; exact absurd h (by simp [GPc.rest])
    | idle => rw [hp] at h; cases h
  | succ m ih =>
    have next : ∀ t : St V, step s (.getStep false) = t → t.before = s.before → t.sent = s.sent → t.gets = s.gets →
        t.get.rest t.n t.slots m → ∃ a, ¬ a = .busy ∧ (a = .noSample → ∃ k, m + 1 = k + 4) ∧
      ∃ k, k ≤ m + 1 ∧ (run s (List.replicate k (.getStep false))).gets = ⟨s.before, s.sent, a⟩ :: s.gets ∧
        (run s (List.replicate k (.getStep false))).get = .idle := by
      intro t e h1 h2 h3 h4
      obtain ⟨a, ha, hb, k, hk, hr, hi⟩ := ih h4
      refine ⟨a, ha, fun x => ?_, k + 1, by omega, ?_, ?_⟩
      · obtain ⟨q, hq⟩ := hb x; exact ⟨q + 1, by omega⟩
      · rw [List.replicate_succ, run_cons, e, hr, h1, h2, h3]
      · rw [List.replicate_succ, run_cons, e]; exact hi
    cases hp : s.get with
    | idle => rw [hp] at h; cases h
    | find r k best =>
      rw [hp] at h
      obtain ⟨rfl, hk, hm, hb⟩ := h
      by_cases hkn : k < s.n
      · have : ∃ b', step s (.getStep false) = { s with get := .find 0 (k + 1) b' } ∧
            ∀ i ts rc, b' = some (i, ts, rc) → s.slots i = .ready ts rc := by
          unfold step; dsimp only; unfold St.getStep; rw [hp]; dsimp only
          unfold St.findNewest
          rw [if_pos hkn]
          split
          · rename_i ts rc hs
            split
            · exact ⟨_, rfl, fun i u q e => by cases e; exact hs⟩
            · exact ⟨_, rfl, hb⟩
          · exact ⟨_, rfl, hb⟩
        obtain ⟨b', e, hb'⟩ := this
        exact next _ e rfl rfl rfl ⟨rfl, hkn, by show m = (s.n - (k + 1)) + 4; omega, hb'⟩
      · cases best with
        | none =>
          refine ⟨.noSample, (fun x => by cases x), fun _ => ⟨m + 1 - 4, by omega⟩, 1, by omega, ?_, ?_⟩ <;>
          · show _ = _
            unfold run; simp only [List.replicate_succ, List.replicate_zero, List.foldl_cons, List.foldl_nil]
            unfold step; dsimp only; unfold St.getStep; rw [hp]; dsimp only
            unfold St.findNewest; rw [if_neg hkn]; rfl
        | some x =>
          obtain ⟨i, ts, rc⟩ := x
          refine next { s with get := .cas 0 i ts rc } ?_ rfl rfl rfl ⟨rfl, by omega, hb i ts rc rfl⟩
          unfold step; dsimp only; unfold St.getStep; rw [hp]; dsimp only
          unfold St.findNewest; rw [if_neg hkn]
    | cas r i ts rc =>
      rw [hp] at h
      obtain ⟨rfl, hm, hsl⟩ := h
      refine next { s with slots := put s.slots i (.ready ts (rc + 1)), get := .copy i ts } ?_ rfl rfl rfl (show m = 2 by omega)
      unfold step; dsimp only; unfold St.getStep; rw [hp]; dsimp only
      rw [if_pos ⟨hsl, rfl⟩]
    | copy i ts =>
      rw [hp] at h
      have hm : m + 1 = 2 := h
      refine next { s with get := .release i ts (s.data i) } ?_ rfl rfl rfl (show m = 1 by omega)
      unfold step; dsimp only; unfold St.getStep; rw [hp]
    | release i ts v =>
      refine ⟨.value ts v, (fun x => by cases x), (fun x => by cases x), 1, by omega, ?_, ?_⟩ <;>
      · unfold run; simp only [List.replicate_succ, List.replicate_zero, List.foldl_cons, List.foldl_nil]
        unfold step; dsimp only; unfold St.getStep; rw [hp]; dsimp only
        split <;> rfl

/-- The number of steps that the `Get` makes. -/
def getSteps (ops : List (Op V)) : Nat :=
  (ops.filter fun o => match o with | .getStep _ => true | _ => false).length

/-- An upper bound of the steps that the `Get` still needs. -/
def GPc.bound (p : GPc V) (n : Nat) : Nat :=
  match p with
  | .idle => 0
  | .find r k _ => (99 - r) * (n + 2) + (n - k) + 4
  | .cas r _ _ _ => (99 - r) * (n + 2) + 3
  | .copy _ _ => 2
  | .release _ _ _ => 1

theorem bound_getStep (s : St V) (sp : Bool) (hne : s.get ≠ .idle) :
    (∃ g, (s.getStep sp).gets = g :: s.gets) ∨
      ((s.getStep sp).gets = s.gets ∧ (s.getStep sp).get ≠ .idle ∧
        (s.getStep sp).get.bound s.n < s.get.bound s.n) := by
  unfold St.getStep
  cases hp : s.get with
  | idle => exact absurd hp hne
  | find r k best =>
    dsimp only
    unfold St.findNewest
    by_cases hk : k < s.n
    · rw [if_pos hk]
      have hx : ∀ b', (GPc.find r (k + 1) b' : GPc V).bound s.n < (GPc.find r k best : GPc V).bound s.n := by
        intro b'; simp only [GPc.bound]; omega
      split
      · split
        · exact .inr ⟨rfl, (fun e => by cases e), hx _⟩
        · exact .inr ⟨rfl, (fun e => by cases e), hx _⟩
      · exact .inr ⟨rfl, (fun e => by cases e), hx _⟩
    · rw [if_neg hk]
      split
      · exact .inl ⟨_, rfl⟩
      · refine .inr ⟨rfl, (fun e => by cases e), ?_⟩
        simp only [GPc.bound]; omega
  | cas r i ts rc =>
    dsimp only
    split
    · refine .inr ⟨rfl, (fun e => by cases e), ?_⟩
      simp only [GPc.bound]
      generalize (99 - r) * (s.n + 2) = x
      omega
    · split
      · rename_i hr
        refine .inr ⟨rfl, (fun e => by cases e), ?_⟩
        simp only [GPc.bound]
        have h1 : 99 - r = (99 - (r + 1)) + 1 := by unfold maxReferenceRetries at hr; omega
        rw [h1, Nat.add_mul]
        generalize (99 - (r + 1)) * (s.n + 2) = x
        omega
      · exact .inl ⟨_, rfl⟩
  | copy i ts => exact .inr ⟨rfl, (fun e => by cases e), by simp [GPc.bound]⟩
  | release i ts v =>
    dsimp only
    split <;> exact .inl ⟨_, rfl⟩

theorem gets_run (s : St V) (ops : List (Op V)) : ∃ nw, (run s ops).gets = nw ++ s.gets := by
  induction ops generalizing s with
  | nil => exact ⟨[], rfl⟩
  | cons o ops ih =>
    obtain ⟨nw, h⟩ := ih (step s o)
    rw [run_cons, h]
    rcases gets_step s o with e | ⟨g, e⟩
    · exact ⟨nw, by rw [e]⟩
    · exact ⟨nw ++ [g], by rw [e]; simp⟩

theorem bound_run (s : St V) (ops : List (Op V)) (hne : s.get ≠ .idle) (h : s.get.bound s.n ≤ getSteps ops) :
    ∃ nw g, (run s ops).gets = nw ++ g :: s.gets := by
  induction ops generalizing s with
  | nil =>
    exfalso
    cases hp : s.get with
    | idle => exact hne hp
    | _ => rw [hp] at h; simp [GPc.bound, getSteps] at h
  | cons o ops ih =>
    rw [run_cons]
    by_cases ho : ∃ sp, o = .getStep sp
    · obtain ⟨sp, rfl⟩ := ho
      have hc : getSteps (.getStep sp :: ops) = getSteps ops + 1 := by simp [getSteps]
      rw [hc] at h
      rcases bound_getStep s sp hne with ⟨g, e⟩ | ⟨e1, e2, e3⟩
      · obtain ⟨nw, hn⟩ := gets_run (step s (.getStep sp)) ops
        exact ⟨nw, g, by rw [hn]; show nw ++ (s.getStep sp).gets = _; rw [e]⟩
      · obtain ⟨nw, g, hn⟩ := ih (step s (.getStep sp)) e2 (by rw [n_step]; show (s.getStep sp).get.bound s.n ≤ _; omega)
        exact ⟨nw, g, by rw [hn]; show nw ++ g :: (s.getStep sp).gets = _; rw [e1]⟩
    · obtain ⟨b1, b2, _⟩ := get_fields s o (fun sp e => ho ⟨sp, e⟩) (fun _ => hne)
      have hc : getSteps (o :: ops) = getSteps ops := by
        cases o with
        | getStep sp => exact absurd ⟨sp, rfl⟩ ho
        | _ => simp [getSteps]
      rw [hc] at h
      obtain ⟨nw, g, hn⟩ := ih (step s o) (by rw [b1]; exact hne) (by rw [b1, n_step]; exact h)
      exact ⟨nw, g, by rw [hn, b2]⟩

/-- The number of steps that a `Send` makes. -/
def sendSteps (b : Bool) (ops : List (Op V)) : Nat :=
  (ops.filter fun o => match o with | .sendStep c => c == b | _ => false).length

/-- An upper bound of the steps that the `Send` still needs. -/
def WPc.bound (p : WPc V) (n : Nat) : Nat :=
  match p with
  | .idle => 0
  | .find _ r k _ => (100 - r) * (n + 2) + (n - k) + 8
  | .cas _ r _ _ => (100 - r) * (n + 2) + 7
  | .write _ _ => 5
  | .load _ _ => 4
  | .store _ _ _ => 3
  | .reload _ _ => 2
  | .ready _ _ _ => 1

theorem again_bound (v : V) (r n : Nat) : (again v r).bound n < (100 - r) * (n + 2) + 7 := by
  unfold again
  split
  · rename_i hr
    unfold maxAllocateRetries at hr
    simp only [WPc.bound]
    have h1 : 100 - r = (100 - (r + 1)) + 1 := by omega
    rw [h1, Nat.add_mul]
    generalize (100 - (r + 1)) * (n + 2) = x
    omega
  · simp only [WPc.bound]; omega

theorem bound_send (s : St V) (b : Bool) (hne : s.pc b ≠ .idle) :
    ((s.send b).pc b).bound s.n < (s.pc b).bound s.n := by
  unfold St.send
  cases hp : s.pc b with
  | idle => exact absurd hp hne
  | find v r k best =>
    dsimp only
    rw [goto_pc_same]
    unfold findOldest
    by_cases hk : k < s.n
    · rw [if_pos hk]
      split
      · simp only [WPc.bound]; omega
      · simp only [WPc.bound]; omega
      · split <;> simp only [WPc.bound] <;> omega
    · rw [if_neg hk]
      split
      · simp only [WPc.bound]; omega
      · have := again_bound v r s.n
        show (again v r).bound s.n < (100 - r) * (s.n + 2) + (s.n - k) + 8
        omega
  | cas v r i w =>
    dsimp only
    split
    · rw [goto_pc_same]; simp only [WPc.bound]; omega
    · rw [goto_pc_same]; exact again_bound v r s.n
  | write v i => rw [goto_pc_same]; simp [WPc.bound]
  | load v i => rw [goto_pc_same]; simp [WPc.bound]
  | store v i x => rw [goto_pc_same]; simp [WPc.bound]
  | reload v i => rw [goto_pc_same]; simp [WPc.bound]
  | ready v i x => rw [goto_pc_same]; simp [WPc.bound]

theorem send_other (s : St V) (b c : Bool) (h : c ≠ b) : (s.send b).pc c = s.pc c := by
  unfold St.send
  split
  · rfl
  · exact goto_pc_other _ _ _ _ h
  · split
    · rw [goto_pc_other _ _ _ _ h]; rfl
    · exact goto_pc_other _ _ _ _ h
  all_goals (rw [goto_pc_other _ _ _ _ h]; try rfl)

theorem pc_step (s : St V) (o : Op V) (b : Bool) (h1 : ∀ v, o ≠ .send b v) (h2 : o ≠ .sendStep b) :
    (step s o).pc b = s.pc b := by
  cases o with
  | send c v =>
    have hc : b ≠ c := fun e => h1 v (by rw [e])
    unfold step; dsimp only
    split
    · exact goto_pc_other _ _ _ _ hc
    · rfl
  | sendStep c =>
    have hc : b ≠ c := fun e => h2 (by rw [e])
    exact send_other s c b hc
  | get => unfold step; dsimp only; split <;> (cases b <;> rfl)
  | getStep sp =>
    unfold step; dsimp only; unfold St.getStep
    split
    · rfl
    · unfold St.findNewest
      split
      · split
        · split <;> (cases b <;> rfl)
        · cases b <;> rfl
      · split <;> (cases b <;> rfl)
    · split
      · cases b <;> rfl
      · split <;> (cases b <;> rfl)
    · cases b <;> rfl
    · split <;> (cases b <;> rfl)
  | take i => unfold step; dsimp only; split <;> (cases b <;> rfl)
  | drop i =>
    unfold step; dsimp only
    split
    · split <;> (cases b <;> rfl)
    · rfl

theorem bound_send_run (s : St V) (b : Bool) (ops : List (Op V)) (hno : ∀ v, Op.send b v ∉ ops)
    (h : (s.pc b).bound s.n ≤ sendSteps b ops) : (run s ops).pc b = .idle := by
  induction ops generalizing s with
  | nil =>
    cases hp : s.pc b with
    | idle => exact hp
    | _ => rw [hp] at h; simp [WPc.bound, sendSteps] at h
  | cons o ops ih =>
    rw [run_cons]
    have hno' : ∀ v, Op.send b v ∉ ops := fun v hv => hno v (List.mem_cons_of_mem _ hv)
    refine ih (step s o) hno' ?_
    rw [n_step]
    by_cases ho : o = .sendStep b
    · subst ho
      have hc : sendSteps b (.sendStep b :: ops) = sendSteps b ops + 1 := by simp [sendSteps]
      rw [hc] at h
      by_cases hid : s.pc b = .idle
      · have e : step s (.sendStep b) = s := by unfold step; dsimp only; unfold St.send; rw [hid]
        rw [e, hid]; exact Nat.zero_le _
      · have := bound_send s b hid
        show ((s.send b).pc b).bound s.n ≤ _
        omega
    · have hc : sendSteps b (o :: ops) = sendSteps b ops := by
        cases o with
        | sendStep c =>
          have : c ≠ b := fun e => ho (by rw [e])
          simp [sendSteps, this]
        | _ => simp [sendSteps]
      rw [hc] at h
      rw [pc_step s o b (fun v e => hno v (by rw [e]; exact List.mem_cons_self)) ho]
      exact h

theorem sent_quiet {s : St V} (hg : Good s) (hid : ∀ b, s.pc b = .idle) (ops : List (Op V)) (h0 : sends ops = 0) :
    (run s ops).sent = s.sent := by
  induction ops generalizing s with
  | nil => rfl
  | cons o ops ih =>
    rw [sends_cons] at h0
    obtain ⟨h1, _⟩ := quiet_step hg hid o (by omega) 0
    rw [run_cons, ih (good_step hg o) h1 (by omega)]
    cases o with
    | send b v => simp [sends] at h0
    | sendStep b => unfold step; dsimp only; unfold St.send; rw [hid b]
    | get => exact (refs_step hg _ rfl).sent
    | getStep sp => exact (refs_step hg _ rfl).sent
    | take i => exact (refs_step hg _ rfl).sent
    | drop i => exact (refs_step hg _ rfl).sent

theorem head_of {s : St V} (hs : Ser s) {ts : Nat} {v : V} (hm : (ts, v) ∈ s.sent) (h : s.sent.length ≤ ts) :
    s.sent.head? = some (ts, v) := by
  obtain ⟨i, hi⟩ := List.getElem?_of_mem hm
  have h1 := hs.num i ts v hi
  have : i = 0 := by omega
  subst this
  rw [List.head?_eq_getElem?]; exact hi

end Verif.FieldRace
