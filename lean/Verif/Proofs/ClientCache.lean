import Verif.Spec.ClientCache

namespace Verif.ClientCache
open Verif.ClientCacheSpec

/-- What an operation does. -/
inductive Does (s : St) : Op → St → Prop where
  | same (o : Op) : Does s o s
  | tick (d : Nat) : Does s (.tick d) { s with now := s.now + d }
  | enter : Does s .enter { s with inHandler := true }
  | leave (h : s.callbackInside = false) : Does s .leave { s with inHandler := false }
  | reuse (t n c : Nat) (hm : s.mayCall t = true) (hc : s.cache n = some c) (hr : (s.conn c).st = .ready) :
      Does s (.get t n) (s.add (.returned t n c .ready))
  | fresh (t n : Nat) (hm : s.mayCall t = true) (hc : s.cache n = none) : Does s (.get t n) (s.create t n)
  | replace (t n c : Nat) (hm : s.mayCall t = true) (hc : s.cache n = some c) (hr : (s.conn c).st ≠ .ready) :
      Does s (.get t n) (((s.setConn c ((s.conn c).stop t)).setCache n none).create t n)
  | found (t n : Nat) (hm : s.mayCall t = true) : Does s (.cached t n) (s.add (.found t n (s.cache n)))
  | removeNone (t n : Nat) (hm : s.mayCall t = true) (hc : s.cache n = none) : Does s (.remove t n) (s.add (.removed t n))
  | removeStart (t n c : Nat) (hm : s.mayCall t = true) (hc : s.cache n = some c) :
      Does s (.remove t n) { s.setConn c ((s.conn c).stop t) with job := some (.closing t n c 0 s.now) }
  | finish (t n c delay wake began sleeps : Nat) (hj : s.job = some (.waiting t n c delay wake began sleeps))
      (hw : wake ≤ s.now) (hc : s.cache n = none) (hs : (s.conn c).st ≠ .starting ∨ began + timeout ≤ s.now) :
      Does s .go (({ s with job := none }.setCache n (some c)).add (.returned t n c (s.conn c).st))
  | clash (t n c c' delay wake began sleeps : Nat) (hj : s.job = some (.waiting t n c delay wake began sleeps))
      (hc : s.cache n = some c') : Does s .go { s with dead := true }
  | sleep (t n c delay wake began sleeps : Nat) (hj : s.job = some (.waiting t n c delay wake began sleeps))
      (hw : wake ≤ s.now) (hs : (s.conn c).st = .starting) (ht : s.now < began + timeout) :
      Does s .go { s with job := some (.waiting t n c (min (delay * 2) delayMax) (s.now + delay) began (sleeps + 1)) }
  | closed (t n c tries wake : Nat) (hj : s.job = some (.closing t n c tries wake)) (hs : (s.conn c).st = .stopped) :
      Does s .go (({ s with job := none }.setCache n none).add (.removed t n))
  | ended (t n c tries wake : Nat) (hj : s.job = some (.closing t n c tries wake)) (hs : (s.conn c).st ≠ .stopped) :
      Does s .go { s with dead := true }
  | retry (t n c tries wake : Nat) (hj : s.job = some (.closing t n c tries wake)) (hs : (s.conn c).st ≠ .stopped) :
      Does s .go { s with job := some (.closing t n c (tries + 1) (s.now + retryDelay)) }
  | connect (c : Nat) (a : Attempt) (hh : s.inHandler = false) (hl : c < s.count) (hq : (s.conn c).connectQ = true) :
      Does s (.connect c a) (s.setConn c ((s.conn c).attempt a))
  | lost (c : Nat) (hh : s.inHandler = false) (hl : c < s.count) (hr : (s.conn c).st = .ready) :
      Does s (.lost c) (s.setConn c (s.conn c).fail)
  | disconnect (c : Nat) (hh : s.inHandler = false) (hl : c < s.count) (hq : (s.conn c).discQ = true) :
      Does s (.disconnect c) (s.setConn c (s.conn c).fail)

theorem does_op (s : St) (o : Op) : Does s o (s.op o) := by
  unfold St.op
  split
  · exact .same o
  unfold St.next
  cases o with
  | tick d => exact .tick d
  | enter => exact .enter
  | leave =>
    dsimp only; split
    · exact .same _
    · rename_i h; exact .leave (by simpa using h)
  | get t n =>
    dsimp only; split
    · rename_i hm
      unfold St.get; split
      · rename_i hc; exact .fresh t n hm hc
      · rename_i c hc; split
        · rename_i hr; exact .reuse t n c hm hc hr
        · rename_i hr; exact .replace t n c hm hc hr
    · exact .same _
  | cached t n =>
    dsimp only; split
    · rename_i hm; exact .found t n hm
    · exact .same _
  | remove t n =>
    dsimp only; split
    · rename_i hm
      unfold St.remove; split
      · rename_i hc; exact .removeNone t n hm hc
      · rename_i c hc; exact .removeStart t n c hm hc
    · exact .same _
  | go =>
    dsimp only; split
    · exact .same _
    · rename_i t n c delay wake began sleeps hj
      split
      · exact .same _
      · rename_i hw
        have fin : ((s.conn c).st ≠ .starting ∨ began + timeout ≤ s.now) → Does s .go (s.finish t n c) := by
          intro hs
          unfold St.finish; split
          · rename_i c' hc; exact .clash t n c c' delay wake began sleeps hj hc
          · rename_i hc; exact .finish t n c delay wake began sleeps hj (Nat.le_of_not_lt hw) hc hs
        unfold St.look; split
        · rename_i h; exact fin (Or.inl (by rw [h]; simp))
        · split
          · rename_i h; exact fin (Or.inl h)
          · rename_i h; split
            · rename_i h2; exact fin (Or.inr h2)
            · rename_i h2
              exact .sleep t n c delay wake began sleeps hj (Nat.le_of_not_lt hw) (Decidable.not_not.1 h) (Nat.lt_of_not_le h2)
    · rename_i t n c tries wake hj
      split
      · exact .same _
      · unfold St.close; split
        · rename_i h; exact .closed t n c tries wake hj h
        · rename_i h; split
          · exact .ended t n c tries wake hj h
          · exact .retry t n c tries wake hj h
  | connect c a =>
    dsimp only; split
    · rename_i h; simp at h; exact .connect c a h.1.1 h.1.2 h.2
    · exact .same _
  | lost c =>
    dsimp only; split
    · rename_i h; simp at h; exact .lost c h.1.1.1 h.1.1.2 h.1.2
    · exact .same _
  | disconnect c =>
    dsimp only; split
    · rename_i h; simp at h; exact .disconnect c h.1.1 h.1.2 h.2
    · exact .same _

theorem run_append (s : St) (ops ops' : List Op) : run s (ops ++ ops') = run (run s ops) ops' := List.foldl_append ..

theorem job_of_mayCall {s : St} {t : Nat} (h : s.mayCall t = true) : s.job = none ∧ (t = 0 → s.inHandler = true) := by
  unfold St.mayCall at h
  simp at h
  refine ⟨h.1, fun ht => ?_⟩
  rcases h.2 with r | r
  · exact absurd ht r
  · exact r

/-! ## Connections keep their process; once they have a stop reason they keep it -/

@[simp] theorem stop_node (x : Conn) (t : Nat) : (x.stop t).node = x.node := by unfold Conn.stop; split <;> (try split) <;> rfl
@[simp] theorem fail_node (x : Conn) : x.fail.node = x.node := rfl
@[simp] theorem attempt_node (x : Conn) (a : Attempt) : (x.attempt a).node = x.node := by
  cases a <;> simp [Conn.attempt]; split <;> rfl
@[simp] theorem stop_reason (x : Conn) (t : Nat) : (x.stop t).reason = true := by
  unfold Conn.stop; split
  · assumption
  · split <;> rfl
@[simp] theorem fail_reason (x : Conn) : x.fail.reason = true := rfl
theorem attempt_reason (x : Conn) (a : Attempt) (h : (x.attempt a).reason = false) : x.reason = false := by
  cases a with
  | connected => exact h
  | again => exact h
  | failed =>
    simp only [Conn.attempt] at h
    split at h
    · exact h
    · cases h

/-- The call that holds the mutex works on this connection of this process. -/
def St.waitsFor (s : St) (n c : Nat) : Prop := ∃ t d w b k, s.job = some (.waiting t n c d w b k)

structure Inv (s : St) : Prop where
  cached : ∀ n c, s.cache n = some c → c < s.count ∧ (s.conn c).node = n
  opened : ∀ c, Open s c → s.cache (s.conn c).node = some c ∨ s.waitsFor (s.conn c).node c
  waiting : ∀ n c, s.waitsFor n c → c < s.count ∧ (s.conn c).node = n ∧ s.cache n = none
  closing : ∀ t n c k w, s.job = some (.closing t n c k w) → s.cache n = some c ∧ (s.conn c).reason = true
  log : ∀ e ∈ s.log, match e with
    | .returned _ n c _ => c < s.count ∧ (s.conn c).node = n
    | .found _ n (some c) => c < s.count ∧ (s.conn c).node = n
    | _ => True
  /-- the history gives the entries -/
  hist : ∀ n, (∀ c, ¬ s.waitsFor n c) → s.cache n = current n s.log
  /-- a connection that is replaced is not open -/
  old : ∀ n c, s.waitsFor n c → ∀ c', current n s.log = some c' → (s.conn c').reason = true ∧ c' < s.count

theorem current_append (n : Nat) (l : List Ev) (e : Ev) : current n (l ++ [e]) = (match e with
    | .returned _ m c _ => if m = n then some c else current n l
    | .removed _ m => if m = n then none else current n l
    | .found _ _ _ => current n l) := by
  unfold current; rw [List.foldl_append]; rfl

theorem inv_start : Inv start :=
  ⟨fun n c h => (by cases h), fun c h => absurd h.1 (by simp [start]), fun n c h => (by obtain ⟨_, _, _, _, _, h⟩ := h; cases h),
   fun t n c k w h => (by cases h), fun e h => (by cases h), fun n _ => rfl, fun n c h => (by obtain ⟨_, _, _, _, _, h⟩ := h; cases h)⟩

/-- Only a connection changes; it keeps its process and its stop reason. -/
theorem inv_conn {s : St} (h : Inv s) (c : Nat) (x : Conn) (hn : x.node = (s.conn c).node)
    (hr : x.reason = false → (s.conn c).reason = false) : Inv (s.setConn c x) := by
  have nd : ∀ d, ((s.setConn c x).conn d).node = (s.conn d).node := fun d => by
    simp only [St.setConn]; split
    · rename_i e; rw [e, hn]
    · rfl
  have rs : ∀ d, ((s.setConn c x).conn d).reason = false → (s.conn d).reason = false := fun d hd => by
    simp only [St.setConn] at hd; split at hd
    · rename_i e; rw [e]; exact hr hd
    · exact hd
  have rt : ∀ d, (s.conn d).reason = true → ((s.setConn c x).conn d).reason = true := fun d hd => by
    cases hq : ((s.setConn c x).conn d).reason with
    | true => rfl
    | false => rw [rs d hq] at hd; cases hd
  refine ⟨fun n d hd => ?_, fun d hd => ?_, fun n d hd => ?_, fun t n d k w hw => ⟨(h.closing t n d k w hw).1, rt d (h.closing t n d k w hw).2⟩,
    fun e he => ?_, h.hist, fun n d hd c' hc => ?_⟩
  · rw [nd]; exact h.cached n d hd
  · rw [nd]; exact h.opened d ⟨hd.1, rs d hd.2⟩
  · rw [nd]; exact h.waiting n d hd
  · have := h.log e he
    cases e with
    | returned t n d st => dsimp only at this ⊢; rw [nd]; exact this
    | found t n d =>
      cases d with
      | none => trivial
      | some d => dsimp only at this ⊢; rw [nd]; exact this
    | removed t n => trivial
  · obtain ⟨k1, k2⟩ := h.old n d hd c' hc
    exact ⟨rt c' k1, k2⟩

theorem no_wait {s : St} (h : s.job = none) : ∀ n c, ¬ s.waitsFor n c := by
  rintro n c ⟨_, _, _, _, _, hj⟩; rw [h] at hj; cases hj

/-- A new connection, when no entry for the process exists and a connection that was handed out is not open. -/
theorem inv_create {s : St} (h : Inv s) (t n : Nat) (hj : s.job = none) (hc : s.cache n = none) : Inv (s.create t n) := by
  have cn : ∀ d, d ≠ s.count → (s.create t n).conn d = s.conn d := fun d hd => by simp [St.create, St.setConn, hd]
  have cm : (s.create t n).conn s.count = { node := n } := by simp [St.create, St.setConn]
  have ws : ∀ m c, (s.create t n).waitsFor m c → m = n ∧ c = s.count := by
    rintro m c ⟨_, _, _, _, _, hw⟩
    simp only [St.create, Option.some.injEq, Job.waiting.injEq] at hw
    exact ⟨hw.2.1.symm, hw.2.2.1.symm⟩
  refine ⟨fun m d hd => ?_, fun d hd => ?_, fun m d hd => ?_, fun t' m c k w hw => ?_, fun e he => ?_, fun m hm => ?_, fun m d hd c' hc' => ?_⟩
  · obtain ⟨h1, h2⟩ := h.cached m d hd
    exact ⟨Nat.lt_succ_of_lt h1, by rw [cn d (Nat.ne_of_lt h1)]; exact h2⟩
  · by_cases e : d = s.count
    · subst e
      rw [cm]
      exact Or.inr ⟨t, delayMin, s.now, s.now, 0, rfl⟩
    · have hl : d < s.count := by have := hd.1; simp only [St.create] at this; omega
      rw [cn d e]
      rcases h.opened d ⟨hl, by have := hd.2; rw [cn d e] at this; exact this⟩ with r | r
      · exact Or.inl r
      · exact absurd r (no_wait hj _ _)
  · obtain ⟨rfl, rfl⟩ := ws m d hd
    exact ⟨Nat.lt_succ_self _, by rw [cm], hc⟩
  · simp [St.create] at hw
  · have := h.log e he
    cases e with
    | returned t n d st =>
      dsimp only at this ⊢
      exact ⟨Nat.lt_succ_of_lt this.1, by rw [cn d (Nat.ne_of_lt this.1)]; exact this.2⟩
    | found t n d =>
      cases d with
      | none => trivial
      | some d =>
        dsimp only at this ⊢
        exact ⟨Nat.lt_succ_of_lt this.1, by rw [cn d (Nat.ne_of_lt this.1)]; exact this.2⟩
    | removed t n => trivial
  · exact h.hist m (no_wait hj m)
  · obtain ⟨rfl, rfl⟩ := ws m d hd
    have := h.hist m (no_wait hj m)
    have hx : current m s.log = some c' := hc'
    rw [← this, hc] at hx; cases hx

/-- The same, when the entry was just removed. -/
theorem inv_replace {s : St} (h : Inv s) (t n c : Nat) (hj : s.job = none) (hc : s.cache n = some c) :
    Inv (((s.setConn c ((s.conn c).stop t)).setCache n none).create t n) := by
  obtain ⟨hl, hno⟩ := h.cached n c hc
  have h1 := inv_conn h c ((s.conn c).stop t) (stop_node _ _) (by simp)
  have hrc : ((s.setConn c ((s.conn c).stop t)).conn c).reason = true := by simp [St.setConn]
  have hcc : (s.setConn c ((s.conn c).stop t)).cache n = some c := hc
  have hjj : (s.setConn c ((s.conn c).stop t)).job = none := hj
  generalize hs1 : s.setConn c ((s.conn c).stop t) = s1 at *
  have hl1 : c < s1.count := by rw [← hs1]; exact hl
  have cn : ∀ d, d ≠ s1.count → ((s1.setCache n none).create t n).conn d = s1.conn d := fun d hd => by
    simp [St.create, St.setConn, St.setCache, hd]
  have cm : ((s1.setCache n none).create t n).conn s1.count = { node := n } := by simp [St.create, St.setConn, St.setCache]
  have ws : ∀ m d, ((s1.setCache n none).create t n).waitsFor m d → m = n ∧ d = s1.count := by
    rintro m d ⟨_, _, _, _, _, hw⟩
    simp only [St.create, St.setCache, Option.some.injEq, Job.waiting.injEq] at hw
    exact ⟨hw.2.1.symm, hw.2.2.1.symm⟩
  have ca : ∀ m, ((s1.setCache n none).create t n).cache m = if m = n then none else s1.cache m := fun m => rfl
  refine ⟨fun m d hd => ?_, fun d hd => ?_, fun m d hd => ?_, fun t' m c k w hw => ?_, fun e he => ?_, fun m hm => ?_, fun m d hd c' hc' => ?_⟩
  · rw [ca] at hd
    split at hd
    · cases hd
    · obtain ⟨k1, k2⟩ := h1.cached m d hd
      exact ⟨Nat.lt_succ_of_lt k1, by rw [cn d (Nat.ne_of_lt k1)]; exact k2⟩
  · by_cases e : d = s1.count
    · subst e
      rw [cm]
      exact Or.inr ⟨t, delayMin, s1.now, s1.now, 0, rfl⟩
    · have hl : d < s1.count := by have := hd.1; simp only [St.create, St.setCache] at this; omega
      rw [cn d e]
      have hr : (s1.conn d).reason = false := by have := hd.2; rw [cn d e] at this; exact this
      rcases h1.opened d ⟨hl, hr⟩ with r | r
      · left
        rw [ca]
        split
        · rename_i hm
          rw [hm, hcc] at r; cases r
          rw [hrc] at hr; cases hr
        · exact r
      · exact absurd r (no_wait hjj _ _)
  · obtain ⟨rfl, rfl⟩ := ws m d hd
    exact ⟨Nat.lt_succ_self _, by rw [cm], by rw [ca, if_pos rfl]⟩
  · simp [St.create] at hw
  · have := h1.log e he
    cases e with
    | returned t n d st =>
      dsimp only at this ⊢
      exact ⟨Nat.lt_succ_of_lt this.1, by rw [cn d (Nat.ne_of_lt this.1)]; exact this.2⟩
    | found t n d =>
      cases d with
      | none => trivial
      | some d =>
        dsimp only at this ⊢
        exact ⟨Nat.lt_succ_of_lt this.1, by rw [cn d (Nat.ne_of_lt this.1)]; exact this.2⟩
    | removed t n => trivial
  · have hmn : m ≠ n := fun e => hm s1.count ⟨t, delayMin, s1.now, s1.now, 0, by rw [e]; rfl⟩
    rw [ca, if_neg hmn]
    exact h1.hist m (no_wait hjj m)
  · obtain ⟨rfl, rfl⟩ := ws m d hd
    have := h1.hist m (no_wait hjj m)
    have hx : current m s1.log = some c' := hc'
    rw [← this, hcc] at hx
    cases hx
    exact ⟨by rw [cn c (Nat.ne_of_lt hl1)]; exact hrc, Nat.lt_succ_of_lt hl1⟩

theorem inv_op {s : St} (h : Inv s) (o : Op) : Inv (s.op o) := by
  have hd := does_op s o
  generalize s.op o = s' at hd
  cases hd with
  | same => exact h
  | tick d => exact ⟨h.cached, h.opened, h.waiting, h.closing, h.log, h.hist, h.old⟩
  | enter => exact ⟨h.cached, h.opened, h.waiting, h.closing, h.log, h.hist, h.old⟩
  | leave hi => exact ⟨h.cached, h.opened, h.waiting, h.closing, h.log, h.hist, h.old⟩
  | reuse t n c hm hc hr =>
    have hj := (job_of_mayCall hm).1
    refine ⟨h.cached, h.opened, h.waiting, h.closing, fun e he => ?_, fun m hn => ?_, fun m d hd => absurd hd (no_wait hj m d)⟩
    · rcases List.mem_append.1 he with he | he
      · exact h.log e he
      · rw [List.mem_singleton.1 he]; exact h.cached n c hc
    · show s.cache m = current m (s.log ++ [_])
      rw [current_append]
      dsimp only
      split
      · rename_i e; rw [← e, hc]
      · exact h.hist m hn
  | fresh t n hm hc => exact inv_create h t n (job_of_mayCall hm).1 hc
  | replace t n c hm hc hr => exact inv_replace h t n c (job_of_mayCall hm).1 hc
  | found t n hm =>
    have hj := (job_of_mayCall hm).1
    refine ⟨h.cached, h.opened, h.waiting, h.closing, fun e he => ?_, fun m hn => ?_, fun m d hd => absurd hd (no_wait hj m d)⟩
    · rcases List.mem_append.1 he with he | he
      · exact h.log e he
      · rw [List.mem_singleton.1 he]
        cases hc : s.cache n with
        | none => trivial
        | some c => exact h.cached n c hc
    · show s.cache m = current m (s.log ++ [_])
      rw [current_append]
      exact h.hist m hn
  | removeNone t n hm hc =>
    have hj := (job_of_mayCall hm).1
    refine ⟨h.cached, h.opened, h.waiting, h.closing, fun e he => ?_, fun m hn => ?_, fun m d hd => absurd hd (no_wait hj m d)⟩
    · rcases List.mem_append.1 he with he | he
      · exact h.log e he
      · rw [List.mem_singleton.1 he]; trivial
    · show s.cache m = current m (s.log ++ [_])
      rw [current_append]
      dsimp only
      split
      · rename_i e; rw [← e, hc]
      · exact h.hist m hn
  | removeStart t n c hm hc =>
    have hj := (job_of_mayCall hm).1
    have h1 := inv_conn h c ((s.conn c).stop t) (stop_node _ _) (by simp)
    have hjj : (s.setConn c ((s.conn c).stop t)).job = none := hj
    have hcc : (s.setConn c ((s.conn c).stop t)).cache n = some c := hc
    have key : ∀ (s1 : St), Inv s1 → s1.job = none → s1.cache n = some c → (s1.conn c).reason = true → Inv { s1 with job := some (.closing t n c 0 s.now) } := by
      intro s1 h1 hj1 hc1 hr1
      refine ⟨h1.cached, fun d hd => ?_, fun m d hd => ?_, fun t' m d k w hw => ?_, h1.log, fun m _ => h1.hist m (no_wait hj1 m), fun m d hd => ?_⟩
      · rcases h1.opened d hd with r | r
        · exact Or.inl r
        · exact absurd r (no_wait hj1 _ _)
      · obtain ⟨_, _, _, _, _, hw⟩ := hd; cases hw
      · cases hw; exact ⟨hc1, hr1⟩
      · obtain ⟨_, _, _, _, _, hw⟩ := hd; cases hw
    exact key _ h1 hjj hcc (by simp [St.setConn])
  | finish t n c delay wake began sleeps hj hw hc hs =>
    have hwf : s.waitsFor n c := ⟨t, delay, wake, began, sleeps, hj⟩
    obtain ⟨w1, w2, w3⟩ := h.waiting n c hwf
    have ca : ∀ m, (({ s with job := none }.setCache n (some c)).add (.returned t n c (s.conn c).st)).cache m =
        if m = n then some c else s.cache m := fun m => rfl
    have uniq : ∀ m d, s.waitsFor m d → m = n ∧ d = c := by
      rintro m d ⟨_, _, _, _, _, hw⟩
      rw [hj] at hw
      cases hw; exact ⟨rfl, rfl⟩
    refine ⟨fun m d hd => ?_, fun d hd => ?_, fun m d hd => ?_, fun t' m d k w hw => ?_, fun e he => ?_, fun m _ => ?_, fun m d hd => ?_⟩
    · rw [ca] at hd
      split at hd
      · rename_i e; cases hd; rw [e]; exact ⟨w1, w2⟩
      · exact h.cached m d hd
    · left
      rw [ca]
      show (if (s.conn d).node = n then some c else s.cache (s.conn d).node) = some d
      rcases h.opened d hd with r | r
      · split
        · rename_i e; rw [e, w3] at r; cases r
        · exact r
      · obtain ⟨e1, e2⟩ := uniq _ _ r
        rw [if_pos e1, e2]
    · obtain ⟨_, _, _, _, _, hw⟩ := hd; cases hw
    · cases hw
    · rcases List.mem_append.1 he with he | he
      · exact h.log e he
      · rw [List.mem_singleton.1 he]; exact ⟨w1, w2⟩
    · rw [ca]
      show _ = current m (s.log ++ [_])
      rw [current_append]
      dsimp only
      by_cases e : m = n
      · rw [if_pos e, if_pos e.symm]
      · rw [if_neg e, if_neg (fun x => e x.symm)]
        exact h.hist m (fun d hd => e (uniq m d hd).1)
    · obtain ⟨_, _, _, _, _, hw⟩ := hd; cases hw
  | clash t n c c' delay wake began sleeps hj hc => exact ⟨h.cached, h.opened, h.waiting, h.closing, h.log, h.hist, h.old⟩
  | sleep t n c delay wake began sleeps hj hw hs ht =>
    have fwd : ∀ m d, St.waitsFor { s with job := some (.waiting t n c (min (delay * 2) delayMax) (s.now + delay) began (sleeps + 1)) } m d →
        s.waitsFor m d := by
      rintro m d ⟨_, _, _, _, _, hw⟩
      cases hw; exact ⟨t, delay, wake, began, sleeps, hj⟩
    have bwd : ∀ m d, s.waitsFor m d →
        St.waitsFor { s with job := some (.waiting t n c (min (delay * 2) delayMax) (s.now + delay) began (sleeps + 1)) } m d := by
      rintro m d ⟨_, _, _, _, _, hw⟩
      rw [hj] at hw; cases hw; exact ⟨_, _, _, _, _, rfl⟩
    refine ⟨h.cached, fun d hd => ?_, fun m d hd => h.waiting m d (fwd m d hd), fun t' m d k w hw => ?_, h.log,
      fun m hm => h.hist m (fun d hd => hm d (bwd m d hd)), fun m d hd => h.old m d (fwd m d hd)⟩
    · rcases h.opened d hd with r | r
      · exact Or.inl r
      · exact Or.inr (bwd _ _ r)
    · cases hw
  | closed t n c tries wake hj hs =>
    have hnw : ∀ m d, ¬ s.waitsFor m d := by
      rintro m d ⟨_, _, _, _, _, hw⟩; rw [hj] at hw; cases hw
    have hcc := h.closing t n c tries wake hj
    have ca : ∀ m, (({ s with job := none }.setCache n none).add (.removed t n)).cache m = if m = n then none else s.cache m := fun m => rfl
    refine ⟨fun m d hd => ?_, fun d hd => ?_, fun m d hd => ?_, fun t' m d k w hw => ?_, fun e he => ?_, fun m _ => ?_, fun m d hd => ?_⟩
    · rw [ca] at hd
      split at hd
      · cases hd
      · exact h.cached m d hd
    · left
      rw [ca]
      show (if (s.conn d).node = n then none else s.cache (s.conn d).node) = some d
      rcases h.opened d hd with r | r
      · split
        · rename_i e
          rw [e, hcc.1] at r; cases r
          have := hd.2
          exact absurd (hcc.2.symm.trans this) (by simp)
        · exact r
      · exact absurd r (hnw _ _)
    · obtain ⟨_, _, _, _, _, hw⟩ := hd; cases hw
    · cases hw
    · rcases List.mem_append.1 he with he | he
      · exact h.log e he
      · rw [List.mem_singleton.1 he]; trivial
    · rw [ca]
      show _ = current m (s.log ++ [_])
      rw [current_append]
      dsimp only
      by_cases e : m = n
      · rw [if_pos e, if_pos e.symm]
      · rw [if_neg e, if_neg (fun x => e x.symm)]
        exact h.hist m (hnw m)
    · obtain ⟨_, _, _, _, _, hw⟩ := hd; cases hw
  | ended t n c tries wake hj hs => exact ⟨h.cached, h.opened, h.waiting, h.closing, h.log, h.hist, h.old⟩
  | retry t n c tries wake hj hs =>
    have hnw : ∀ m d, ¬ s.waitsFor m d := by
      rintro m d ⟨_, _, _, _, _, hw⟩; rw [hj] at hw; cases hw
    refine ⟨h.cached, fun d hd => ?_, fun m d hd => ?_, fun t' m d k w hw => ?_, h.log, fun m _ => h.hist m (hnw m), fun m d hd => ?_⟩
    · rcases h.opened d hd with r | r
      · exact Or.inl r
      · exact absurd r (hnw _ _)
    · obtain ⟨_, _, _, _, _, hw⟩ := hd; cases hw
    · cases hw; exact h.closing t n c tries wake hj
    · obtain ⟨_, _, _, _, _, hw⟩ := hd; cases hw
  | connect c a hh hl hq => exact inv_conn h c _ (attempt_node _ _) (attempt_reason _ _)
  | lost c hh hl hr => exact inv_conn h c _ (fail_node _) (by simp)
  | disconnect c hh hl hq => exact inv_conn h c _ (fail_node _) (by simp)

theorem inv_run (ops : List Op) : ∀ {s : St}, Inv s → Inv (run s ops) := by
  induction ops with
  | nil => exact fun h => h
  | cons o l ih => exact fun h => ih (inv_op h o)

/-! ## The process does not end -/

/-- A connection that has a stop reason and may still be used by the cache is stopped. -/
structure Settled (s : St) : Prop where
  stopped : ∀ c, (s.conn c).st = .stopped → (s.conn c).connectQ = false
  cached : ∀ n c, s.cache n = some c → (s.conn c).reason = true → (s.conn c).st = .stopped
  waiting : ∀ n c, s.waitsFor n c → (s.conn c).reason = true → (s.conn c).st = .stopped
  closing : ∀ t n c k w, s.job = some (.closing t n c k w) → (s.conn c).st = .stopped

/-- Nothing but a remove by another thread leaves a stop pending in the cache. -/
theorem settled_conn {s : St} (h : Settled s) (c : Nat) (x : Conn) (h1 : x.st = .stopped → x.connectQ = false)
    (h2 : x.reason = true → ((s.conn c).reason = true ∧ (s.conn c).st ≠ .stopped) ∨ x.st = .stopped)
    (h3 : (s.conn c).st = .stopped → x.st = .stopped) : Settled (s.setConn c x) := by
  have key : ∀ d, ((s.conn d).reason = true → (s.conn d).st = .stopped) → ((s.setConn c x).conn d).reason = true →
      ((s.setConn c x).conn d).st = .stopped := fun d hd hr => by
    simp only [St.setConn] at hr ⊢
    split at hr
    · rename_i e
      rw [if_pos e]
      rcases h2 hr with r | r
      · exact absurd (hd (by rw [e]; exact r.1)) (by rw [e]; exact r.2)
      · exact r
    · rename_i e; rw [if_neg e]; exact hd hr
  refine ⟨fun d hd => ?_, fun n d hd => key d (h.cached n d hd), fun n d hd => key d (h.waiting n d hd), fun t n d k w hw => ?_⟩
  · simp only [St.setConn] at hd ⊢
    split at hd
    · rename_i e; rw [if_pos e]; exact h1 hd
    · rename_i e; rw [if_neg e]; exact h.stopped d hd
  · have := h.closing t n d k w hw
    simp only [St.setConn]
    split
    · rename_i e; rw [e] at this; exact h3 this
    · exact this

theorem stop_zero (x : Conn) (h : x.reason = true → x.st = .stopped) (hq : x.st = .stopped → x.connectQ = false) :
    (x.stop 0).st = .stopped ∧ (x.stop 0).connectQ = false := by
  unfold Conn.stop
  split
  · rename_i hr; exact ⟨h hr, hq (h hr)⟩
  · rename_i hr; rw [if_pos rfl]; exact ⟨rfl, rfl⟩

theorem settled_op {s : St} (h : Settled s) (hi : Inv s) (o : Op) (ho : ∀ t n, o = .remove t n → t = 0) : Settled (s.op o) := by
  have hd := does_op s o
  generalize s.op o = s' at hd
  cases hd with
  | same => exact h
  | tick d => exact ⟨h.stopped, h.cached, h.waiting, h.closing⟩
  | enter => exact ⟨h.stopped, h.cached, h.waiting, h.closing⟩
  | leave hi => exact ⟨h.stopped, h.cached, h.waiting, h.closing⟩
  | reuse t n c hm hc hr => exact ⟨h.stopped, h.cached, h.waiting, h.closing⟩
  | fresh t n hm hc =>
    have cn : ∀ d, d ≠ s.count → (s.create t n).conn d = s.conn d := fun d hd => by simp [St.create, St.setConn, hd]
    have cm : (s.create t n).conn s.count = { node := n } := by simp [St.create, St.setConn]
    refine ⟨fun d hd => ?_, fun m d hd hr => ?_, fun m d hd hr => ?_, fun t' m d k w hw => ?_⟩
    · by_cases e : d = s.count
      · rw [e, cm] at hd; cases hd
      · rw [cn d e] at hd ⊢; exact h.stopped d hd
    · have := (hi.cached m d hd).1
      rw [cn d (Nat.ne_of_lt this)] at hr ⊢; exact h.cached m d hd hr
    · obtain ⟨_, _, _, _, _, hw⟩ := hd
      cases hw; rw [cm] at hr; cases hr
    · cases hw
  | replace t n c hm hc hr =>
    have hl := hi.cached n c hc
    have cm : (((s.setConn c ((s.conn c).stop t)).setCache n none).create t n).conn s.count = { node := n } := by
      simp [St.create, St.setConn, St.setCache]
    have cn : ∀ d, d ≠ s.count → d ≠ c → (((s.setConn c ((s.conn c).stop t)).setCache n none).create t n).conn d = s.conn d :=
      fun d hd he => by simp [St.create, St.setConn, St.setCache, hd, he]
    have cc : (((s.setConn c ((s.conn c).stop t)).setCache n none).create t n).conn c = (s.conn c).stop t := by
      simp [St.create, St.setConn, St.setCache, Nat.ne_of_lt hl.1]
    refine ⟨fun d hd => ?_, fun m d hd hr => ?_, fun m d hd hr => ?_, fun t' m d k w hw => ?_⟩
    · by_cases e : d = s.count
      · rw [e, cm] at hd; cases hd
      · by_cases e2 : d = c
        · rw [e2, cc] at hd ⊢
          unfold Conn.stop at hd ⊢
          split at hd
          · rename_i hr; rw [if_pos hr]; exact h.stopped c hd
          · rename_i hr
            rw [if_neg hr]
            split at hd
            · rename_i ht; rw [if_pos ht]
            · cases hd
        · rw [cn d e e2] at hd ⊢; exact h.stopped d hd
    · have hd' : (if m = n then none else s.cache m) = some d := hd
      split at hd'
      · cases hd'
      · rename_i hmn
        have hx := hi.cached m d hd'
        have e2 : d ≠ c := fun e => hmn (by rw [← hx.2, e, hl.2])
        rw [cn d (Nat.ne_of_lt hx.1) e2] at hr ⊢; exact h.cached m d hd' hr
    · obtain ⟨_, _, _, _, _, hw⟩ := hd
      cases hw
      exact absurd (hr.symm.trans (congrArg Conn.reason cm)) (by simp)
    · cases hw
  | found t n hm => exact ⟨h.stopped, h.cached, h.waiting, h.closing⟩
  | removeNone t n hm hc => exact ⟨h.stopped, h.cached, h.waiting, h.closing⟩
  | removeStart t n c hm hc =>
    have ht := ho t n rfl
    subst ht
    have hst := stop_zero (s.conn c) (h.cached n c hc) (h.stopped c)
    have h1 : Settled (s.setConn c ((s.conn c).stop 0)) :=
      settled_conn h c _ (fun _ => hst.2) (fun _ => Or.inr hst.1) (fun _ => hst.1)
    refine ⟨h1.stopped, h1.cached, fun m d hd => ?_, fun t' m d k w hw => ?_⟩
    · obtain ⟨_, _, _, _, _, hw⟩ := hd; cases hw
    · cases hw
      show ((s.setConn c ((s.conn c).stop 0)).conn c).st = _
      simp only [St.setConn, if_pos]; exact hst.1
  | finish t n c delay wake began sleeps hj hw hc hs =>
    refine ⟨h.stopped, fun m d hd hr => ?_, fun m d hd => ?_, fun t' m d k w hw => ?_⟩
    · have hd' : (if m = n then some c else s.cache m) = some d := hd
      split at hd'
      · cases hd'; exact h.waiting n c ⟨t, delay, wake, began, sleeps, hj⟩ hr
      · exact h.cached m d hd' hr
    · obtain ⟨_, _, _, _, _, hw⟩ := hd; cases hw
    · cases hw
  | clash t n c c' delay wake began sleeps hj hc => exact ⟨h.stopped, h.cached, h.waiting, h.closing⟩
  | sleep t n c delay wake began sleeps hj hw hs ht =>
    refine ⟨h.stopped, h.cached, fun m d hd => ?_, fun t' m d k w hw => ?_⟩
    · obtain ⟨_, _, _, _, _, hw⟩ := hd
      cases hw; exact h.waiting n c ⟨t, delay, wake, began, sleeps, hj⟩
    · cases hw
  | closed t n c tries wake hj hs =>
    refine ⟨h.stopped, fun m d hd hr => ?_, fun m d hd => ?_, fun t' m d k w hw => ?_⟩
    · have hd' : (if m = n then none else s.cache m) = some d := hd
      split at hd'
      · cases hd'
      · exact h.cached m d hd' hr
    · obtain ⟨_, _, _, _, _, hw⟩ := hd; cases hw
    · cases hw
  | ended t n c tries wake hj hs => exact ⟨h.stopped, h.cached, h.waiting, h.closing⟩
  | retry t n c tries wake hj hs => exact absurd (h.closing t n c tries wake hj) hs
  | connect c a hh hl hq =>
    have hns : (s.conn c).st ≠ .stopped := fun e => by rw [h.stopped c e] at hq; cases hq
    refine settled_conn h c _ (fun hx => ?_) (fun hx => ?_) (fun e => absurd e hns)
    · cases a with
      | connected => rfl
      | again => exact h.stopped c hx
      | failed => simp only [Conn.attempt]; split <;> rfl
    · cases a with
      | connected => exact Or.inl ⟨hx, hns⟩
      | again => exact Or.inl ⟨hx, hns⟩
      | failed =>
        by_cases hr : (s.conn c).reason = true
        · exact Or.inl ⟨hr, hns⟩
        · right; simp only [Conn.attempt]; rw [if_neg hr]; rfl
  | lost c hh hl hr => exact settled_conn h c _ (fun _ => rfl) (fun _ => Or.inr rfl) (fun _ => rfl)
  | disconnect c hh hl hq => exact settled_conn h c _ (fun _ => rfl) (fun _ => Or.inr rfl) (fun _ => rfl)

theorem settled_start : Settled start :=
  ⟨fun c h => (by cases h), fun n c h => (by cases h), fun n c h => (by obtain ⟨_, _, _, _, _, h⟩ := h; cases h),
   fun t n c k w h => (by cases h)⟩

/-- Only a remove ends the process. -/
theorem alive_op {s : St} (h : Settled s) (hi : Inv s) (ha : s.dead = false) (o : Op) : (s.op o).dead = false := by
  have hd := does_op s o
  generalize s.op o = s' at hd
  cases hd with
  | clash t n c c' delay wake began sleeps hj hc =>
    rw [(hi.waiting n c ⟨t, delay, wake, began, sleeps, hj⟩).2.2] at hc; cases hc
  | ended t n c tries wake hj hs => exact absurd (h.closing t n c tries wake hj) hs
  | _ => exact ha

theorem alive_run (ops : List Op) : ∀ {s : St}, Settled s → Inv s → s.dead = false → RemovedByCallback ops →
    (run s ops).dead = false := by
  induction ops with
  | nil => exact fun _ _ h _ => h
  | cons o l ih =>
    exact fun h hi ha hr => ih (settled_op h hi o (fun t n e => hr t n (by rw [e]; exact List.mem_cons_self ..))) (inv_op hi o)
      (alive_op h hi ha o) (fun t n hm => hr t n (List.mem_cons_of_mem _ hm))

theorem settled_run (ops : List Op) : ∀ {s : St}, Settled s → Inv s → RemovedByCallback ops → Settled (run s ops) := by
  induction ops with
  | nil => exact fun h _ _ => h
  | cons o l ih =>
    exact fun h hi hr => ih (settled_op h hi o (fun t n e => hr t n (by rw [e]; exact List.mem_cons_self ..))) (inv_op hi o)
      (fun t n hm => hr t n (List.mem_cons_of_mem _ hm))

theorem remove_zero {s : St} (h : Settled s) (ha : s.dead = false) (hm : s.mayCall 0 = true) (n : Nat) :
    ((s.op (.remove 0 n)).op .go).log = s.log ++ [.removed 0 n] := by
  have hj := (job_of_mayCall hm).1
  cases hc : s.cache n with
  | none => simp [St.op, ha, St.next, hm, St.remove, hc, St.add, hj]
  | some c =>
    have hst := (stop_zero (s.conn c) (h.cached n c hc) (h.stopped c)).1
    simp [St.op, ha, St.next, hm, St.remove, hc, St.setConn, St.close, hst, St.setCache, St.add]

theorem stopped_of_removed {s : St} {o : Op} {t n c : Nat} (hi : Inv s) (h : (s.op o).log = s.log ++ [.removed t n])
    (hc : current n s.log = some c) : ((s.op o).conn c).st = .stopped := by
  have hd := does_op s o
  generalize s.op o = s' at hd h ⊢
  have nil : s.log = s.log ++ [.removed t n] → False := fun h => by
    have := congrArg List.length h; simp at this
  have one : ∀ e, s.log ++ [e] = s.log ++ [.removed t n] → e = .removed t n := fun e h => by simpa using h
  cases hd with
  | removeNone t' n' hm hn =>
    have := one _ h
    cases this
    rw [hi.hist n (no_wait (job_of_mayCall hm).1 n), hc] at hn; cases hn
  | closed t' n' c' tries wake hj hs =>
    have := one _ h
    cases this
    have hw : ∀ c, ¬ s.waitsFor n c := fun c hw => by
      obtain ⟨_, _, _, _, _, hw⟩ := hw; rw [hj] at hw; cases hw
    have := (hi.closing _ _ _ _ _ hj).1
    rw [hi.hist n hw, hc] at this
    cases this
    exact hs
  | reuse => exact absurd (one _ h) (by simp)
  | found => exact absurd (one _ h) (by simp)
  | finish => exact absurd (one _ h) (by simp)
  | _ => exact (nil h).elim

/-! ## The callback thread waits in vain -/

structure Vain (s : St) : Prop where
  inside : s.callbackInside = true → s.inHandler = true
  waiting : ∀ n c d w b k, s.job = some (.waiting 0 n c d w b k) → (s.conn c).st = .starting

theorem vain_start : Vain start := ⟨fun h => (by cases h), fun n c d w b k h => (by cases h)⟩

theorem vain_op {s : St} (h : Vain s) (o : Op) : Vain (s.op o) := by
  have hd := does_op s o
  generalize s.op o = s' at hd
  have free : ∀ c (x : Conn), s.inHandler = false → Vain (s.setConn c x) := fun c x hh =>
    ⟨h.inside, fun n d dl w b k hj => by
      have : s.callbackInside = true := by
        unfold St.callbackInside; rw [show s.job = _ from hj]; rfl
      rw [h.inside this] at hh; cases hh⟩
  cases hd with
  | same => exact h
  | tick d => exact ⟨h.inside, h.waiting⟩
  | enter => exact ⟨fun _ => rfl, h.waiting⟩
  | leave hi => exact ⟨fun hx => absurd (hi.symm.trans hx) (by simp), h.waiting⟩
  | reuse t n c hm hc hr => exact ⟨h.inside, h.waiting⟩
  | fresh t n hm hc =>
    refine ⟨fun hx => ?_, fun m c d w b k hj => ?_⟩
    · have : t = 0 := by simpa [St.callbackInside, St.create] using hx
      exact (job_of_mayCall hm).2 this
    · cases hj; simp [St.create, St.setConn]
  | replace t n c hm hc hr =>
    refine ⟨fun hx => ?_, fun m c d w b k hj => ?_⟩
    · have : t = 0 := by simpa [St.callbackInside, St.create] using hx
      exact (job_of_mayCall hm).2 this
    · cases hj; simp [St.create, St.setConn, St.setCache]
  | found t n hm => exact ⟨h.inside, h.waiting⟩
  | removeNone t n hm hc => exact ⟨h.inside, h.waiting⟩
  | removeStart t n c hm hc =>
    refine ⟨fun hx => ?_, fun m c d w b k hj => (by cases hj)⟩
    have : t = 0 := by simpa [St.callbackInside] using hx
    exact (job_of_mayCall hm).2 this
  | finish t n c delay wake began sleeps hj hw hc hs => exact ⟨fun hx => (by cases hx), fun m c d w b k hj => (by cases hj)⟩
  | clash t n c c' delay wake began sleeps hj hc => exact ⟨h.inside, h.waiting⟩
  | sleep t n c delay wake began sleeps hj hw hs ht =>
    refine ⟨fun hx => h.inside ?_, fun m c d w b k hj2 => ?_⟩
    · have : t = 0 := by simpa [St.callbackInside] using hx
      unfold St.callbackInside; rw [hj]; simpa using this
    · cases hj2; exact h.waiting n _ delay wake _ sleeps hj
  | closed t n c tries wake hj hs => exact ⟨fun hx => (by cases hx), fun m c d w b k hj => (by cases hj)⟩
  | ended t n c tries wake hj hs => exact ⟨h.inside, h.waiting⟩
  | retry t n c tries wake hj hs =>
    refine ⟨fun hx => h.inside ?_, fun m c d w b k hj => (by cases hj)⟩
    have : t = 0 := by simpa [St.callbackInside] using hx
    unfold St.callbackInside; rw [hj]; simpa using this
  | connect c a hh hl hq => exact free _ _ hh
  | lost c hh hl hr => exact free _ _ hh
  | disconnect c hh hl hq => exact free _ _ hh

theorem vain_run (ops : List Op) : ∀ {s : St}, Vain s → Vain (run s ops) := by
  induction ops with
  | nil => exact fun h => h
  | cons o l ih => exact fun h => ih (vain_op h o)

/-! ## Waiting is bounded -/

/-- The time slept before look `k`. -/
def slept : Nat → Nat
  | 0 => 0
  | k + 1 => slept k + min (50 * 2 ^ k) 50000

theorem slept_mono {j k : Nat} (h : j ≤ k) : slept j ≤ slept k := by
  induction k with
  | zero => rw [Nat.le_zero.1 h]; exact Nat.le_refl _
  | succ k ih =>
    by_cases e : j = k + 1
    · rw [e]; exact Nat.le_refl _
    · exact Nat.le_trans (ih (by omega)) (Nat.le_add_right _ _)

def Timed (s : St) : Prop := ∀ t n c d w b k, s.job = some (.waiting t n c d w b k) →
  d = min (50 * 2 ^ k) 50000 ∧ b + slept k ≤ w ∧ w < b + 550000 ∧ k ≤ 19 ∧ b ≤ s.now

theorem timed_start : Timed start := fun t n c d w b k h => by cases h

theorem timed_op {s : St} (h : Timed s) (o : Op) : Timed (s.op o) := by
  have hd := does_op s o
  generalize s.op o = s' at hd
  cases hd with
  | tick d =>
    intro t n c d w b k hj
    obtain ⟨h1, h2, h3, h4, h5⟩ := h t n c d w b k hj
    exact ⟨h1, h2, h3, h4, Nat.le_trans h5 (Nat.le_add_right _ _)⟩
  | fresh t n hm hc =>
    intro t n c d w b k hj
    cases hj
    refine ⟨rfl, Nat.le_refl _, ?_, by omega, Nat.le_refl _⟩
    omega
  | replace t n c hm hc hr =>
    intro t n c d w b k hj
    cases hj
    refine ⟨rfl, Nat.le_refl _, ?_, by omega, Nat.le_refl _⟩
    show s.now < s.now + 550000
    omega
  | sleep t n c delay wake began sleeps hj hw hs ht =>
    intro t' n' c' d' w' b' k' hj2
    obtain ⟨h1, h2, h3, h4, h5⟩ := h t n c delay wake began sleeps hj
    have hk : sleeps ≤ 18 := by
      rcases Nat.lt_or_ge 18 sleeps with hlt | hge
      · have := slept_mono (show 19 ≤ sleeps from hlt)
        have e : slept 19 = 501150 := by decide +kernel
        unfold timeout at ht
        omega
      · exact hge
    have hp : 50 * 2 ^ (sleeps + 1) = 50 * 2 ^ sleeps * 2 := by rw [Nat.pow_succ]; omega
    cases hj2
    refine ⟨?_, ?_, ?_, by omega, h5⟩
    · rw [hp, h1]; unfold delayMax; omega
    · show began + (slept sleeps + min (50 * 2 ^ sleeps) 50000) ≤ s.now + delay
      rw [← h1]; omega
    · show s.now + delay < began + 550000
      unfold timeout at ht; omega
  | removeStart t n c hm hc => intro t n c d w b k hj; cases hj
  | finish t n c delay wake began sleeps hj hw hc hs => intro t n c d w b k hj; cases hj
  | closed t n c tries wake hj hs => intro t n c d w b k hj; cases hj
  | retry t n c tries wake hj hs => intro t n c d w b k hj; cases hj
  | _ => exact h

theorem timed_run (ops : List Op) : ∀ {s : St}, Timed s → Timed (run s ops) := by
  induction ops with
  | nil => exact fun h => h
  | cons o l ih => exact fun h => ih (timed_op h o)

/-- The log only grows. -/
theorem log_op (s : St) (o : Op) : ∃ l, (s.op o).log = s.log ++ l := by
  have hd := does_op s o
  generalize s.op o = s' at hd
  cases hd with
  | reuse => exact ⟨_, rfl⟩
  | found => exact ⟨_, rfl⟩
  | removeNone => exact ⟨_, rfl⟩
  | finish => exact ⟨_, rfl⟩
  | closed => exact ⟨_, rfl⟩
  | _ => exact ⟨[], (List.append_nil _).symm⟩

/-- A call that began at time `b` has returned since the log was `l`, or it still waits. -/
def Pending (t n b : Nat) (l : List Ev) (s : St) : Prop :=
  (∃ r c st, s.log = l ++ r ∧ Ev.returned t n c st ∈ r) ∨
  (s.dead = false ∧ s.log = l ∧ ∃ c d w k, s.job = some (.waiting t n c d w b k))

theorem pending_op {s : St} (hi : Inv s) {t n b : Nat} {l : List Ev} (h : Pending t n b l s) (o : Op) :
    Pending t n b l (s.op o) := by
  rcases h with ⟨r, c, st, h1, h2⟩ | ⟨ha, hl, c, d, w, k, hj⟩
  · obtain ⟨l', h'⟩ := log_op s o
    exact Or.inl ⟨r ++ l', c, st, by rw [h', h1, List.append_assoc], List.mem_append_left _ h2⟩
  have hd := does_op s o
  generalize s.op o = s' at hd
  have nc : ∀ u, s.mayCall u = true → False := fun u hm => by rw [(job_of_mayCall hm).1] at hj; cases hj
  cases hd with
  | reuse t n c hm hc hr => exact (nc _ hm).elim
  | fresh t n hm hc => exact (nc _ hm).elim
  | replace t n c hm hc hr => exact (nc _ hm).elim
  | found t n hm => exact (nc _ hm).elim
  | removeNone t n hm hc => exact (nc _ hm).elim
  | removeStart t n c hm hc => exact (nc _ hm).elim
  | finish t' n' c' delay wake began sleeps hj' hw hc hs =>
    rw [hj] at hj'; cases hj'
    exact Or.inl ⟨[.returned t n c (s.conn c).st], c, _, congrArg (· ++ _) hl, List.mem_singleton_self _⟩
  | clash t' n' c' c'' delay wake began sleeps hj' hc =>
    rw [(hi.waiting n' c' ⟨t', delay, wake, began, sleeps, hj'⟩).2.2] at hc; cases hc
  | sleep t' n' c' delay wake began sleeps hj' hw hs ht =>
    rw [hj] at hj'; cases hj'
    exact Or.inr ⟨ha, hl, _, _, _, _, rfl⟩
  | closed t n c tries wake hj' hs => rw [hj] at hj'; cases hj'
  | ended t n c tries wake hj' hs => rw [hj] at hj'; cases hj'
  | retry t n c tries wake hj' hs => rw [hj] at hj'; cases hj'
  | _ => exact Or.inr ⟨ha, hl, _, _, _, _, hj⟩

theorem pending_run {t n b : Nat} {l : List Ev} (ops : List Op) : ∀ {s : St}, Inv s → Pending t n b l s →
    Pending t n b l (run s ops) := by
  induction ops with
  | nil => exact fun _ h => h
  | cons o r ih => exact fun hi h => ih (inv_op hi o) (pending_op hi h o)

/-- What a call for a connection does at once. -/
theorem pending_get {s : St} (ha : s.dead = false) {t : Nat} (hm : s.mayCall t = true) (n : Nat) :
    Pending t n s.now s.log (s.op (.get t n)) := by
  have : s.op (.get t n) = s.get t n := by simp [St.op, ha, St.next, hm]
  rw [this]
  unfold St.get
  split
  · exact Or.inr ⟨ha, rfl, _, _, _, _, rfl⟩
  · split
    · exact Or.inl ⟨_, _, _, rfl, List.mem_singleton_self _⟩
    · exact Or.inr ⟨ha, rfl, _, _, _, _, rfl⟩

end Verif.ClientCache
