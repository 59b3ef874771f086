import Verif.Proofs.TraceCall

/-! Calls that do not overlap. -/
namespace Verif.TraceCall
open Verif.TraceCallSpec

theorem loss_append (l : List Ev) (e : Ev) : lossSince (l ++ [e]) = (match e with
      | .called _ _ _ a => if a = .ok then false else if a = .terminal then lossSince l else true
      | .dropped _ => true
      | _ => lossSince l) := by
  unfold lossSince; rw [List.foldl_append]; rfl

theorem failures_append (l : List Ev) (e : Ev) : failures (l ++ [e]) = (match e with
      | .called _ _ _ a => if a = .ok then 0 else if a = .terminal then failures l else failures l + 1
      | _ => failures l) := by
  unfold failures; rw [List.foldl_append]; rfl

theorem terminal_append (l : List Ev) (e : Ev) : sawTerminal (l ++ [e]) = (sawTerminal l || (match e with
      | .called _ _ _ a => decide (a = .terminal)
      | .fatal => true
      | _ => false)) := by
  unfold sawTerminal; rw [List.any_append, List.any_cons, List.any_nil, Bool.or_false]
  cases e <;> rfl

/-- All threads have returned and the members agree with the history. -/
structure Base (s : St) : Prop where
  flag : s.flag = lossSince s.log
  counter : s.counter = failures s.log
  on : s.enabled = true → sawTerminal s.log = false ∧ failures s.log < maxFailures
  off : s.enabled = false → sawTerminal s.log = true ∨ maxFailures ≤ failures s.log

/-- The data names the object that is registered for the instance. -/
def Current (log : List Ev) (p : Point) : Data → Prop
  | .loc => True
  | .shm g o x => ∃ st, object p.inst log = some (g, st) ∧ o = x - st

def Phase (s : St) : Pc → Prop
  | .idle => Base s
  | .enter _ _ => Base s
  | .info p d => Base s ∧ s.enabled = true ∧ Current s.log p d
  | .slot p d l => Base s ∧ s.enabled = true ∧ Current s.log p d ∧ l = lossSince s.log
  | .call p d l => Base s ∧ s.enabled = true ∧ Current s.log p d ∧ l = lossSince s.log
  | .okFlag => s.enabled = true ∧ sawTerminal s.log = false ∧ lossSince s.log = false ∧ failures s.log = 0
  | .okCount => s.enabled = true ∧ sawTerminal s.log = false ∧ lossSince s.log = false ∧ failures s.log = 0 ∧ s.flag = false
  | .failCount _ _ => s.enabled = true ∧ sawTerminal s.log = false ∧ lossSince s.log = true ∧
      s.counter + 1 = failures s.log ∧ s.counter < maxFailures
  | .failFlag _ _ => s.enabled = true ∧ sawTerminal s.log = false ∧ lossSince s.log = true ∧ s.counter = failures s.log
  | .failCheck _ _ => s.enabled = true ∧ sawTerminal s.log = false ∧ lossSince s.log = true ∧
      s.counter = failures s.log ∧ s.flag = true

/-- Every call of the subsystem reports losses and names the object as the history says. -/
def Told (log : List Ev) : Prop := ∀ l p d loss a r, log = l ++ Ev.called p d loss a :: r →
  loss = lossSince l ∧ Current l p d

theorem told_append {log : List Ev} {e : Ev} (h : Told log)
    (he : ∀ p d loss a, e = .called p d loss a → loss = lossSince log ∧ Current log p d) : Told (log ++ [e]) := by
  intro l p d loss a r heq
  rcases List.append_eq_append_iff.1 heq with ⟨m, h1, h2⟩ | ⟨m, h1, h2⟩
  · -- l = log ++ m
    cases m with
    | nil =>
      simp only [List.append_nil] at h1
      simp only [List.nil_append, List.cons.injEq] at h2
      rw [h1]; exact he p d loss a h2.1
    | cons y m =>
      rw [List.cons_append] at h2
      have := congrArg List.length h2
      simp at this
  · cases m with
    | nil =>
      simp only [List.append_nil] at h1
      simp only [List.nil_append, List.cons.injEq] at h2
      rw [← h1]; exact he p d loss a h2.1.symm
    | cons y m =>
      rw [List.cons_append, List.cons.injEq] at h2
      exact h l p d loss a m (by rw [h1, h2.1])

structure Seq (s : St) : Prop where
  one : ∀ t u, s.pc t ≠ .idle → s.pc u ≠ .idle → t = u
  phase : ∀ t, s.pc t ≠ .idle → Phase s (s.pc t)
  base : Quiet s → Base s
  told : Told s.log

theorem seq_start (on : Point → Bool) : Seq (start on) :=
  ⟨fun t u h => absurd rfl h, fun t h => absurd rfl h,
    fun _ => ⟨rfl, rfl, fun _ => ⟨rfl, (by show 0 < maxFailures; decide)⟩, fun h => (by cases h)⟩,
    fun l p d loss a r h => (by
      have := congrArg List.length h
      simp [start] at this)⟩

theorem seq_next {s s' : St} (h : Seq s) (t : Nat) (q : Pc) (hp : s.pc t ≠ .idle)
    (hpc : ∀ u, s'.pc u = if u = t then q else s.pc u) (hq : Phase s' q) (ht : Told s'.log) : Seq s' := by
  have other : ∀ u, u ≠ t → s.pc u = .idle := fun u hu => by
    by_cases hi : s.pc u = .idle
    · exact hi
    · exact absurd (h.one u t hi hp) hu
  have other' : ∀ u, s'.pc u ≠ .idle → u = t := fun u hu => by
    by_cases e : u = t
    · exact e
    · rw [hpc, if_neg e, other u e] at hu; exact absurd rfl hu
  refine ⟨fun a b ha hb => (other' a ha).trans (other' b hb).symm, ?_, ?_, ht⟩
  · intro u hu
    have := other' u hu
    subst this
    rw [hpc, if_pos rfl]; exact hq
  · intro hquiet
    have := hquiet t
    rw [hpc, if_pos rfl] at this
    rw [this] at hq; exact hq

theorem seq_quiet {s s' : St} (hq : Quiet s) (hpc : s'.pc = s.pc) (hb : Base s') (ht : Told s'.log) : Seq s' := by
  have : Quiet s' := fun t => by rw [hpc]; exact hq t
  exact ⟨fun t u h => absurd (this t) h, fun t h => absurd (this t) h, fun _ => hb, ht⟩

/-- A history that does not matter for losses. -/
theorem base_add {s s' : St} (h : Base s) (e : Ev) (h1 : s'.flag = s.flag) (h2 : s'.counter = s.counter) (h3 : s'.enabled = s.enabled)
    (hl : s'.log = s.log ++ [e]) (he : (∃ i g st, e = .registered i g st) ∨ (∃ i, e = .unregistered i) ∨
      (∃ i, e = .registerFailed i) ∨ ∃ p, e = .missing p) : Base s' := by
  have k : lossSince s'.log = lossSince s.log ∧ failures s'.log = failures s.log ∧ sawTerminal s'.log = sawTerminal s.log := by
    rw [hl, loss_append, failures_append, terminal_append]
    rcases he with ⟨i, g, st, rfl⟩ | ⟨i, rfl⟩ | ⟨i, rfl⟩ | ⟨i, rfl⟩ <;> simp
  obtain ⟨k1, k2, k3⟩ := k
  exact ⟨by rw [h1, k1]; exact h.flag, by rw [h2, k2]; exact h.counter,
    fun ho => by rw [k2, k3]; exact h.on (h3 ▸ ho), fun ho => by rw [k2, k3]; exact h.off (h3 ▸ ho)⟩

theorem base_fatal {s s' : St} (h : Base s) (h1 : s'.flag = s.flag) (h2 : s'.counter = s.counter) (h3 : s'.enabled = false)
    (hl : s'.log = s.log ++ [.fatal]) : Base s' := by
  have k : lossSince s'.log = lossSince s.log ∧ failures s'.log = failures s.log ∧ sawTerminal s'.log = true := by
    rw [hl, loss_append, failures_append, terminal_append]; simp
  obtain ⟨k1, k2, k3⟩ := k
  exact ⟨by rw [h1, k1]; exact h.flag, by rw [h2, k2]; exact h.counter,
    fun ho => (by rw [h3] at ho; cases ho), fun _ => Or.inl k3⟩

theorem base_same {s s' : St} (h : Base s) (h1 : s'.flag = s.flag) (h2 : s'.counter = s.counter) (h3 : s'.enabled = s.enabled)
    (hl : s'.log = s.log) : Base s' :=
  ⟨by rw [h1, hl]; exact h.flag, by rw [h2, hl]; exact h.counter, fun ho => by rw [hl]; exact h.on (h3 ▸ ho),
    fun ho => by rw [hl]; exact h.off (h3 ▸ ho)⟩

theorem seq_op {s : St} (ob : Objects s) (h : Seq s) (o : Op) (ht : TurnAt s o) : Seq (s.op o) := by
  have hd := does_op s o
  generalize s.op o = s' at hd
  have ph : ∀ t q, s.pc t = q → q ≠ .idle → Phase s q := fun t q hq hn => by
    subst hq; exact h.phase t hn
  cases hd with
  | same => exact h
  | died =>
    refine ⟨h.one, ?_, fun hq => base_same (h.base hq) rfl rfl rfl rfl, h.told⟩
    intro t hn
    have := h.phase t hn
    show Phase _ (s.pc t)
    generalize s.pc t = q at this
    have bs : ∀ {x : St}, Base x → Base { x with dead := true } := fun hb => base_same hb rfl rfl rfl rfl
    cases q with
    | idle => exact bs this
    | enter p x => exact bs this
    | info p d => exact ⟨bs this.1, this.2⟩
    | slot p d l => exact ⟨bs this.1, this.2⟩
    | call p d l => exact ⟨bs this.1, this.2⟩
    | _ => exact this
  | registered i fd st g he hn =>
    exact seq_quiet ht rfl (base_add (h.base ht) _ rfl rfl rfl rfl (Or.inl ⟨i, g, st, rfl⟩)) (told_append h.told (by simp))
  | registerFatal i fd st g he =>
    exact seq_quiet ht rfl (base_fatal (h.base ht) rfl rfl rfl rfl) (told_append h.told (by simp))
  | cached i fd st g he =>
    exact seq_quiet ht rfl (base_add (h.base ht) _ rfl rfl rfl rfl (Or.inr (Or.inr (Or.inl ⟨i, rfl⟩))))
      (told_append h.told (by simp))
  | uncached i a he hn => exact seq_quiet ht rfl (base_same (h.base ht) rfl rfl rfl rfl) h.told
  | unregistered i a he ha =>
    exact seq_quiet ht rfl (base_add (h.base ht) _ rfl rfl rfl rfl (Or.inr (Or.inl ⟨i, rfl⟩))) (told_append h.told (by simp))
  | unregisterFatal i he =>
    have b1 : Base ((s.setHandle i none).add (.unregistered i)) :=
      base_add (h.base ht) _ rfl rfl rfl rfl (Or.inr (Or.inl ⟨i, rfl⟩))
    exact seq_quiet ht rfl (base_fatal b1 rfl rfl rfl rfl) (told_append (told_append h.told (by simp)) (by simp))
  | trace t p x hp hon =>
    have hb := base_same (s' := s.setPc t (.enter p x)) (h.base ht) rfl rfl rfl rfl
    have other : ∀ u, (s.setPc t (.enter p x)).pc u ≠ .idle → u = t := fun u hu => by
      by_cases e : u = t
      · exact e
      · simp only [pc_setPc, e, if_false] at hu; exact absurd (ht u) hu
    refine ⟨fun a b ha hb => (other a ha).trans (other b hb).symm, ?_, fun _ => hb, h.told⟩
    intro u hu
    have := other u hu
    subst this
    simp only [pc_setPc, if_true]; exact hb
  | disabled t sl a g p x hp he =>
    exact seq_next h t .idle (by rw [hp]; simp) (fun u => rfl) (base_same (ph t _ hp (by simp)) rfl rfl rfl rfl) h.told
  | enterLocal t sl a g p hp he =>
    have := ph t _ hp (by simp)
    exact seq_next h t _ (by rw [hp]; simp) (fun u => rfl) ⟨base_same this rfl rfl rfl rfl, he, trivial⟩ h.told
  | enterShm t sl a g' p x g st hp he hh =>
    have := ph t _ hp (by simp)
    rw [ob.handles] at hh
    exact seq_next h t _ (by rw [hp]; simp) (fun u => rfl) ⟨base_same this rfl rfl rfl rfl, he, st, hh, rfl⟩ h.told
  | missing t sl a g p x hp he hh hc =>
    have := ph t _ hp (by simp)
    exact seq_next h t .idle (by rw [hp]; simp) (fun u => rfl)
      (base_add this _ rfl rfl rfl rfl (Or.inr (Or.inr (Or.inr ⟨p, rfl⟩)))) (told_append h.told (by simp))
  | retryFatal t sl a g p x hp he hc => exact absurd (ob.cache _ _) hc
  | retryFailed t sl a g p x hp he hc => exact absurd (ob.cache _ _) hc
  | infoLocal t sl a g p hp =>
    have := ph t _ hp (by simp)
    exact seq_next h t _ (by rw [hp]; simp) (fun u => rfl)
      ⟨base_same this.1 rfl rfl rfl rfl, this.2.1, this.2.2, this.1.flag⟩ h.told
  | infoShm t sl a g' p g o x hp =>
    have := ph t _ hp (by simp)
    exact seq_next h t _ (by rw [hp]; simp) (fun u => rfl)
      ⟨base_same this.1 rfl rfl rfl rfl, this.2.1, this.2.2, this.1.flag⟩ h.told
  | slot t a g p d l hp =>
    have := ph t _ hp (by simp)
    exact seq_next h t _ (by rw [hp]; simp) (fun u => rfl) ⟨base_same this.1 rfl rfl rfl rfl, this.2⟩ h.told
  | noSlot t a g p d l hp =>
    obtain ⟨b, he, _, _⟩ := ph t _ hp (by simp)
    refine seq_next h t .idle (by rw [hp]; simp) (fun u => rfl) ?_ (told_append h.told (by simp))
    obtain ⟨o1, o2⟩ := b.on he
    have hx : lossSince (s.log ++ [Ev.dropped p]) = true := by rw [loss_append]
    have hf : failures (s.log ++ [Ev.dropped p]) = failures s.log := by rw [failures_append]
    have hs : sawTerminal (s.log ++ [Ev.dropped p]) = false := by rw [terminal_append, o1]; rfl
    exact ⟨hx.symm, b.counter.trans hf.symm, fun _ => ⟨hs, by show failures (s.log ++ [Ev.dropped p]) < _; rw [hf]; exact o2⟩,
      fun hc => (by change s.enabled = false at hc; rw [he] at hc; cases hc)⟩
  | callOk t sl g p d l hp =>
    obtain ⟨b, he, hc, hl⟩ := ph t _ hp (by simp)
    refine seq_next h t .okFlag (by rw [hp]; simp) (fun u => rfl) ?_
      (told_append h.told (by rintro _ _ _ _ heq; cases heq; exact ⟨hl, hc⟩))
    obtain ⟨o1, o2⟩ := b.on he
    refine ⟨he, ?_, ?_, ?_⟩
    · show sawTerminal (s.log ++ [_]) = false; rw [terminal_append, o1]; rfl
    · show lossSince (s.log ++ [_]) = false; rw [loss_append]; rfl
    · show failures (s.log ++ [_]) = 0; rw [failures_append]; rfl
  | callTerminal t sl g p d l hp =>
    obtain ⟨b, he, hc, hl⟩ := ph t _ hp (by simp)
    refine seq_next h t .idle (by rw [hp]; simp) (fun u => rfl) ?_
      (told_append h.told (by rintro _ _ _ _ heq; cases heq; exact ⟨hl, hc⟩))
    refine ⟨?_, ?_, fun hx => (by cases hx), fun _ => Or.inl ?_⟩
    · show s.flag = lossSince (s.log ++ [_]); rw [loss_append]; exact b.flag
    · show s.counter = failures (s.log ++ [_]); rw [failures_append]; exact b.counter
    · show sawTerminal (s.log ++ [_]) = true; rw [terminal_append]; simp
  | callFailed t sl a g p d l hard hp ha =>
    obtain ⟨b, he, hc, hl⟩ := ph t _ hp (by simp)
    have na : a ≠ .ok ∧ a ≠ .terminal := by subst ha; cases hard <;> simp
    refine seq_next h t _ (by rw [hp]; simp) (fun u => rfl) ?_
      (told_append h.told (by rintro _ _ _ _ heq; cases heq; exact ⟨hl, hc⟩))
    obtain ⟨o1, o2⟩ := b.on he
    refine ⟨he, ?_, ?_, ?_, ?_⟩
    · show sawTerminal (s.log ++ [_]) = false; rw [terminal_append, o1]; simp [na.2]
    · show lossSince (s.log ++ [_]) = true; rw [loss_append]; simp [na.1, na.2]
    · show s.counter + 1 = failures (s.log ++ [_]); rw [failures_append]; simp [na.1, na.2, b.counter]
    · show s.counter < _; rw [b.counter]; exact o2
  | okFlag t sl a g hp =>
    obtain ⟨h1, h2, h3, h4⟩ := ph t _ hp (by simp)
    exact seq_next h t _ (by rw [hp]; simp) (fun u => rfl) ⟨h1, h2, h3, h4, rfl⟩ h.told
  | okCount t sl a g hp =>
    obtain ⟨h1, h2, h3, h4, h5⟩ := ph t _ hp (by simp)
    refine seq_next h t .idle (by rw [hp]; simp) (fun u => rfl) ?_ h.told
    exact ⟨h5.trans h3.symm, h4.symm, fun _ => ⟨h2, by show failures s.log < _; rw [h4]; decide⟩,
      fun hc => (by change s.enabled = false at hc; rw [h1] at hc; cases hc)⟩
  | failCount t sl a g p hard hp =>
    obtain ⟨h1, h2, h3, h4, h5⟩ := ph t _ hp (by simp)
    refine seq_next h t _ (by rw [hp]; simp) (fun u => rfl) ⟨h1, h2, h3, ?_⟩ h.told
    show (s.counter + 1) % 2 ^ 32 = failures s.log
    rw [← h4]
    unfold maxFailures at h5
    omega
  | failFlag t sl a g p hard hp =>
    obtain ⟨h1, h2, h3, h4⟩ := ph t _ hp (by simp)
    exact seq_next h t _ (by rw [hp]; simp) (fun u => rfl) ⟨h1, h2, h3, h4, rfl⟩ h.told
  | tooMany t sl a g p hard hp hc =>
    obtain ⟨h1, h2, h3, h4, h5⟩ := ph t _ hp (by simp)
    refine seq_next h t .idle (by rw [hp]; simp) (fun u => rfl) ?_ h.told
    exact ⟨h5.trans h3.symm, h4, fun hx => (by cases hx), fun _ => Or.inr (by show _ ≤ failures s.log; rw [← h4]; exact hc)⟩
  | hard t sl a g p hp hc =>
    obtain ⟨h1, h2, h3, h4, h5⟩ := ph t _ hp (by simp)
    refine seq_next h t .idle (by rw [hp]; simp) (fun u => rfl) ?_ h.told
    exact ⟨h5.trans h3.symm, h4, fun _ => ⟨h2, by show failures s.log < _; omega⟩,
      fun hx => (by change s.enabled = false at hx; rw [h1] at hx; cases hx)⟩
  | soft t sl a g p hp hc =>
    obtain ⟨h1, h2, h3, h4, h5⟩ := ph t _ hp (by simp)
    refine seq_next h t .idle (by rw [hp]; simp) (fun u => rfl) ?_ h.told
    exact ⟨h5.trans h3.symm, h4, fun _ => ⟨h2, by show failures s.log < _; omega⟩,
      fun hx => (by change s.enabled = false at hx; rw [h1] at hx; cases hx)⟩

theorem seq_run (ops : List Op) : ∀ {s : St}, Objects s → Seq s → Turns s ops → Seq (run s ops) := by
  induction ops with
  | nil => exact fun _ h _ => h
  | cons o ops ih => exact fun ob h ht => ih (objects_op ob o) (seq_op ob h o ht.1) ht.2

/-! ## Trace points -/

/-- Why a trace point is off. -/
def Reason (s : St) (p : Point) : Prop :=
  s.enabled = false ∨ Ev.missing p ∈ s.log ∨ ∃ d l, Ev.called p d l .nonRecoverable ∈ s.log

/-- A thread that is about to switch the point off has a reason. -/
def hardAt : Pc → Option Point
  | .failCount p true => some p
  | .failFlag p true => some p
  | .failCheck p true => some p
  | _ => none

structure Reasons (on : Point → Bool) (s : St) : Prop where
  point : ∀ p, on p = true → s.on p = false → Reason s p
  thread : ∀ t p, hardAt (s.pc t) = some p → Reason s p

theorem reason_mono {s s' : St} (he : s.enabled = false → s'.enabled = false) (hl : ∀ e ∈ s.log, e ∈ s'.log) {p : Point}
    (h : Reason s p) : Reason s' p := by
  rcases h with r | r | ⟨d, l, r⟩
  · exact Or.inl (he r)
  · exact Or.inr (Or.inl (hl _ r))
  · exact Or.inr (Or.inr ⟨d, l, hl _ r⟩)

theorem log_grows (s : St) (o : Op) : ∀ e ∈ s.log, e ∈ (s.op o).log := by
  have hd := does_op s o
  generalize s.op o = s' at hd
  intro e he
  cases hd <;> first | exact he | exact List.mem_append_left _ he | exact List.mem_append_left _ (List.mem_append_left _ he)

theorem reasons_op {on : Point → Bool} {s : St} (ob : Objects s) (h : Reasons on s) (o : Op) : Reasons on (s.op o) := by
  have hm : ∀ {p}, Reason s p → Reason (s.op o) p := fun r => reason_mono (fun he => off_op he o) (log_grows s o) r
  have hd := does_op s o
  generalize s.op o = s' at hd hm
  -- only the place of a thread changes
  have set : ∀ (t : Nat) (q : Pc), s'.on = s.on → (∀ u, s'.pc u = if u = t then q else s.pc u) →
      (∀ p, hardAt q = some p → Reason s' p) → Reasons on s' := by
    intro t q hon hpc hq
    refine ⟨fun p h1 h2 => hm (h.point p h1 (hon ▸ h2)), fun u p hu => ?_⟩
    rw [hpc] at hu
    split at hu
    · exact hq p hu
    · exact hm (h.thread u p hu)
  have keep : s'.on = s.on → s'.pc = s.pc → Reasons on s' := fun hon hpc =>
    ⟨fun p h1 h2 => hm (h.point p h1 (hon ▸ h2)), fun u p hu => hm (h.thread u p (hpc ▸ hu))⟩
  have idle : ∀ t, (∀ u, s'.pc u = if u = t then .idle else s.pc u) → (∀ p, s'.on p = false → s.on p = false ∨ Reason s' p) →
      Reasons on s' := by
    intro t hpc hoff
    refine ⟨fun p h1 h2 => ?_, fun u p hu => ?_⟩
    · rcases hoff p h2 with r | r
      · exact hm (h.point p h1 r)
      · exact r
    · rw [hpc] at hu
      split at hu
      · cases hu
      · exact hm (h.thread u p hu)
  cases hd with
  | same => exact h
  | died => exact keep rfl rfl
  | registered i fd st g he hn => exact keep rfl rfl
  | registerFatal i fd st g he => exact keep rfl rfl
  | cached i fd st g he => exact keep rfl rfl
  | uncached i a he hn => exact keep rfl rfl
  | unregistered i a he ha => exact keep rfl rfl
  | unregisterFatal i he => exact keep rfl rfl
  | trace t p x hp hon => exact set t _ rfl (fun u => rfl) (fun p hp => by cases hp)
  | disabled t sl a g p x hp he => exact idle t (fun u => rfl) (fun q _ => Or.inr (Or.inl he))
  | enterLocal t sl a g p hp he => exact set t _ rfl (fun u => rfl) (fun p hp => by cases hp)
  | enterShm t sl a g' p x g st hp he hh => exact set t _ rfl (fun u => rfl) (fun p hp => by cases hp)
  | missing t sl a g p x hp he hh hc =>
    refine idle t (fun u => rfl) (fun q hq => ?_)
    by_cases e : q = p
    · subst e; exact Or.inr (Or.inr (Or.inl (List.mem_append_right _ (List.mem_singleton.2 rfl))))
    · simp only [St.pointOff, St.setPc, St.add, e, if_false] at hq; exact Or.inl hq
  | retryFatal t sl a g p x hp he hc => exact absurd (ob.cache _ _) hc
  | retryFailed t sl a g p x hp he hc => exact absurd (ob.cache _ _) hc
  | infoLocal t sl a g p hp => exact set t _ rfl (fun u => rfl) (fun p hp => by cases hp)
  | infoShm t sl a g' p g o x hp => exact set t _ rfl (fun u => rfl) (fun p hp => by cases hp)
  | slot t a g p d l hp => exact set t _ rfl (fun u => rfl) (fun p hp => by cases hp)
  | noSlot t a g p d l hp => exact idle t (fun u => rfl) (fun q hq => Or.inl hq)
  | callOk t sl g p d l hp => exact set t _ rfl (fun u => rfl) (fun p hp => by cases hp)
  | callTerminal t sl g p d l hp => exact idle t (fun u => rfl) (fun q _ => Or.inr (Or.inl rfl))
  | callFailed t sl a g p d l hard hp ha =>
    refine set t _ rfl (fun u => rfl) (fun q hq => ?_)
    cases hard with
    | false => cases hq
    | true =>
      cases hq
      subst ha
      exact Or.inr (Or.inr ⟨d, l, List.mem_append_right _ (List.mem_singleton.2 rfl)⟩)
  | okFlag t sl a g hp => exact set t _ rfl (fun u => rfl) (fun p hp => by cases hp)
  | okCount t sl a g hp => exact idle t (fun u => rfl) (fun q hq => Or.inl hq)
  | failCount t sl a g p hard hp =>
    refine set t _ rfl (fun u => rfl) (fun q hq => hm (h.thread t q ?_))
    rw [hp]; cases hard <;> exact hq
  | failFlag t sl a g p hard hp =>
    refine set t _ rfl (fun u => rfl) (fun q hq => hm (h.thread t q ?_))
    rw [hp]; cases hard <;> exact hq
  | tooMany t sl a g p hard hp hc => exact idle t (fun u => rfl) (fun q _ => Or.inr (Or.inl rfl))
  | hard t sl a g p hp hc =>
    refine idle t (fun u => rfl) (fun q hq => ?_)
    by_cases e : q = p
    · subst e; exact Or.inr (hm (h.thread t q (by rw [hp]; rfl)))
    · simp only [St.pointOff, St.setPc, e, if_false] at hq; exact Or.inl hq
  | soft t sl a g p hp hc => exact idle t (fun u => rfl) (fun q hq => Or.inl hq)

theorem reasons_run (on : Point → Bool) (ops : List Op) : ∀ {s : St}, Objects s → Reasons on s → Reasons on (run s ops) := by
  induction ops with
  | nil => exact fun _ h => h
  | cons o ops ih => exact fun ob h => ih (objects_op ob o) (reasons_op ob h o)

/-! ## Trace points that must be off -/

/-- The trace point must be switched off. -/
def Due (log : List Ev) (p : Point) : Prop := Ev.missing p ∈ log ∨ ∃ d l, Ev.called p d l .nonRecoverable ∈ log

def Served (s : St) : Prop := ∀ p, Due s.log p → s.on p = false ∨ ∃ t, hardAt (s.pc t) = some p

theorem served_start (on : Point → Bool) : Served (start on) := by
  rintro p (h | ⟨d, l, h⟩) <;> cases h

theorem due_append {log : List Ev} {e : Ev} {p : Point} (h : Due (log ++ [e]) p) :
    Due log p ∨ e = .missing p ∨ ∃ d l, e = .called p d l .nonRecoverable := by
  rcases h with h | ⟨d, l, h⟩
  · rcases List.mem_append.1 h with h | h
    · exact Or.inl (Or.inl h)
    · exact Or.inr (Or.inl (List.mem_singleton.1 h).symm)
  · rcases List.mem_append.1 h with h | h
    · exact Or.inl (Or.inr ⟨d, l, h⟩)
    · exact Or.inr (Or.inr ⟨d, l, (List.mem_singleton.1 h).symm⟩)

theorem served_op {s : St} (ob : Objects s) (h : Served s) (o : Op) : Served (s.op o) := by
  have hd := does_op s o
  generalize s.op o = s' at hd
  -- nothing is due that was not, and threads and points stay
  have keep : s'.on = s.on → s'.pc = s.pc → (∀ p, Due s'.log p → Due s.log p) → Served s' := by
    intro h1 h2 h3 p hp
    rw [h1, h2]; exact h p (h3 p hp)
  -- a thread moves on
  have move : ∀ (t : Nat) (q : Pc), (∀ u, s'.pc u = if u = t then q else s.pc u) → (∀ p, s.on p = false → s'.on p = false) →
      (∀ p, hardAt (s.pc t) = some p → hardAt q = some p ∨ s'.on p = false) →
      (∀ p, Due s'.log p → Due s.log p ∨ s'.on p = false ∨ hardAt q = some p) → Served s' := by
    intro t q h1 h2 h3 h4 p hp
    rcases h4 p hp with r | r | r
    · rcases h p r with k | ⟨u, k⟩
      · exact Or.inl (h2 p k)
      · by_cases e : u = t
        · subst e
          rcases h3 p k with m | m
          · exact Or.inr ⟨u, by rw [h1, if_pos rfl]; exact m⟩
          · exact Or.inl m
        · exact Or.inr ⟨u, by rw [h1, if_neg e]; exact k⟩
    · exact Or.inl r
    · exact Or.inr ⟨t, by rw [h1, if_pos rfl]; exact r⟩
  have add1 : ∀ {l : List Ev} {e : Ev} {p}, Due (l ++ [e]) p → (∀ q, e ≠ .missing q) → (∀ q d l, e ≠ .called q d l .nonRecoverable) →
      Due l p := by
    intro l e p hp h1 h2
    rcases due_append hp with r | r | ⟨d, l, r⟩
    · exact r
    · exact absurd r (h1 p)
    · exact absurd r (h2 p d l)
  have none' : ∀ {t q}, s.pc t = q → hardAt q = none → ∀ {r : Pc} p, hardAt (s.pc t) = some p → hardAt r = some p ∨ s'.on p = false := by
    intro t q h1 h2 r p h3
    rw [h1, h2] at h3; cases h3
  have offE : ∀ (x : St) (p q : Point), x.on q = false → (x.elemOff p).on q = false := by
    intro x p q hq; simp only [St.elemOff]; split
    · rfl
    · exact hq
  have offP : ∀ (x : St) (p q : Point), x.on q = false → (x.pointOff p).on q = false := by
    intro x p q hq; simp only [St.pointOff]; split
    · rfl
    · exact hq
  cases hd with
  | same => exact h
  | died => exact keep rfl rfl (fun p hp => hp)
  | registered i fd st g he hn => exact keep rfl rfl (fun p hp => add1 hp (by simp) (by simp))
  | registerFatal i fd st g he => exact keep rfl rfl (fun p hp => add1 hp (by simp) (by simp))
  | cached i fd st g he => exact keep rfl rfl (fun p hp => add1 hp (by simp) (by simp))
  | uncached i a he hn => exact keep rfl rfl (fun p hp => hp)
  | unregistered i a he ha => exact keep rfl rfl (fun p hp => add1 hp (by simp) (by simp))
  | unregisterFatal i he =>
    exact keep rfl rfl (fun p hp => add1 (add1 hp (by simp) (by simp)) (by simp) (by simp))
  | trace t p x hp hon => exact move t _ (fun u => rfl) (fun q hq => hq) (none' hp rfl) (fun q hq => Or.inl hq)
  | disabled t sl a g p x hp he =>
    exact move t .idle (fun u => rfl) (fun q hq => offE s p q hq) (none' hp rfl) (fun q hq => Or.inl hq)
  | enterLocal t sl a g p hp he => exact move t _ (fun u => rfl) (fun q hq => hq) (none' hp rfl) (fun q hq => Or.inl hq)
  | enterShm t sl a g' p x g st hp he hh => exact move t _ (fun u => rfl) (fun q hq => hq) (none' hp rfl) (fun q hq => Or.inl hq)
  | missing t sl a g p x hp he hh hc =>
    refine move t .idle (fun u => rfl) (fun q hq => offP s p q hq) (none' hp rfl) (fun q hq => ?_)
    rcases due_append hq with r | r | ⟨d, l, r⟩
    · exact Or.inl r
    · cases r
      exact Or.inr (Or.inl (by show (s.pointOff p).on p = false; simp [St.pointOff]))
    · cases r
  | retryFatal t sl a g p x hp he hc => exact absurd (ob.cache _ _) hc
  | retryFailed t sl a g p x hp he hc => exact absurd (ob.cache _ _) hc
  | infoLocal t sl a g p hp => exact move t _ (fun u => rfl) (fun q hq => hq) (none' hp rfl) (fun q hq => Or.inl hq)
  | infoShm t sl a g' p g o x hp => exact move t _ (fun u => rfl) (fun q hq => hq) (none' hp rfl) (fun q hq => Or.inl hq)
  | slot t a g p d l hp => exact move t _ (fun u => rfl) (fun q hq => hq) (none' hp rfl) (fun q hq => Or.inl hq)
  | noSlot t a g p d l hp =>
    exact move t .idle (fun u => rfl) (fun q hq => hq) (none' hp rfl) (fun q hq => Or.inl (add1 hq (by simp) (by simp)))
  | callOk t sl g p d l hp =>
    exact move t .okFlag (fun u => rfl) (fun q hq => hq) (none' hp rfl) (fun q hq => Or.inl (add1 hq (by simp) (by simp)))
  | callTerminal t sl g p d l hp =>
    exact move t .idle (fun u => rfl) (fun q hq => offE s p q hq) (none' hp rfl)
      (fun q hq => Or.inl (add1 hq (by simp) (by simp)))
  | callFailed t sl a g p d l hard hp ha =>
    refine move t _ (fun u => rfl) (fun q hq => hq) (none' hp rfl) (fun q hq => ?_)
    rcases due_append hq with r | r | ⟨d', l', r⟩
    · exact Or.inl r
    · cases r
    · cases r
      cases hard with
      | false => cases ha
      | true => exact Or.inr (Or.inr rfl)
  | okFlag t sl a g hp => exact move t _ (fun u => rfl) (fun q hq => hq) (none' hp rfl) (fun q hq => Or.inl hq)
  | okCount t sl a g hp => exact move t .idle (fun u => rfl) (fun q hq => hq) (none' hp rfl) (fun q hq => Or.inl hq)
  | failCount t sl a g p hard hp =>
    refine move t _ (fun u => rfl) (fun q hq => hq) (fun q hq => Or.inl ?_) (fun q hq => Or.inl hq)
    rw [hp] at hq; cases hard <;> exact hq
  | failFlag t sl a g p hard hp =>
    refine move t _ (fun u => rfl) (fun q hq => hq) (fun q hq => Or.inl ?_) (fun q hq => Or.inl hq)
    rw [hp] at hq; cases hard <;> exact hq
  | tooMany t sl a g p hard hp hc =>
    refine move t .idle (fun u => rfl) (fun q hq => offE s p q hq) (fun q hq => Or.inr ?_) (fun q hq => Or.inl hq)
    rw [hp] at hq
    cases hard with
    | false => cases hq
    | true => cases hq; show (s.elemOff p).on p = false; simp [St.elemOff]
  | hard t sl a g p hp hc =>
    refine move t .idle (fun u => rfl) (fun q hq => offP s p q hq) (fun q hq => Or.inr ?_) (fun q hq => Or.inl hq)
    rw [hp] at hq; cases hq; show (s.pointOff p).on p = false; simp [St.pointOff]
  | soft t sl a g p hp hc =>
    exact move t .idle (fun u => rfl) (fun q hq => hq) (none' hp rfl) (fun q hq => Or.inl hq)

theorem served_run (ops : List Op) : ∀ {s : St}, Objects s → Served s → Served (run s ops) := by
  induction ops with
  | nil => exact fun _ h => h
  | cons o ops ih => exact fun ob h => ih (objects_op ob o) (served_op ob h o)

end Verif.TraceCall
