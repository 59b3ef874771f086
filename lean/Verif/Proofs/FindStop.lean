import Verif.Proofs.FindCalls

/-! # Proofs about the time after StopFindService -/
namespace Verif.FindCalls

theorem mem_upd {s : Nat → List Frame} {t u : Nat} {l : List Frame} {x : Frame}
    (h : x ∈ upd s t l u) : (u = t ∧ x ∈ l) ∨ (u ≠ t ∧ x ∈ s u) := by
  unfold upd at h
  split at h
  · exact .inl ⟨‹_›, h⟩
  · exact .inr ⟨‹_›, h⟩

theorem callUser_running {s : St} {t k u h : Nat} (hc : s.callbacks h = false)
    (a : Frame.running h ∈ (callUser s t k).stacks u) : Frame.running h ∈ s.stacks u := by
  unfold callUser at a
  split at a
  · rename_i hk
    simp only [St.say, St.put] at a
    rcases mem_upd a with ⟨e, b⟩ | ⟨_, b⟩
    · subst e
      rcases List.mem_cons.1 b with b | b
      · injection b with b; subst b; rw [hc] at hk; cases hk
      · exact b
    · exact b
  · exact a

/-- Nothing makes a handler run that is not stored. -/
theorem running_step {s : St} {h : Nat} (hc : s.callbacks h = false) (op : Op)
    (u : Nat) : Running (step s op) u h → Running s u h := by
  unfold Running
  intro a
  cases op with
  | start t m =>
    simp only [step, start] at a
    split at a
    · cases m <;> simp only [St.say, St.put] at a <;> first
      | exact a
      | (rcases mem_upd a with ⟨e, b⟩ | ⟨_, b⟩
         · subst e; simpa using b
         · exact b)
    · exact a
  | stop t k =>
    simp only [step, stop] at a
    split at a
    · split at a
      · simp only [St.say, St.put, erase] at a
        rcases mem_upd a with ⟨e, b⟩ | ⟨_, b⟩
        · subst e; simpa using b
        · exact b
      · exact a
    · exact a
  | go t =>
    simp only [step, go] at a
    split at a
    · rename_i k m rest hst
      split at a
      · unfold bindStart at a
        split at a
        · have b := callUser_running (s := (lock { s with searches := upd s.searches k true } t).put t
            (.startHeld k :: rest)) hc a
          simp only [lock, St.put] at b
          rcases mem_upd b with ⟨e, b'⟩ | ⟨_, b'⟩
          · subst e; rw [hst]; simpa using b'
          · exact b'
        · simp only [St.put, erase] at a
          rcases mem_upd a with ⟨e, b⟩ | ⟨_, b⟩
          · subst e; rw [hst]; simpa using b
          · exact b
        · simp only [St.put, St.say] at a
          rcases mem_upd a with ⟨e, b⟩ | ⟨_, b⟩
          · subst e; rw [hst]; simpa using b
          · exact b
      · exact a
    · rename_i k rest hst
      have e : (unlock s).stacks = s.stacks := by unfold unlock; split <;> rfl
      simp only [St.put, St.say, e] at a
      rcases mem_upd a with ⟨e, b⟩ | ⟨_, b⟩
      · subst e; rw [hst]; simpa using b
      · exact b
    · rename_i k b rest hst
      split at a
      · simp only [St.put, St.say] at a
        rcases mem_upd a with ⟨e, b⟩ | ⟨_, b⟩
        · subst e; rw [hst]; simpa using b
        · exact b
      · exact a
    · rename_i rest hst
      have e : (unlock s).stacks = s.stacks := by unfold unlock; split <;> rfl
      simp only [St.put, e] at a
      rcases mem_upd a with ⟨e, b⟩ | ⟨_, b⟩
      · subst e; rw [hst]; simpa using b
      · exact b
    · exact a
  | finish t =>
    simp only [step, finish] at a
    split at a
    · rename_i k rest hst
      simp only [St.put, St.say] at a
      rcases mem_upd a with ⟨e, b⟩ | ⟨_, b⟩
      · subst e; rw [hst]; exact List.mem_cons_of_mem _ b
      · exact b
    · exact a
  | events =>
    simp only [step, events] at a
    split at a
    · simp only [St.put, lock] at a
      rcases mem_upd a with ⟨e, b⟩ | ⟨_, b⟩
      · simp at b
      · exact b
    · exact a
  | tell k =>
    simp only [step, tell] at a
    split at a
    · split at a
      · exact callUser_running hc a
      · exact a
    · exact a

theorem callUser_callbacks (s : St) (t k : Nat) : (callUser s t k).callbacks = s.callbacks ∧
    (callUser s t k).next = s.next := by
  unfold callUser; split <;> exact ⟨rfl, rfl⟩

theorem unlock_callbacks (s : St) : (unlock s).callbacks = s.callbacks ∧
    (unlock s).next = s.next := by
  unfold unlock; split <;> exact ⟨rfl, rfl⟩

theorem callbacks_step {s : St} {h : Nat} (hc : s.callbacks h = false) (hl : h < s.next) (op : Op) :
    (step s op).callbacks h = false ∧ h < (step s op).next := by
  have ne : h ≠ s.next := Nat.ne_of_lt hl
  cases op with
  | start t m =>
    simp only [step, start]
    split
    · cases m <;> simp only [St.say, St.put, upd, if_neg ne] <;> exact ⟨hc, by omega⟩
    · exact ⟨hc, hl⟩
  | stop t k =>
    simp only [step, stop]
    split
    · split <;> simp only [St.say, St.put, erase, upd] <;> refine ⟨?_, hl⟩ <;> split <;> first
        | rfl
        | exact hc
    · exact ⟨hc, hl⟩
  | go t =>
    simp only [step, go]
    split
    · split
      · unfold bindStart
        split
        · rw [(callUser_callbacks _ _ _).1, (callUser_callbacks _ _ _).2]; exact ⟨hc, hl⟩
        · simp only [St.put, erase, upd]; refine ⟨?_, hl⟩; split
          · rfl
          · exact hc
        · exact ⟨hc, hl⟩
      · exact ⟨hc, hl⟩
    · simp only [St.put, St.say]; rw [(unlock_callbacks s).1, (unlock_callbacks s).2]; exact ⟨hc, hl⟩
    · split <;> exact ⟨hc, hl⟩
    · simp only [St.put]; rw [(unlock_callbacks s).1, (unlock_callbacks s).2]; exact ⟨hc, hl⟩
    · exact ⟨hc, hl⟩
  | finish t => simp only [step, finish]; split <;> exact ⟨hc, hl⟩
  | events => simp only [step, events]; split <;> exact ⟨hc, hl⟩
  | tell k =>
    simp only [step, tell]
    split
    · split
      · rw [(callUser_callbacks _ _ _).1, (callUser_callbacks _ _ _).2]; exact ⟨hc, hl⟩
      · exact ⟨hc, hl⟩
    · exact ⟨hc, hl⟩

/-! ## What is logged -/

theorem callUser_log (s : St) (t k : Nat) {e : Ev} (h : e ∈ (callUser s t k).log) :
    e ∈ s.log ∨ e = .called t k := by
  unfold callUser at h
  split at h
  · simp only [St.say, St.put] at h
    rcases List.mem_cons.1 h with h | h
    · exact .inr h
    · exact .inl h
  · exact .inl h

theorem unlock_log (s : St) : (unlock s).log = s.log := by unfold unlock; split <;> rfl

theorem stopCalled_step {s : St} {op : Op} {v h : Nat} (a : Ev.stopCalled v h ∈ (step s op).log) :
    Ev.stopCalled v h ∈ s.log ∨ op = .stop v h := by
  cases op with
  | start t m =>
    simp only [step, start] at a
    split at a
    · left; cases m <;> simpa [St.say, St.put] using a
    · exact .inl a
  | stop t k =>
    simp only [step, stop] at a
    split at a
    · split at a
      · simp only [St.say, St.put, erase] at a
        rcases List.mem_cons.1 a with a | a
        · injection a with a b; subst a; subst b; exact .inr rfl
        · exact .inl a
      · simp only [St.say, erase] at a
        rcases List.mem_cons.1 a with a | a
        · cases a
        · rcases List.mem_cons.1 a with a | a
          · injection a with a b; subst a; subst b; exact .inr rfl
          · exact .inl a
    · exact .inl a
  | go t =>
    left
    simp only [step, go] at a
    split at a
    · split at a
      · unfold bindStart at a
        split at a
        · rcases callUser_log _ _ _ a with a | a
          · exact a
          · cases a
        · exact a
        · simpa [St.say, St.put] using a
      · exact a
    · simpa [St.say, St.put, unlock_log] using a
    · split at a
      · simp only [St.say, St.put] at a
        rcases List.mem_cons.1 a with a | a
        · split at a <;> cases a
        · exact a
      · exact a
    · simpa [St.put, unlock_log] using a
    · exact a
  | finish t =>
    left
    simp only [step, finish] at a
    split at a
    · simpa [St.say, St.put] using a
    · exact a
  | events =>
    left
    simp only [step, events] at a
    split at a <;> exact a
  | tell k =>
    left
    simp only [step, tell] at a
    split at a
    · split at a
      · rcases callUser_log _ _ _ a with a | a
        · exact a
        · cases a
      · exact a
    · exact a

theorem stopReturned_step {s : St} {op : Op} {t h : Nat}
    (a : Ev.stopReturned t h ∈ (step s op).log) : Ev.stopReturned t h ∈ s.log ∨
      (op = .stop t h ∧ userRuns t (s.stacks t) = true) ∨
      (op = .go t ∧ canLock s t = true ∧ ∃ rest, s.stacks t = .stopping h false :: rest) := by
  cases op with
  | start t m =>
    simp only [step, start] at a
    split at a
    · left; cases m <;> simpa [St.say, St.put] using a
    · exact .inl a
  | stop u k =>
    simp only [step, stop] at a
    split at a
    · rename_i hu
      split at a
      · left; simpa [St.say, St.put, erase] using a
      · simp only [St.say, erase] at a
        rcases List.mem_cons.1 a with a | a
        · injection a with a b; subst a; subst b; exact .inr (.inl ⟨rfl, hu.1⟩)
        · left; simpa using a
    · exact .inl a
  | go u =>
    simp only [step, go] at a
    split at a
    · left
      split at a
      · unfold bindStart at a
        split at a
        · rcases callUser_log _ _ _ a with a | a
          · exact a
          · cases a
        · exact a
        · simpa [St.say, St.put] using a
      · exact a
    · left; simpa [St.say, St.put, unlock_log] using a
    · rename_i k b rest hst
      split at a
      · rename_i hl
        simp only [St.say, St.put] at a
        rcases List.mem_cons.1 a with a | a
        · cases b with
          | true => cases a
          | false =>
            simp only [Bool.false_eq_true, if_false] at a
            injection a with a b; subst a; subst b
            exact .inr (.inr ⟨rfl, hl, rest, hst⟩)
        · exact .inl a
      · exact .inl a
    · left; simpa [St.put, unlock_log] using a
    · exact .inl a
  | finish t =>
    left
    simp only [step, finish] at a
    split at a
    · simpa [St.say, St.put] using a
    · exact a
  | events =>
    left
    simp only [step, events] at a
    split at a <;> exact a
  | tell k =>
    left
    simp only [step, tell] at a
    split at a
    · split at a
      · rcases callUser_log _ _ _ a with a | a
        · exact a
        · cases a
      · exact a
    · exact a

theorem stopCalled_run {v h : Nat} : ∀ (ops : List Op) {s : St},
    Ev.stopCalled v h ∈ (run s ops).log → Ev.stopCalled v h ∈ s.log ∨ Op.stop v h ∈ ops
  | [], _, a => .inl a
  | op :: ops, s, a => by
    rcases stopCalled_run ops (s := step s op) a with b | b
    · rcases stopCalled_step b with c | c
      · exact .inl c
      · exact .inr (by rw [c]; simp)
    · exact .inr (List.mem_cons_of_mem _ b)

/-- What has been logged stays. -/
theorem log_step {s : St} {e : Ev} (a : e ∈ s.log) (op : Op) : e ∈ (step s op).log := by
  have hcu : ∀ (s' : St) t k, e ∈ s'.log → e ∈ (callUser s' t k).log := by
    intro s' t k a
    unfold callUser; split
    · exact List.mem_cons_of_mem _ a
    · exact a
  cases op with
  | start t m =>
    simp only [step, start]
    split
    · cases m <;> simp [St.say, St.put, a]
    · exact a
  | stop t k =>
    simp only [step, stop]
    split
    · split <;> simp [St.say, St.put, erase, a]
    · exact a
  | go t =>
    simp only [step, go]
    split
    · split
      · unfold bindStart
        split
        · exact hcu _ _ _ a
        · exact a
        · exact List.mem_cons_of_mem _ a
      · exact a
    · exact List.mem_cons_of_mem _ (by simpa [St.put, unlock_log] using a)
    · split
      · exact List.mem_cons_of_mem _ a
      · exact a
    · simpa [St.put, unlock_log] using a
    · exact a
  | finish t =>
    simp only [step, finish]
    split
    · exact List.mem_cons_of_mem _ a
    · exact a
  | events =>
    simp only [step, events]
    split <;> exact a
  | tell k =>
    simp only [step, tell]
    split
    · split
      · exact hcu _ _ _ a
      · exact a
    · exact a

/-! ## After StopFindService -/

/-- A thread in `StopFindService` stays there until it goes on. -/
theorem stopping_stays {s : St} {t h : Nat} {rest : List Frame}
    (hs : s.stacks t = .stopping h false :: rest) (op : Op) (hop : op ≠ .go t) :
    (step s op).stacks t = .stopping h false :: rest := by
  have hu : userRuns t (s.stacks t) = false := by rw [hs]; rfl
  have key : ∀ u l, u ≠ t → upd s.stacks u l t = .stopping h false :: rest := by
    intro u l hne
    simp only [upd, if_neg (fun e => hne e.symm : ¬ t = u)]; exact hs
  have hcu : ∀ (s' : St) u k, s'.stacks t = .stopping h false :: rest → u ≠ t →
      (callUser s' u k).stacks t = .stopping h false :: rest := by
    intro s' u k a hne
    unfold callUser
    split
    · simp only [St.say, St.put, upd, if_neg (fun e => hne e.symm : ¬ t = u)]; exact a
    · exact a
  have hun : (unlock s).stacks = s.stacks := by unfold unlock; split <;> rfl
  cases op with
  | start u m =>
    simp only [step, start]
    split
    · rename_i hu'
      have hne : u ≠ t := by intro e; subst e; rw [hu] at hu'; cases hu'
      cases m <;> simp only [St.say, St.put] <;> first
        | exact hs
        | exact key u _ hne
    · exact hs
  | stop u k =>
    simp only [step, stop]
    split
    · rename_i hu'
      have hne : u ≠ t := by intro e; subst e; rw [hu] at hu'; cases hu'.1
      split
      · exact key u _ hne
      · exact hs
    · exact hs
  | go u =>
    have hne : u ≠ t := fun e => hop (by rw [e])
    simp only [step, go]
    split
    · split
      · unfold bindStart
        split
        · exact hcu _ _ _ (key u _ hne) hne
        · exact key u _ hne
        · exact key u _ hne
      · exact hs
    · simp only [St.say, St.put, hun]; exact key u _ hne
    · split
      · exact key u _ hne
      · exact hs
    · simp only [St.put, hun]; exact key u _ hne
    · exact hs
  | finish u =>
    simp only [step, finish]
    split
    · rename_i k r hst
      have hne : u ≠ t := by intro e; subst e; rw [hs] at hst; cases hst
      exact key u _ hne
    · exact hs
  | events =>
    simp only [step, events]
    split
    · rename_i hst _
      have hne : 0 ≠ t := by intro e; subst e; rw [hs] at hst; cases hst
      exact key 0 _ hne
    · exact hs
  | tell k =>
    simp only [step, tell]
    split
    · rename_i r hst
      have hne : 0 ≠ t := by intro e; subst e; rw [hs] at hst; cases hst
      split
      · exact hcu _ _ _ hs hne
      · exact hs
    · exact hs

/-- From the call on: `t` is in `StopFindService`, or nobody is in the handler. -/
structure Stopped (s : St) (t h : Nat) : Prop where
  inv : Inv s
  cb : s.callbacks h = false
  lt : h < s.next
  notT : ¬ Running s t h
  wait : (∀ u, ¬ Running s u h) ∨
    (∃ rest, s.stacks t = .stopping h false :: rest) ∧ Ev.stopReturned t h ∉ s.log

theorem canLock_owner {s : St} {t : Nat} (h : canLock s t = true) :
    s.owner = none ∨ s.owner = some t := by
  unfold canLock at h
  cases ho : s.owner with
  | none => exact .inl rfl
  | some u => rw [ho] at h; simp at h; exact .inr (by rw [h])

theorem stopped_step {s : St} {t h : Nat} (x : Stopped s t h) (op : Op) : Stopped (step s op) t h := by
  have cn := callbacks_step x.cb x.lt op
  refine ⟨inv_step x.inv op, cn.1, cn.2, fun a => x.notT (running_step x.cb op t a), ?_⟩
  rcases x.wait with a | ⟨⟨rest, a⟩, b⟩
  · exact .inl fun u c => a u (running_step x.cb op u c)
  · by_cases hop : op = .go t
    · by_cases hl : canLock s t = true
      · left
        intro u c
        have r := running_step x.cb op u c
        have o := (x.inv.own u (held_running (x.inv.wf u) r)).1
        rcases canLock_owner hl with q | q
        · rw [q] at o; cases o
        · rw [q] at o; injection o with o; subst o; exact x.notT r
      · right
        have e : step s op = s := by
          rw [hop]; simp only [step, go, a]; rw [if_neg hl]
        rw [e]; exact ⟨⟨rest, a⟩, b⟩
    · right
      refine ⟨⟨rest, stopping_stays a op hop⟩, fun c => ?_⟩
      rcases stopReturned_step c with d | ⟨_, d⟩ | ⟨d, _⟩
      · exact b d
      · rw [a] at d; cases d
      · exact hop d

theorem stopped_run {t h : Nat} : ∀ (ops : List Op) {s : St}, Stopped s t h → Stopped (run s ops) t h
  | [], _, x => x
  | op :: ops, _, x => stopped_run ops (stopped_step x op)

/-! ## Every call returns -/

def weight : List Frame → Nat
  | [] => 0
  | .starting _ _ :: r => weight r + 5
  | _ :: r => weight r + 1

theorem advance {s : St} (i : Inv s) {u : Nat} (hne : s.stacks u ≠ [])
    (ho : s.owner = none ∨ s.owner = some u) :
    ∃ op, GoesOn op ∧ weight ((step s op).stacks u) < weight (s.stacks u) ∧
      (∀ v, v ≠ u → (step s op).stacks v = s.stacks v) ∧
      ((step s op).owner = none ∨ (step s op).owner = some u) := by
  have hl : canLock s u = true := by
    unfold canLock; rcases ho with a | a <;> rw [a]; simp
  have hun : (unlock s).stacks = s.stacks := by unfold unlock; split <;> rfl
  have huo : (unlock s).owner = none ∨ (unlock s).owner = some u := by
    unfold unlock; split
    · exact .inl rfl
    · exact ho
  cases hst : s.stacks u with
  | nil => exact absurd hst hne
  | cons x rest =>
    cases x with
    | running h =>
      refine ⟨.finish u, ⟨u, .inr rfl⟩, ?_⟩
      have e : step s (.finish u) = (s.put u rest).say (.returned u h) := by
        simp only [step, finish, hst]
      rw [e]
      refine ⟨by simp [St.say, St.put, upd, weight], fun v hv => by simp [St.say, St.put, upd, hv], ho⟩
    | eventHeld =>
      refine ⟨.go u, ⟨u, .inl rfl⟩, ?_⟩
      have e : step s (.go u) = (unlock s).put u rest := by simp only [step, go, hst]
      rw [e]
      refine ⟨by simp [St.put, upd, weight], fun v hv => by simp [St.put, upd, hv, hun], huo⟩
    | startHeld h =>
      refine ⟨.go u, ⟨u, .inl rfl⟩, ?_⟩
      have e : step s (.go u) = ((unlock s).put u rest).say (.startReturned u h true) := by
        simp only [step, go, hst]
      rw [e]
      refine ⟨by simp [St.say, St.put, upd, weight], fun v hv => by simp [St.say, St.put, upd, hv, hun], huo⟩
    | stopping h b =>
      refine ⟨.go u, ⟨u, .inl rfl⟩, ?_⟩
      simp only [step, go, hst]; rw [if_pos hl]
      refine ⟨by simp [St.say, St.put, upd, weight], fun v hv => by simp [St.say, St.put, upd, hv], ho⟩
    | starting h m =>
      refine ⟨.go u, ⟨u, .inl rfl⟩, ?_⟩
      have e : step s (.go u) = bindStart s u h m rest := by
        simp only [step, go, hst]; rw [if_pos hl]
      rw [e]
      unfold bindStart
      cases m with
      | known =>
        simp only [callUser]
        split
        · exact ⟨by simp [lock, St.say, St.put, upd, weight],
            fun v hv => by simp [lock, St.say, St.put, upd, hv], .inr rfl⟩
        · exact ⟨by simp [lock, St.put, upd, weight],
            fun v hv => by simp [lock, St.put, upd, hv], .inr rfl⟩
      | fails =>
        exact ⟨by simp [erase, St.put, upd, weight],
            fun v hv => by simp [erase, St.put, upd, hv], ho⟩
      | quiet =>
        exact ⟨by simp [St.say, St.put, upd, weight],
            fun v hv => by simp [St.say, St.put, upd, hv], ho⟩
      | unresolved =>
        exact ⟨by simp [St.say, St.put, upd, weight],
            fun v hv => by simp [St.say, St.put, upd, hv], ho⟩

theorem unwind {u : Nat} : ∀ (n : Nat) {s : St}, Inv s → weight (s.stacks u) ≤ n →
    (s.owner = none ∨ s.owner = some u) →
    ∃ ops, (∀ op ∈ ops, GoesOn op) ∧ (run s ops).stacks u = [] ∧ (run s ops).owner = none ∧
      ∀ v, v ≠ u → (run s ops).stacks v = s.stacks v
  | n, s, i, hw, ho => by
    by_cases hne : s.stacks u = []
    · refine ⟨[], by simp, hne, ?_, fun _ _ => rfl⟩
      rcases ho with a | a
      · exact a
      · have := i.owns u a; rw [hne] at this; exact absurd rfl this
    · obtain ⟨op, hg, h1, h2, h3⟩ := advance i hne ho
      cases n with
      | zero => omega
      | succ n =>
        obtain ⟨ops, a, b, c, d⟩ := unwind n (s := step s op) (inv_step i op) (by omega) h3
        refine ⟨op :: ops, ?_, b, c, fun v hv => ?_⟩
        · intro x hx
          rcases List.mem_cons.1 hx with e | e
          · rw [e]; exact hg
          · exact a x e
        · have := d v hv
          rw [h2 v hv] at this; exact this

theorem run_append (s : St) (a b : List Op) : run s (a ++ b) = run (run s a) b := by
  simp [run, List.foldl_append]

theorem ends {s : St} (i : Inv s) (t : Nat) :
    ∃ ops, (∀ op ∈ ops, GoesOn op) ∧ (run s ops).stacks t = [] := by
  cases ho : s.owner with
  | none =>
    obtain ⟨ops, a, b, _⟩ := unwind (u := t) _ i (Nat.le_refl _) (.inl ho)
    exact ⟨ops, a, b⟩
  | some u =>
    obtain ⟨ops, a, _, c, _⟩ := unwind (u := u) _ i (Nat.le_refl _) (.inr ho)
    obtain ⟨ops', a', b', _⟩ := unwind (u := t) _ (inv_run ops i) (Nat.le_refl _) (.inl c)
    refine ⟨ops ++ ops', ?_, by rw [run_append]; exact b'⟩
    intro op hop
    rcases List.mem_append.1 hop with h | h
    · exact a op h
    · exact a' op h

end Verif.FindCalls
