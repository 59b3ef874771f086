import Verif.Spec.FindCalls

/-! # Proofs about searches and their handlers -/
namespace Verif.FindCalls

/-- How often the thread has the mutex. -/
def held : List Frame → Nat
  | [] => 0
  | .startHeld _ :: r => held r + 1
  | .eventHeld :: r => held r + 1
  | _ :: r => held r

/-- A handler runs with the mutex. -/
def WF : List Frame → Prop
  | [] => True
  | .running _ :: r => held r ≠ 0 ∧ WF r
  | _ :: r => WF r

theorem held_running {h : Nat} : ∀ {l : List Frame}, WF l → Frame.running h ∈ l → held l ≠ 0
  | x :: r, hw, hm => by
    cases x with
    | running k => exact hw.1
    | startHeld k => simp [held]
    | eventHeld => simp [held]
    | starting k m => exact held_running (l := r) hw (by simpa using hm)
    | stopping k b => exact held_running (l := r) hw (by simpa using hm)

/-- What holds when an event happens, in terms of those before. -/
def Good : Ev → List Ev → Prop
  | .called _ h, pre => (∀ u, Ev.stopReturned u h ∉ pre) ∧
      ∃ u m, Ev.startCalled u h m ∈ pre ∧ (m = .quiet ∨ m = .known)
  | .startCalled _ h _, pre => ∀ u m, Ev.startCalled u h m ∉ pre
  | _, _ => True

def AllGood : List Ev → Prop
  | [] => True
  | e :: pre => Good e pre ∧ AllGood pre

theorem AllGood.at_ {e : Ev} {pre : List Ev} : ∀ {post}, AllGood (post ++ e :: pre) → Good e pre
  | [], h => h.1
  | _ :: _, h => AllGood.at_ h.2

structure Inv (s : St) : Prop where
  wf : ∀ t, WF (s.stacks t)
  own : ∀ t, held (s.stacks t) ≠ 0 → s.owner = some t ∧ s.depth = held (s.stacks t)
  owns : ∀ t, s.owner = some t → held (s.stacks t) ≠ 0
  depth0 : s.owner = none → s.depth = 0
  fresh : ∀ h, s.next ≤ h → s.callbacks h = false ∧ s.insts h = false ∧ s.searches h = false
  cb : ∀ h, s.insts h = true → s.callbacks h = true
  cbI : ∀ h, s.callbacks h = true → s.insts h = true ∨ ∃ t, Ev.startCalled t h .unresolved ∈ s.log
  runs : ∀ t h, Frame.running h ∈ s.stacks t → s.insts h = true ∨ ∃ v, Ev.stopCalled v h ∈ s.log
  stopF : ∀ t h b, Frame.stopping h b ∈ s.stacks t → s.callbacks h = false
  stopL : ∀ t h, Ev.stopReturned t h ∈ s.log → s.callbacks h = false ∧ h < s.next
  failL : ∀ t h, Ev.startReturned t h false ∈ s.log → s.callbacks h = false ∧ h < s.next
  stopC : ∀ t h, Ev.stopCalled t h ∈ s.log → s.callbacks h = false ∧ h < s.next
  startL : ∀ t h m, Ev.startCalled t h m ∈ s.log → h < s.next
  startU : ∀ t u h m m', Ev.startCalled t h m ∈ s.log → Ev.startCalled u h m' ∈ s.log → m = m'
  frame : ∀ t h m, Frame.starting h m ∈ s.stacks t → m ≠ .unresolved ∧ Ev.startCalled t h m ∈ s.log
  stopFL : ∀ t h b, Frame.stopping h b ∈ s.stacks t → h < s.next
  srch : ∀ h, s.searches h = true →
    ∃ t m, Ev.startCalled t h m ∈ s.log ∧ (m = .quiet ∨ m = .known)
  good : AllGood s.log
  runM : ∀ t h, Frame.running h ∈ s.stacks t →
    ∃ u m, Ev.startCalled u h m ∈ s.log ∧ (m = .quiet ∨ m = .known)

theorem inv_init : Inv init := by
  constructor <;> simp [init, held, WF, AllGood]

theorem only_owner {s : St} (i : Inv s) {t u h k : Nat} (a : Running s t h) (b : Running s u k) :
    t = u := by
  have a' := (i.own t (held_running (i.wf t) a)).1
  have b' := (i.own u (held_running (i.wf u) b)).1
  rw [a'] at b'; injection b'

theorem inv_start {s : St} (i : Inv s) (t : Nat) (m : Mode) : Inv (start s t m) := by
  unfold start
  split
  · have hn := i.fresh s.next (Nat.le_refl _)
    have hnl : ∀ u k, Ev.startCalled u s.next k ∉ s.log := fun u k a => by
      have := i.startL u s.next k a; omega
    have hg : AllGood (.startCalled t s.next m :: s.log) := ⟨hnl, i.good⟩
    have hwf : ∀ m, WF (.starting s.next m :: s.stacks t) := fun _ => i.wf t
    have hheld : ∀ m, held (.starting s.next m :: s.stacks t) = held (s.stacks t) := fun _ => rfl
    have hrun : ∀ u h, Frame.running h ∈ s.stacks u → h < s.next := by
      intro u h a
      rcases i.runs u h a with b | ⟨v, b⟩
      · apply Nat.lt_of_not_le; intro c; have := (i.fresh h c).2.1; rw [b] at this; cases this
      · exact (i.stopC v h b).2
    obtain ⟨h1, h2, h3, h4, h5, h6, h7, h8, h9, h10, h11, h12, h13, h14, h15, h16, h17, h18, h19⟩ := i
    cases m with
    | unresolved =>
      constructor <;> simp only [St.say] <;> try grind [upd, AllGood, Good]
    | fails =>
      constructor <;> simp only [St.say, St.put] <;> try grind [upd]
    | quiet =>
      constructor <;> simp only [St.say, St.put] <;> try grind [upd]
    | known =>
      constructor <;> simp only [St.say, St.put] <;> try grind [upd]
  · exact i

theorem inv_stop {s : St} (i : Inv s) (t h : Nat) : Inv (stop s t h) := by
  unfold stop
  split
  · rename_i hu
    have hwf : WF (.stopping h false :: s.stacks t) := i.wf t
    have hheld : held (.stopping h false :: s.stacks t) = held (s.stacks t) := rfl
    have hl := hu.2
    obtain ⟨h1, h2, h3, h4, h5, h6, h7, h8, h9, h10, h11, h12, h13, h14, h15, h16, h17, h18, h19⟩ := i
    dsimp only
    split
    · constructor <;> simp only [St.say, St.put, erase] <;> try grind [upd, AllGood, Good]
    · constructor <;> simp only [St.say, erase] <;> try grind [upd, AllGood, Good]
  · exact i

theorem inv_callUser {s : St} (i : Inv s) {t h : Nat} (hh : held (s.stacks t) ≠ 0)
    (hm : ∃ u m, Ev.startCalled u h m ∈ s.log ∧ (m = .quiet ∨ m = .known)) :
    Inv (callUser s t h) := by
  unfold callUser
  split
  · rename_i hc
    have hwf : WF (.running h :: s.stacks t) := ⟨hh, i.wf t⟩
    have hheld : held (.running h :: s.stacks t) = held (s.stacks t) := rfl
    have hins : s.insts h = true := by
      rcases i.cbI h hc with a | ⟨u, a⟩
      · exact a
      · obtain ⟨v, m, b, c⟩ := hm
        have := i.startU _ _ _ _ _ a b
        subst this
        rcases c with c | c <;> cases c
    have hg : Good (.called t h) s.log := by
      refine ⟨fun u a => ?_, hm⟩
      have := (i.stopL u h a).1
      rw [hc] at this; cases this
    have hgg : AllGood (.called t h :: s.log) := ⟨hg, i.good⟩
    obtain ⟨h1, h2, h3, h4, h5, h6, h7, h8, h9, h10, h11, h12, h13, h14, h15, h16, h17, h18, h19⟩ := i
    constructor <;> simp only [St.say, St.put] <;> try grind [upd]
  · exact i

theorem inv_lockKnown {s : St} (i : Inv s) {t h : Nat} {rest : List Frame}
    (hst : s.stacks t = .starting h .known :: rest) (hl : canLock s t = true) :
    Inv ((lock { s with searches := upd s.searches h true } t).put t (.startHeld h :: rest)) := by
  have hw := i.wf t
  rw [hst] at hw
  have hwf : WF (.startHeld h :: rest) := hw
  have hheld : held (.startHeld h :: rest) = held rest + 1 := rfl
  have hold : held (s.stacks t) = held rest := by rw [hst]; rfl
  have hfr := (i.frame t h .known (by rw [hst]; simp)).2
  have hlt := i.startL _ _ _ hfr
  have hcl : s.owner = none ∨ s.owner = some t := by
    unfold canLock at hl
    cases ho : s.owner with
    | none => exact .inl rfl
    | some u => rw [ho] at hl; simp at hl; exact .inr (by rw [hl])
  have hdep : s.depth = held rest := by
    rcases hcl with a | a
    · rw [i.depth0 a]
      cases e : held rest with
      | zero => rfl
      | succ n => have := (i.own t (by rw [hold, e]; simp)).1; rw [a] at this; cases this
    · rw [← hold]; exact (i.own t (i.owns t a)).2
  obtain ⟨h1, h2, h3, h4, h5, h6, h7, h8, h9, h10, h11, h12, h13, h14, h15, h16, h17, h18, h19⟩ := i
  constructor <;> simp only [St.put, lock] <;> try grind [upd]

theorem inv_bindFails {s : St} (i : Inv s) {t h : Nat} {rest : List Frame}
    (hst : s.stacks t = .starting h .fails :: rest) :
    Inv ((erase s h).put t (.stopping h true :: rest)) := by
  have hw := i.wf t
  rw [hst] at hw
  have hwf : WF (.stopping h true :: rest) := hw
  have hheld : held (.stopping h true :: rest) = held (s.stacks t) := by rw [hst]; rfl
  have hfr := (i.frame t h .fails (by rw [hst]; simp)).2
  have hlt := i.startL _ _ _ hfr
  have hnr : ∀ u, Frame.running h ∉ s.stacks u := by
    intro u a
    obtain ⟨v, m, b, c⟩ := i.runM u h a
    have := i.startU _ _ _ _ _ hfr b
    subst this
    rcases c with c | c <;> cases c
  obtain ⟨h1, h2, h3, h4, h5, h6, h7, h8, h9, h10, h11, h12, h13, h14, h15, h16, h17, h18, h19⟩ := i
  constructor <;> simp only [St.put, erase] <;> try grind [upd]

theorem inv_bindQuiet {s : St} (i : Inv s) {t h : Nat} {rest : List Frame}
    (hst : s.stacks t = .starting h .quiet :: rest) :
    Inv (({ s with searches := upd s.searches h true }.put t rest).say (.startReturned t h true)) := by
  have hw := i.wf t
  rw [hst] at hw
  have hwf : WF rest := hw
  have hheld : held rest = held (s.stacks t) := by rw [hst]; rfl
  have hfr := (i.frame t h .quiet (by rw [hst]; simp)).2
  have hlt := i.startL _ _ _ hfr
  obtain ⟨h1, h2, h3, h4, h5, h6, h7, h8, h9, h10, h11, h12, h13, h14, h15, h16, h17, h18, h19⟩ := i
  constructor <;> simp only [St.put, St.say] <;> try grind [upd, AllGood, Good]

theorem inv_release {s : St} (i : Inv s) {t : Nat} {x : Frame} {rest : List Frame}
    (hst : s.stacks t = x :: rest) (hx : held (x :: rest) = held rest + 1) (hwf : WF rest) :
    Inv ((unlock s).put t rest) := by
  have hold : held (s.stacks t) = held rest + 1 := by rw [hst, hx]
  have ho := i.own t (by rw [hold]; simp)
  have hd : s.depth = held rest + 1 := by rw [ho.2, hold]
  have hsub : ∀ f, f ∈ rest → f ∈ s.stacks t := fun f a => by rw [hst]; simp [a]
  obtain ⟨h1, h2, h3, h4, h5, h6, h7, h8, h9, h10, h11, h12, h13, h14, h15, h16, h17, h18, h19⟩ := i
  unfold unlock
  split
  · constructor <;> simp only [St.put] <;> try grind [upd]
  · constructor <;> simp only [St.put] <;> try grind [upd]

theorem inv_say {s : St} (i : Inv s) {e : Ev}
    (he : (∃ t h, e = .startReturned t h true) ∨ ∃ t h, e = .returned t h) : Inv (s.say e) := by
  have hg : AllGood (e :: s.log) := by
    refine ⟨?_, i.good⟩
    rcases he with ⟨_, _, rfl⟩ | ⟨_, _, rfl⟩ <;> trivial
  obtain ⟨h1, h2, h3, h4, h5, h6, h7, h8, h9, h10, h11, h12, h13, h14, h15, h16, h17, h18, h19⟩ := i
  constructor <;> simp only [St.say] <;> try grind

theorem inv_stopping {s : St} (i : Inv s) {t h : Nat} {b : Bool} {rest : List Frame}
    (hst : s.stacks t = .stopping h b :: rest) :
    Inv (({ s with obsolete := upd s.obsolete h true }.put t rest).say
      (if b then .startReturned t h false else .stopReturned t h)) := by
  have hw := i.wf t
  rw [hst] at hw
  have hwf : WF rest := hw
  have hheld : held rest = held (s.stacks t) := by rw [hst]; rfl
  have hc := i.stopF t h b (by rw [hst]; simp)
  have hlt := i.stopFL t h b (by rw [hst]; simp)
  obtain ⟨h1, h2, h3, h4, h5, h6, h7, h8, h9, h10, h11, h12, h13, h14, h15, h16, h17, h18, h19⟩ := i
  cases b
  · constructor <;> simp only [St.put, St.say] <;> try grind [upd, AllGood, Good]
  · constructor <;> simp only [St.put, St.say] <;> try grind [upd, AllGood, Good]

theorem inv_go {s : St} (i : Inv s) (t : Nat) : Inv (go s t) := by
  unfold go
  split
  · rename_i h m rest hst
    split
    · rename_i hl
      unfold bindStart
      split
      · refine inv_callUser (inv_lockKnown i hst hl) ?_ ?_
        · simp [St.put, upd, held]
        · exact ⟨t, .known, (i.frame t h .known (by rw [hst]; simp)).2, .inr rfl⟩
      · exact inv_bindFails i hst
      · rename_i h1 h2
        have hm := (i.frame t h m (by rw [hst]; simp)).1
        cases m with
        | quiet => exact inv_bindQuiet i hst
        | fails => exact absurd rfl h2
        | known => exact absurd rfl h1
        | unresolved => exact absurd rfl hm
    · exact i
  · rename_i h rest hst
    have hw := i.wf t
    rw [hst] at hw
    exact inv_say (inv_release i hst rfl hw) (.inl ⟨_, _, rfl⟩)
  · rename_i h b rest hst
    split
    · exact inv_stopping i hst
    · exact i
  · rename_i rest hst
    have hw := i.wf t
    rw [hst] at hw
    exact inv_release i hst rfl hw
  · exact i

theorem inv_finish {s : St} (i : Inv s) (t : Nat) : Inv (finish s t) := by
  unfold finish
  split
  · rename_i h rest hst
    have hw := i.wf t
    rw [hst] at hw
    have hwf : WF rest := hw.2
    have hheld : held rest = held (s.stacks t) := by rw [hst]; rfl
    have hsub : ∀ f, f ∈ rest → f ∈ s.stacks t := fun f a => by rw [hst]; simp [a]
    refine inv_say ?_ (.inr ⟨_, _, rfl⟩)
    obtain ⟨h1, h2, h3, h4, h5, h6, h7, h8, h9, h10, h11, h12, h13, h14, h15, h16, h17, h18, h19⟩ := i
    constructor <;> simp only [St.put] <;> try grind [upd]
  · exact i

theorem inv_events {s : St} (i : Inv s) : Inv (events s) := by
  unfold events
  split
  · rename_i hst ho
    have hd := i.depth0 ho
    have hwf : WF [.eventHeld] := trivial
    have hheld : held [.eventHeld] = 1 := rfl
    obtain ⟨h1, h2, h3, h4, h5, h6, h7, h8, h9, h10, h11, h12, h13, h14, h15, h16, h17, h18, h19⟩ := i
    constructor <;> simp only [St.put, lock] <;> try grind [upd]
  · exact i

theorem inv_tell {s : St} (i : Inv s) (h : Nat) : Inv (tell s h) := by
  unfold tell
  split
  · rename_i rest hst
    split
    · rename_i hc
      have hc' : s.searches h = true := by
        cases e : s.searches h with
        | true => rfl
        | false => rw [e] at hc; simp at hc
      exact inv_callUser i (by rw [hst]; simp [held]) (i.srch h hc')
    · exact i
  · exact i

theorem inv_step {s : St} (i : Inv s) (op : Op) : Inv (step s op) := by
  cases op with
  | start t m => exact inv_start i t m
  | stop t h => exact inv_stop i t h
  | go t => exact inv_go i t
  | finish t => exact inv_finish i t
  | events => exact inv_events i
  | tell h => exact inv_tell i h

theorem inv_run : ∀ (ops : List Op) {s : St}, Inv s → Inv (run s ops)
  | [], _, i => i
  | op :: ops, _, i => inv_run ops (inv_step i op)

end Verif.FindCalls
