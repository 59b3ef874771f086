import Verif.Spec.EngineThread

namespace Verif.EngineThread

/-- The numbers of the events in the channel. -/
def evs : List Pulse → List Nat
  | [] => []
  | .event n :: q => n :: evs q
  | .quit :: q => evs q

def pend : Th → List Nat
  | .got (.event n) => [n]
  | _ => []

theorem evs_append : ∀ a b : List Pulse, evs (a ++ b) = evs a ++ evs b
  | [], _ => rfl
  | .event n :: a, b => by simp [evs, evs_append a b]
  | .quit :: a, b => by simp [evs, evs_append a b]

/-- The thread works. -/
def Active : Th → Prop
  | .check | .block | .got _ | .running _ => True
  | _ => False

def Late : Pc → Prop
  | .detach | .free | .gone => True
  | _ => False

/-- The quit pulse has been sent. -/
def Sent (s : St) : Prop := Pulse.quit ∈ s.queue ∨ s.th = .got .quit ∨ s.quit = true

def Good : Ev → List Ev → Prop
  | .called _, pre => Ev.built ∈ pre ∧ Ev.destroyed ∉ pre
  | _, _ => True

def AllGood : List Ev → Prop
  | [] => True
  | e :: pre => Good e pre ∧ AllGood pre

theorem AllGood.at_ {e : Ev} {pre : List Ev} : ∀ {post}, AllGood (post ++ e :: pre) → Good e pre
  | [], h => h.1
  | _ :: _, h => AllGood.at_ h.2

structure Inv (s : St) : Prop where
  act : Active s.th → s.pc = .up ∨ s.pc = .quitting ∨ s.pc = .joining ∨ s.pc = .dead
  early : s.pc = .start ∨ s.pc = .channel ∨ s.pc = .attached → s.th = .none
  mid : s.pc = .spawned ∨ s.pc = .assigned → s.th = .fresh ∧ s.locked = true ∧ s.ctx = true ∧ s.handlers = true
  lock : s.pc = .channel ∨ s.pc = .attached → s.locked = true
  late : Late s.pc → s.th = .ended
  work : s.pc = .up ∨ s.pc = .quitting ∨ s.pc = .joining ∨ s.pc = .dead →
    s.ctx = true ∧ s.known = true ∧ s.handlers = true ∧ s.chan = true ∧ s.locked = false ∧ s.th ≠ .none
  chn : s.pc = .channel ∨ s.pc = .attached ∨ s.pc = .spawned ∨ s.pc = .assigned ∨ s.pc = .detach → s.chan = true
  hnd : s.pc = .attached → s.handlers = true
  kn : s.pc = .assigned → s.known = true
  off : s.pc = .free ∨ s.pc = .gone → s.chan = false ∧ s.queue = []
  out : s.pc = .gone → s.ctx = false
  ord : s.chan = true → arrivals s.log = calls s.log ++ pend s.th ++ evs s.queue
  pre : calls s.log <+: arrivals s.log
  start0 : s.pc = .start → s.chan = false ∧ s.log = [] ∧ s.queue = []
  bad : Ev.badUse ∉ s.log
  drp : ∀ n, Ev.dropped n ∉ s.log
  dst : Ev.destroyed ∈ s.log ↔ s.pc = .gone
  blt : Ev.built ∈ s.log ↔ ¬ (s.pc = .start ∨ s.pc = .channel ∨ s.pc = .attached ∨ s.pc = .spawned ∨ s.pc = .assigned)
  dcl : Ev.destroyCalled ∈ s.log ↔ (Late s.pc ∨ s.pc = .quitting ∨ s.pc = .joining ∨ s.pc = .dead)
  abt : Ev.aborted ∈ s.log ↔ s.pc = .dead
  slf : s.self = true → (s.pc = .quitting ∨ s.pc = .joining ∨ s.pc = .dead) ∧ InHandler s
  snt : Sent s → s.pc = .joining ∨ s.pc = .dead ∨ Late s.pc
  end_ : s.th = .ended → s.quit = true
  good : AllGood s.log
  qt : s.quit = true → s.th = .check ∨ s.th = .ended
  dd : s.pc = .dead → s.self = true

theorem inv_init : Inv init := by
  constructor <;> simp [init, Active, Late, arrivals, calls, Sent, AllGood, InHandler]

theorem arrivals_cons (e : Ev) (l : List Ev) :
    arrivals (e :: l) = arrivals l ++ (match e with | .arrived n => [n] | _ => []) := by
  cases e <;> simp [arrivals]

theorem calls_cons (e : Ev) (l : List Ev) :
    calls (e :: l) = calls l ++ (match e with | .called n => [n] | _ => []) := by
  cases e <;> simp [calls]

theorem inv_go {s : St} (i : Inv s) (ok : Bool) (hd : s.pc ≠ .dead) : Inv (go s ok) := by
  obtain ⟨h1, h2, h3, h4, h5, h6, h7, h8, h9, h10, h11, h12, h13, h14, h15, h16, h17, h18, h19, h20, h21, h22, h23, h24, h25, h26⟩ := i
  unfold go
  split
  · constructor <;> simp only [] <;> try grind [Active, Late, Sent, InHandler, arrivals, calls, pend, evs]
  · constructor <;> simp only [] <;> try grind [Active, Late, Sent, InHandler]
  · constructor <;> simp only [] <;> try grind [Active, Late, Sent, InHandler, pend]
  · constructor <;> simp only [] <;> try grind [Active, Late, Sent, InHandler]
  · constructor <;> simp only [St.say, arrivals_cons, calls_cons, List.append_nil] <;> try grind [Active, Late, Sent, InHandler, AllGood, Good]
  · cases ok
    · constructor <;> simp only [Bool.false_eq_true, if_false] <;> try grind [Active, Late, Sent, InHandler]
    · constructor <;> simp only [if_true, evs_append] <;> try grind [Active, Late, Sent, InHandler, evs]
  · split
    · constructor <;> simp only [St.say, arrivals_cons, calls_cons, List.append_nil] <;> try grind [Active, Late, Sent, InHandler, AllGood, Good]
    · split
      · constructor <;> simp only [] <;> try grind [Active, Late, Sent, InHandler]
      · constructor <;> assumption
  · constructor <;> simp only [] <;> try grind [Active, Late, Sent, InHandler]
  · constructor <;> simp only [St.say, arrivals_cons, calls_cons, List.append_nil] <;> try grind [Active, Late, Sent, InHandler, AllGood, Good]
  · constructor <;> assumption

theorem inv_destroy {s : St} (i : Inv s) (b : Bool) : Inv (destroy s b) := by
  obtain ⟨h1, h2, h3, h4, h5, h6, h7, h8, h9, h10, h11, h12, h13, h14, h15, h16, h17, h18, h19, h20, h21, h22, h23, h24, h25, h26⟩ := i
  unfold destroy
  split
  · constructor <;> simp only [St.say, arrivals_cons, calls_cons, List.append_nil] <;> try grind [Active, Late, Sent, InHandler, AllGood, Good]
  · constructor <;> simp only [St.say, arrivals_cons, calls_cons, List.append_nil] <;> try grind [Active, Late, Sent, InHandler, AllGood, Good]
  · constructor <;> assumption

theorem inv_arrive {s : St} (i : Inv s) (n : Nat) : Inv (arrive s n) := by
  obtain ⟨h1, h2, h3, h4, h5, h6, h7, h8, h9, h10, h11, h12, h13, h14, h15, h16, h17, h18, h19, h20, h21, h22, h23, h24, h25, h26⟩ := i
  unfold arrive
  split
  · have hp : calls s.log <+: arrivals s.log ++ [n] := h13.trans (List.prefix_append ..)
    constructor <;> simp only [St.say, arrivals_cons, calls_cons, List.append_nil, evs_append] <;>
      try grind [Active, Late, Sent, InHandler, AllGood, Good, evs]
  · constructor <;> assumption

theorem inv_thread {s : St} (i : Inv s) (ok : Bool) : Inv (thread s ok) := by
  have hctx : Active s.th → s.ctx = true ∧ s.chan = true := fun a => by
    have := i.work (i.act a); exact ⟨this.1, this.2.2.2.1⟩
  unfold thread
  split
  · rename_i ht
    split
    · exact i
    · obtain ⟨h1, h2, h3, h4, h5, h6, h7, h8, h9, h10, h11, h12, h13, h14, h15, h16, h17, h18, h19, h20, h21, h22, h23, h24, h25, h26⟩ := i
      cases hp : s.pc <;> (constructor <;> simp only [] <;> try grind [Active, Late, Sent, InHandler, pend])
  · rename_i ht
    obtain ⟨h1, h2, h3, h4, h5, h6, h7, h8, h9, h10, h11, h12, h13, h14, h15, h16, h17, h18, h19, h20, h21, h22, h23, h24, h25, h26⟩ := i
    have a := h1 (by rw [ht]; trivial)
    split
    · constructor <;> simp only [] <;> try grind [Active, Late, Sent, InHandler, pend]
    · constructor <;> simp only [] <;> try grind [Active, Late, Sent, InHandler, pend]
  · rename_i ht
    have hc := hctx (by rw [ht]; trivial)
    obtain ⟨h1, h2, h3, h4, h5, h6, h7, h8, h9, h10, h11, h12, h13, h14, h15, h16, h17, h18, h19, h20, h21, h22, h23, h24, h25, h26⟩ := i
    have a := h1 (by rw [ht]; trivial)
    split
    · split
      · constructor <;> assumption
      · rename_i p q hq
        simp only [use, hc.1, if_true]
        cases p <;> (constructor <;> simp only [] <;> try grind [Active, Late, Sent, InHandler, pend, evs])
    · simp only [use, hc.1, if_true]
      constructor <;> simp only [] <;> try grind [Active, Late, Sent, InHandler, pend]
  · rename_i ht
    have hc := hctx (by rw [ht]; trivial)
    obtain ⟨h1, h2, h3, h4, h5, h6, h7, h8, h9, h10, h11, h12, h13, h14, h15, h16, h17, h18, h19, h20, h21, h22, h23, h24, h25, h26⟩ := i
    have a := h1 (by rw [ht]; trivial)
    simp only [use, hc.1, if_true]
    constructor <;> simp only [] <;> try grind [Active, Late, Sent, InHandler, pend]
  · rename_i n ht
    have hc := hctx (by rw [ht]; trivial)
    obtain ⟨h1, h2, h3, h4, h5, h6, h7, h8, h9, h10, h11, h12, h13, h14, h15, h16, h17, h18, h19, h20, h21, h22, h23, h24, h25, h26⟩ := i
    have a := h1 (by rw [ht]; trivial)
    have hh := (h6 a).2.2.1
    have ho := h12 hc.2
    rw [if_pos hh]
    simp only [use, St.say, hc.1, if_true]
    have hp : calls s.log ++ [n] <+: arrivals s.log := by
      rw [ho, ht]; exact ⟨evs s.queue, by simp [pend]⟩
    constructor <;> simp only [arrivals_cons, calls_cons, List.append_nil] <;>
      try grind [Active, Late, Sent, InHandler, AllGood, Good, pend]
  · exact i

theorem inv_finish {s : St} (i : Inv s) : Inv (finish s) := by
  unfold finish
  split
  · rename_i n ht
    split
    · exact i
    · obtain ⟨h1, h2, h3, h4, h5, h6, h7, h8, h9, h10, h11, h12, h13, h14, h15, h16, h17, h18, h19, h20, h21, h22, h23, h24, h25, h26⟩ := i
      have a := h1 (by rw [ht]; trivial)
      constructor <;> simp only [St.say, arrivals_cons, calls_cons, List.append_nil] <;>
        try grind [Active, Late, Sent, InHandler, AllGood, Good, pend]
  · exact i

theorem inv_step {s : St} (i : Inv s) (op : Op) : Inv (step s op) := by
  unfold step
  split
  · exact i
  · rename_i hd
    cases op with
    | go ok => exact inv_go i ok hd
    | destroy b => exact inv_destroy i b
    | arrive n => exact inv_arrive i n
    | thread ok => exact inv_thread i ok
    | finish => exact inv_finish i

theorem inv_run : ∀ (ops : List Op) {s : St}, Inv s → Inv (run s ops)
  | [], _, i => i
  | op :: ops, _, i => inv_run ops (inv_step i op)

/-! ## Progress -/

def rank : Th → Nat
  | .none => 0 | .fresh => 3 | .check => 2 | .block => 1 | .got _ => 4 | .running _ => 3 | .ended => 0

def weight (s : St) : Nat := 5 * s.queue.length + rank s.th

def Idle (s : St) : Prop := s.th = .ended ∨ (s.th = .block ∧ s.queue = [])

/-- What the thread does alone leaves this as it is. -/
structure Same (s s' : St) : Prop where
  pc : s'.pc = s.pc
  self : s'.self = s.self
  arr : arrivals s'.log = arrivals s.log
  sent : Sent s → Sent s'

theorem advance {s : St} (i : Inv s) (hp : s.pc = .up ∨ s.pc = .joining) (hs : s.self = false)
    (hn : ¬ Idle s) : ∃ op, (op = .thread true ∨ op = .finish) ∧ Same s (step s op) ∧
      weight (step s op) < weight s := by
  have hw := i.work (by rcases hp with h | h <;> simp [h])
  have hd : s.pc ≠ .dead := by rcases hp with h | h <;> simp [h]
  obtain ⟨hctx, -, hh, -, hl, hth⟩ := hw
  cases ht : s.th with
  | none => exact absurd ht hth
  | ended => exact absurd (Or.inl ht) hn
  | fresh =>
    refine ⟨.thread true, .inl rfl, ?_⟩
    simp only [step, hd, if_false, thread, ht, hl, Bool.false_eq_true]
    refine ⟨⟨rfl, rfl, rfl, fun h => ?_⟩, by simp [weight, rank, ht]⟩
    simpa [Sent, ht] using h
  | check =>
    refine ⟨.thread true, .inl rfl, ?_⟩
    simp only [step, hd, if_false, thread, ht]
    cases hq : s.quit
    · refine ⟨⟨rfl, rfl, rfl, fun h => ?_⟩, by simp [weight, rank, ht]⟩
      simpa [Sent, ht, hq] using h
    · exact ⟨⟨rfl, rfl, rfl, fun _ => .inr (.inr (by simp [hq]))⟩, by simp [weight, rank, ht]⟩
  | block =>
    refine ⟨.thread true, .inl rfl, ?_⟩
    cases hq : s.queue with
    | nil => exact absurd (Or.inr ⟨ht, hq⟩) hn
    | cons p q =>
      simp only [step, hd, if_false, thread, ht, hq, if_true, use, hctx]
      refine ⟨⟨rfl, rfl, rfl, fun h => ?_⟩, by simp [weight, rank, ht, hq]; omega⟩
      unfold Sent at h ⊢
      simp only [hq, ht, List.mem_cons] at h
      rcases h with (h | h) | h | h
      · exact .inr (.inl (by rw [← h]))
      · exact .inl h
      · cases h
      · exact .inr (.inr h)
  | got p =>
    refine ⟨.thread true, .inl rfl, ?_⟩
    cases p with
    | quit =>
      simp only [step, hd, if_false, thread, ht, use, hctx, if_true]
      exact ⟨⟨rfl, rfl, rfl, fun _ => .inr (.inr rfl)⟩, by simp [weight, rank, ht]⟩
    | event n =>
      simp only [step, hd, if_false, thread, ht, use, hctx, if_true, hh, St.say]
      refine ⟨⟨rfl, rfl, by simp [arrivals_cons], fun h => ?_⟩, by simp [weight, rank, ht]⟩
      simpa [Sent, ht] using h
  | running n =>
    refine ⟨.finish, .inr rfl, ?_⟩
    simp only [step, hd, if_false, finish, ht, hs, Bool.false_eq_true, St.say]
    refine ⟨⟨rfl, by simp [hs], by simp [arrivals_cons], fun h => ?_⟩, by simp [weight, rank, ht]⟩
    simpa [Sent, ht] using h

theorem settle : ∀ (w : Nat) {s : St}, weight s ≤ w → Inv s → s.pc = .up ∨ s.pc = .joining →
    s.self = false → ∃ ops, (∀ op ∈ ops, op = .thread true ∨ op = .finish) ∧
      Same s (run s ops) ∧ Idle (run s ops) := by
  intro w
  induction w with
  | zero =>
    intro s hw i hp hs
    by_cases hn : Idle s
    · exact ⟨[], by simp, ⟨rfl, rfl, rfl, id⟩, hn⟩
    · obtain ⟨op, -, -, h⟩ := advance i hp hs hn
      omega
  | succ w ih =>
    intro s hw i hp hs
    by_cases hn : Idle s
    · exact ⟨[], by simp, ⟨rfl, rfl, rfl, id⟩, hn⟩
    · obtain ⟨op, ho, hsame, h⟩ := advance i hp hs hn
      obtain ⟨ops, a, b, c⟩ := ih (s := step s op) (by omega) (inv_step i op)
        (by rw [hsame.pc]; exact hp) (by rw [hsame.self]; exact hs)
      refine ⟨op :: ops, ?_, ⟨b.pc.trans hsame.pc, b.self.trans hsame.self, b.arr.trans hsame.arr,
        fun h => b.sent (hsame.sent h)⟩, c⟩
      intro o ho'
      rcases List.mem_cons.1 ho' with e | e
      · rw [e]; exact ho
      · exact a o e

theorem run_append (s : St) (a b : List Op) : run s (a ++ b) = run (run s a) b :=
  List.foldl_append ..

/-- The destructor ends from `join` on. -/
theorem join_ends {s : St} (i : Inv s) (hp : s.pc = .joining) (hs : s.self = false) (hq : Sent s) :
    ∃ ops, (∀ op ∈ ops, GoesOn op) ∧ Ev.destroyed ∈ (run s ops).log := by
  obtain ⟨ops, a, b, c⟩ := settle (weight s) (Nat.le_refl _) i (.inr hp) hs
  have j := inv_run ops i
  have hsent := b.sent hq
  have hend : (run s ops).th = .ended := by
    rcases c with c | ⟨c, d⟩
    · exact c
    · rcases hsent with h | h | h
      · rw [d] at h; cases h
      · rw [c] at h; cases h
      · rcases j.qt h with e | e <;> rw [c] at e <;> cases e
  have hp' := b.pc.trans hp
  have hs' := b.self.trans hs
  refine ⟨ops ++ [.go true, .go true, .go true], ?_, ?_⟩
  · intro op ho
    rcases List.mem_append.1 ho with h | h
    · rcases a op h with h | h
      · exact .inr (.inl h)
      · exact .inr (.inr h)
    · left; simpa using h
  · rw [run_append]
    generalize run s ops = u at hend hp' hs'
    simp [run, step, go, hp', hs', hend, St.say]

/-- As long as every quit pulse is sent and no handler destroys the engine. -/
structure Calm (s : St) : Prop where
  self : s.self = false
  sent : s.pc = .joining → Sent s

theorem sent_go {s : St} (h : Sent s) (hp : s.pc = .joining) (ok : Bool) (hs : s.self = false) :
    (go s ok).pc = .joining → Sent (go s ok) := by
  simp only [go, hp, hs, Bool.false_eq_true, if_false]
  split
  · intro h; cases h
  · intro _; exact h

theorem calm_step {s : St} (i : Inv s) (c : Calm s) {op : Op} (h1 : op ≠ .go false)
    (h2 : op ≠ .destroy true) : Calm (step s op) := by
  unfold step
  split
  · exact c
  · rename_i hd
    cases op with
    | go ok =>
      cases ok
      · exact absurd rfl h1
      · cases hp : s.pc with
        | joining =>
          refine ⟨?_, sent_go (c.sent hp) hp true c.self⟩
          simp only [go, hp, c.self, Bool.false_eq_true, if_false]
          split <;> simp [c.self]
        | quitting => exact ⟨by simp [go, hp, c.self], fun _ => .inl (by simp [go, hp])⟩
        | _ => exact ⟨by simp [go, hp, c.self, St.say], by simp [go, hp, St.say]⟩
    | destroy b =>
      cases b
      · cases hp : s.pc <;> refine ⟨by simp [destroy, hp, c.self, St.say], ?_⟩ <;>
          simp [destroy, hp, St.say]
        exact c.sent hp
      · exact absurd rfl h2
    | arrive n =>
      dsimp only; unfold arrive
      split
      · refine ⟨c.self, fun hp => ?_⟩
        rcases c.sent hp with h | h | h
        · exact .inl (by simp [St.say, h])
        · exact .inr (.inl h)
        · exact .inr (.inr h)
      · exact c
    | thread ok =>
      obtain ⟨hs, hq⟩ := c
      have w := i.work
      have qt := i.qt
      dsimp only; unfold thread
      split
      · split
        · exact ⟨hs, hq⟩
        · exact ⟨hs, fun hp => by have := hq hp; simp_all [Sent]⟩
      · split
        · exact ⟨hs, fun hp => .inr (.inr (by assumption))⟩
        · exact ⟨hs, fun hp => by have := hq hp; simp_all [Sent]⟩
      · rename_i ht
        split
        · split
          · exact ⟨hs, hq⟩
          · rename_i p q he
            refine ⟨by unfold use; split <;> exact hs, fun hp => ?_⟩
            have hp' : s.pc = .joining := by
              revert hp; unfold use; split <;> exact id
            have hc := (w (by simp [hp'])).1
            have := hq hp'
            simp only [use, hc, if_true]
            unfold Sent at this ⊢
            simp only [he, ht, List.mem_cons] at this
            rcases this with (h | h) | h | h
            · exact .inr (.inl (by rw [← h]))
            · exact .inl h
            · cases h
            · exact .inr (.inr h)
        · refine ⟨by unfold use; split <;> exact hs, fun hp => ?_⟩
          have hp' : s.pc = .joining := by
            revert hp; unfold use; split <;> exact id
          have hc := (w (by simp [hp'])).1
          have := hq hp'
          simp only [use, hc, if_true]
          simp_all [Sent]
      · refine ⟨by unfold use; split <;> exact hs, fun _ => .inr (.inr ?_)⟩
        unfold use; split <;> rfl
      · rename_i n ht
        split
        · refine ⟨by unfold use; split <;> exact hs, fun hp => ?_⟩
          have hp' : s.pc = .joining := by
            revert hp; unfold use; split <;> exact id
          have hc := (w (by simp [hp'])).1
          have := hq hp'
          simp only [use, St.say, hc, if_true]
          simp_all [Sent]
        · rename_i hh
          refine ⟨by unfold use; split <;> exact hs, fun hp => ?_⟩
          have hp' : s.pc = .joining := by
            revert hp; unfold use; split <;> exact id
          exact absurd (w (by simp [hp'])).2.2.1 hh
      · exact ⟨hs, hq⟩
    | finish =>
      dsimp only; unfold finish
      split
      · split
        · exact c
        · refine ⟨c.self, fun hp => ?_⟩
          have := c.sent hp
          simp_all [Sent, St.say]
      · exact c

theorem calm_run : ∀ (ops : List Op) {s : St}, Inv s → Calm s →
    (∀ op ∈ ops, op ≠ .go false ∧ op ≠ .destroy true) → Calm (run s ops)
  | [], _, _, c, _ => c
  | op :: ops, _, i, c, h =>
    calm_run ops (inv_step i op) (calm_step i c (h op (by simp)).1 (h op (by simp)).2)
      (fun o ho => h o (by simp [ho]))

theorem calm_init : Calm init := ⟨rfl, by simp [init]⟩

/-- The quit pulse is lost. -/
structure Lost (s : St) : Prop where
  pc : s.pc = .joining
  self : s.self = false
  quit : s.quit = false
  th : s.th ≠ .ended ∧ s.th ≠ .got .quit
  queue : Pulse.quit ∉ s.queue

theorem lost_step {s : St} (i : Inv s) (l : Lost s) (op : Op) : Lost (step s op) := by
  obtain ⟨hp, hs, hq, ⟨h1, h2⟩, h3⟩ := l
  obtain ⟨hctx, -, hh, hch, hl, hth⟩ := i.work (by simp [hp])
  have hd : s.pc ≠ .dead := by simp [hp]
  simp only [step, hd, if_false]
  cases op with
  | go ok => simpa [go, hp, hs, h1] using (⟨hp, hs, hq, ⟨h1, h2⟩, h3⟩ : Lost s)
  | destroy b => simpa [destroy, hp] using (⟨hp, hs, hq, ⟨h1, h2⟩, h3⟩ : Lost s)
  | arrive n =>
    simp only [arrive, hch, if_true, St.say]
    exact ⟨hp, hs, hq, ⟨h1, h2⟩, by simp [h3]⟩
  | thread ok =>
    cases ht : s.th with
    | none => exact absurd ht hth
    | ended => exact absurd ht h1
    | fresh => simp only [thread, ht, hl, Bool.false_eq_true, if_false]; exact ⟨hp, hs, hq, by simp, h3⟩
    | check => simp only [thread, ht, hq, Bool.false_eq_true, if_false]; exact ⟨hp, hs, rfl, by simp, h3⟩
    | block =>
      cases ok
      · simp only [thread, ht, use, hctx, Bool.false_eq_true, if_false, if_true]
        exact ⟨hp, hs, hq, by simp, h3⟩
      · cases he : s.queue with
        | nil => simp only [thread, ht, he, if_true]; exact ⟨hp, hs, hq, ⟨h1, h2⟩, h3⟩
        | cons p q =>
          simp only [thread, ht, he, use, hctx, if_true]
          rw [he] at h3
          exact ⟨hp, hs, hq, ⟨by simp, fun e => h3 (by cases e; simp)⟩, fun e => h3 (by simp [e])⟩
    | got p =>
      cases p with
      | quit => exact absurd ht h2
      | event n =>
        simp only [thread, ht, hh, use, St.say, hctx, if_true]
        exact ⟨hp, hs, hq, by simp, h3⟩
    | running n => simp only [thread, ht]; exact ⟨hp, hs, hq, ⟨h1, h2⟩, h3⟩
  | finish =>
    cases ht : s.th with
    | running n =>
      simp only [finish, ht, hs, Bool.false_eq_true, if_false, St.say]
      exact ⟨hp, rfl, hq, by simp, h3⟩
    | _ => simp only [finish, ht]; exact ⟨hp, hs, hq, ⟨h1, h2⟩, h3⟩

theorem lost_run : ∀ (ops : List Op) {s : St}, Inv s → Lost s → Lost (run s ops)
  | [], _, _, l => l
  | op :: ops, _, i, l => lost_run ops (inv_step i op) (lost_step i l op)

theorem up_pc {s : St} (i : Inv s) : Up s ↔ s.pc = .up := by
  unfold Up
  rw [i.blt, i.dcl]
  cases s.pc <;> simp [Late]

end Verif.EngineThread
