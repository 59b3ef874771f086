import Verif.Proofs.FindStop

/-! What a search that is not stopped gets. -/
namespace Verif.FindCalls

def StopSeen (l : List Ev) (h : Nat) : Prop := ∃ v, Ev.stopCalled v h ∈ l

def CallSeen (l : List Ev) (h : Nat) : Prop := ∃ v, Ev.called v h ∈ l

def FailSeen (l : List Ev) (h : Nat) : Prop := ∃ v, Ev.startCalled v h .fails ∈ l

structure Told (s : St) : Prop where
  gone : ∀ h, h < s.next → s.callbacks h = false → StopSeen s.log h ∨ FailSeen s.log h
  obs : ∀ h, s.obsolete h = true → StopSeen s.log h ∨ FailSeen s.log h
  stp : ∀ t h b, Frame.stopping h b ∈ s.stacks t → StopSeen s.log h ∨ FailSeen s.log h
  heldC : ∀ t h, Frame.startHeld h ∈ s.stacks t → CallSeen s.log h ∨ StopSeen s.log h
  heldS : ∀ t h, Frame.startHeld h ∈ s.stacks t → s.searches h = true ∨ StopSeen s.log h
  heldK : ∀ t h, Frame.startHeld h ∈ s.stacks t → Ev.startCalled t h .known ∈ s.log
  failF : ∀ t h, Frame.stopping h true ∈ s.stacks t → Ev.startCalled t h .fails ∈ s.log
  strt : ∀ t h m, Frame.starting h m ∈ s.stacks t → h < s.next
  ret : ∀ t h b, Ev.startReturned t h b ∈ s.log →
    ∃ m, Ev.startCalled t h m ∈ s.log ∧ (b = false ↔ m = .fails)
  kn : ∀ t u h, Ev.startReturned t h true ∈ s.log → Ev.startCalled u h .known ∈ s.log →
    CallSeen s.log h ∨ StopSeen s.log h
  reg : ∀ t u h m, Ev.startReturned t h true ∈ s.log → Ev.startCalled u h m ∈ s.log →
    m = .quiet ∨ m = .known → s.searches h = true ∨ StopSeen s.log h

theorem told_init : Told init := by
  constructor <;> simp [init]

theorem told_start {s : St} (i : Inv s) (x : Told s) (t : Nat) (m : Mode) : Told (start s t m) := by
  unfold start
  split
  · have hnl : ∀ u k, Ev.startCalled u s.next k ∉ s.log := fun u k a => by
      have := i.startL u s.next k a; omega
    have hnr : ∀ u b, Ev.startReturned u s.next b ∉ s.log := fun u b a => by
      obtain ⟨m, c, _⟩ := x.ret u _ b a; exact hnl _ _ c
    obtain ⟨h1, h2, h3, h4, h5, h6, h7, h8, h9, h10, h11⟩ := x
    cases m with
    | unresolved =>
      constructor <;> simp only [St.say] <;> try grind [upd, StopSeen, CallSeen, FailSeen]
    | fails =>
      constructor <;> simp only [St.say, St.put] <;> try grind [upd, StopSeen, CallSeen, FailSeen]
    | quiet =>
      constructor <;> simp only [St.say, St.put] <;> try grind [upd, StopSeen, CallSeen, FailSeen]
    | known =>
      constructor <;> simp only [St.say, St.put] <;> try grind [upd, StopSeen, CallSeen, FailSeen]
  · exact x

theorem told_stop {s : St} (x : Told s) (t h : Nat) : Told (stop s t h) := by
  unfold stop
  split
  · obtain ⟨h1, h2, h3, h4, h5, h6, h7, h8, h9, h10, h11⟩ := x
    split
    · constructor <;> simp only [St.say, St.put, erase] <;> try grind [upd, StopSeen, CallSeen, FailSeen]
    · constructor <;> simp only [St.say, erase] <;> try grind [upd, StopSeen, CallSeen, FailSeen]
  · exact x

theorem told_go {s : St} (i : Inv s) (x : Told s) (t : Nat) : Told (go s t) := by
  have hun : (unlock s).stacks = s.stacks ∧ (unlock s).log = s.log ∧ (unlock s).searches = s.searches ∧
      (unlock s).obsolete = s.obsolete ∧ (unlock s).callbacks = s.callbacks ∧
      (unlock s).next = s.next := by
    unfold unlock; split <;> exact ⟨rfl, rfl, rfl, rfl, rfl, rfl⟩
  obtain ⟨u1, u2, u3, u4, u5, u6⟩ := hun
  unfold go
  split
  · rename_i k m rest hst
    split
    · have hf := i.frame t k m (by rw [hst]; simp)
      have hu := i.startU
      have hl := x.strt t k m (by rw [hst]; simp)
      obtain ⟨h1, h2, h3, h4, h5, h6, h7, h8, h9, h10, h11⟩ := x
      unfold bindStart
      cases m with
      | known =>
        simp only [callUser]
        split
        · constructor <;> simp only [St.say, St.put, lock] <;> try grind [upd, StopSeen, CallSeen, FailSeen]
        · rename_i hc
          simp only [St.put, lock] at hc
          constructor <;> simp only [St.put, lock] <;> try grind [upd, StopSeen, CallSeen, FailSeen]
      | fails =>
        constructor <;> simp only [St.put, erase] <;> try grind [upd, StopSeen, CallSeen, FailSeen]
      | quiet =>
        constructor <;> simp only [St.say, St.put] <;> try grind [upd, StopSeen, CallSeen, FailSeen]
      | unresolved => exact absurd rfl hf.1
    · exact x
  · rename_i k rest hst
    have hu := i.startU
    have hk := x.heldK t k (by rw [hst]; simp)
    obtain ⟨h1, h2, h3, h4, h5, h6, h7, h8, h9, h10, h11⟩ := x
    constructor <;> simp only [St.say, St.put, u1, u2, u3, u4, u5, u6] <;>
      try grind [upd, StopSeen, CallSeen, FailSeen]
  · rename_i k b rest hst
    split
    · have hu := i.startU
      have hs := x.stp t k b (by rw [hst]; simp)
      have hb : b = true → Ev.startCalled t k .fails ∈ s.log := by
        intro e; subst e; exact x.failF t k (by rw [hst]; simp)
      have ha : ∀ u m, Ev.startCalled u k m ∈ s.log → StopSeen s.log k ∨ m = .fails := by
        intro u m a
        rcases hs with c | ⟨v, c⟩
        · exact .inl c
        · exact .inr (hu _ _ _ _ _ a c)
      obtain ⟨h1, h2, h3, h4, h5, h6, h7, h8, h9, h10, h11⟩ := x
      cases b <;> (constructor <;> simp only [St.say, St.put] <;>
        try grind [upd, StopSeen, CallSeen, FailSeen])
    · exact x
  · rename_i rest hst
    obtain ⟨h1, h2, h3, h4, h5, h6, h7, h8, h9, h10, h11⟩ := x
    constructor <;> simp only [St.put, u1, u2, u3, u4, u5, u6] <;>
      try grind [upd, StopSeen, CallSeen, FailSeen]
  · exact x

theorem told_finish {s : St} (x : Told s) (t : Nat) : Told (finish s t) := by
  unfold finish
  split
  · obtain ⟨h1, h2, h3, h4, h5, h6, h7, h8, h9, h10, h11⟩ := x
    constructor <;> simp only [St.say, St.put] <;> try grind [upd, StopSeen, CallSeen, FailSeen]
  · exact x

theorem told_events {s : St} (i : Inv s) (x : Told s) : Told (events s) := by
  unfold events
  split
  · have hu := i.startU
    obtain ⟨h1, h2, h3, h4, h5, h6, h7, h8, h9, h10, h11⟩ := x
    constructor <;> simp only [lock, St.put] <;> try grind [upd, StopSeen, CallSeen, FailSeen]
  · exact x

theorem told_tell {s : St} (x : Told s) (h : Nat) : Told (tell s h) := by
  unfold tell
  split
  · split
    · unfold callUser
      split
      · obtain ⟨h1, h2, h3, h4, h5, h6, h7, h8, h9, h10, h11⟩ := x
        constructor <;> simp only [St.say, St.put] <;> try grind [upd, StopSeen, CallSeen, FailSeen]
      · exact x
    · exact x
  · exact x

theorem told_step {s : St} (i : Inv s) (x : Told s) (op : Op) : Told (step s op) := by
  cases op with
  | start t m => exact told_start i x t m
  | stop t h => exact told_stop x t h
  | go t => exact told_go i x t
  | finish t => exact told_finish x t
  | events => exact told_events i x
  | tell h => exact told_tell x h

theorem told_run : ∀ (ops : List Op) {s : St}, Inv s → Told s → Told (run s ops)
  | [], _, _, x => x
  | op :: ops, _, i, x => told_run ops (inv_step i op) (told_step i x op)

end Verif.FindCalls
