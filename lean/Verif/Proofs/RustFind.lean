import Verif.Spec.RustFind

namespace Verif.RustFind

structure Inv (s : St) : Prop where
  none : s.pc = .none → s = init
  w : s.pc = .waiting ∨ s.pc = .polling → s.waker = true ∨ s.woken = true
  u : s.pc = .waiting → s.slot ≠ .none → s.woken = true ∨ 0 < s.toWake
  a : s.active = true ↔ s.started = true ∧ s.stops = 0
  b : s.stops ≤ 1
  c : s.stops = 1 → s.started = true ∧ s.pc = .gone ∧ s.polled = true
  d : s.started = true ↔ s.pc ≠ .none ∧ s.err = .none
  e : s.pc = .gone → s.polled = true → s.started = true → s.stops = 1
  f : s.pc ≠ .gone → s.stops = 0 ∧ s.out = .none
  l : s.pc ≠ .gone ∨ s.polled = false → s.slot = s.seen.getLast?
  o : ∀ hs, s.out = some (.found hs) → s.seen.getLast? = some hs ∧ s.stops = 1
  oe : ∀ e, s.out = some (.err e) → s.err = some e
  p : s.pc = .waiting ∨ s.pc = .polling → s.polled = true ∧ s.err = .none
  q : s.pc = .fresh → s.polled = false
  x : s.pc ≠ .none → s.boxes = 1
  r : s.woken = false → s.pc = .fresh → False
  ov : s.pc = .gone → s.polled = true → s.out = .none → s.started = true

theorem inv_init : Inv init := by constructor <;> simp [init]

theorem inv_step {s : St} (h : Inv s) (op : Op) : Inv (step s op) := by
  obtain ⟨h0, h1, h2, h3, h4, h5, h6, h7, h8, h9, h10, h11, h12, h13, h14, h15, h16⟩ := h
  cases op <;> dsimp only [step]
  case call b =>
    unfold call
    split
    · rename_i hp
      have e := h0 hp
      subst e
      (repeat' split) <;> constructor <;> simp [init]
    · constructor <;> assumption
  case notify hs => unfold notify; split <;> constructor <;> grind
  case wake =>
    have hz : s.pc = .none → s.toWake = 0 := fun h => by rw [h0 h]; rfl
    unfold wake; split <;> constructor <;> grind
  case poll => unfold poll; split <;> constructor <;> grind
  case go => unfold go stop; split <;> constructor <;> grind
  case drop => unfold drop stop; split <;> constructor <;> grind

theorem inv_run : ∀ (ops : List Op) {s : St}, Inv s → Inv (run s ops)
  | [], _, h => h
  | op :: ops, _, h => inv_run ops (inv_step h op)

theorem over_step {s : St} (h : s.pc = .gone) (op : Op) : (step s op).pc = .gone ∧ (step s op).out = s.out ∧ (step s op).stops = s.stops ∧
    (s.active = false → (step s op).active = false ∧ (step s op).seen = s.seen) := by
  cases op <;> simp [step, call, notify, wake, poll, go, drop, h] <;> (try split) <;> simp_all

theorem over_run : ∀ (ops : List Op) {s : St}, s.pc = .gone → (run s ops).pc = .gone ∧ (run s ops).out = s.out ∧ (run s ops).stops = s.stops ∧
    (s.active = false → (run s ops).active = false ∧ (run s ops).seen = s.seen)
  | [], _, h => ⟨h, rfl, rfl, fun h => ⟨h, rfl⟩⟩
  | op :: ops, s, h => by
    obtain ⟨a, b, c, d⟩ := over_step h op
    obtain ⟨a', b', c', d'⟩ := over_run ops a
    exact ⟨a', b'.trans b, c'.trans c, fun h => ⟨(d' (d h).1).1, (d' (d h).1).2.trans (d h).2⟩⟩

end Verif.RustFind
