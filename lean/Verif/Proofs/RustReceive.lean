import Verif.Spec.RustReceive

namespace Verif.RustReceive

/-- What the future and the stream rely on. -/
structure WInv (cfg : Cfg) (s : St) : Prop where
  fv : ∀ f, s.fut = some f → f.pc ≠ .fresh → 0 < f.new ∧ f.new ≤ f.max ∧ f.max ≤ cfg.maxNum ∧ f.total < f.new ∧ s.handler = true
  ft : ∀ f, s.fut = some f → f.pc = .fresh → f.total = 0
  fw : ∀ f, s.fut = some f → f.pc = .waiting ∨ f.pc = .polling → s.waker = true ∨ s.woken = true
  fu : ∀ f, s.fut = some f → f.pc = .waiting → s.unread ≠ [] → s.woken = true ∨ 0 < s.due ∨ 0 < s.toSignal
  sv : ∀ r, s.stream = some r → s.handler = true
  sb : ∀ r, s.stream = some r → r.pc ≠ .fresh → r.buf = []
  sw : ∀ r, s.stream = some r → r.pc = .waiting ∨ r.pc = .polling → s.waker = true ∨ s.woken = true
  su : ∀ r, s.stream = some r → r.pc = .waiting → s.unread ≠ [] → s.woken = true ∨ 0 < s.due ∨ 0 < s.toSignal
  x : s.fut = none ∨ s.stream = none

theorem winv_init (cfg : Cfg) : WInv cfg init := by constructor <;> simp [init]

theorem valid_iff {cfg : Cfg} {new max : Nat} : valid cfg new max = true ↔ 0 < new ∧ new ≤ max ∧ max ≤ cfg.maxNum := by
  simp [valid]; omega

theorem winv_signal {cfg : Cfg} {s : St} (h : WInv cfg s) : WInv cfg (signal s) := by
  obtain ⟨fv, ft, fw, fu, sv, sb, sw, su, x⟩ := h
  unfold signal; split <;> constructor <;> grind

theorem winv_notify {cfg : Cfg} {s : St} (h : WInv cfg s) : WInv cfg (notify s) := by
  obtain ⟨fv, ft, fw, fu, sv, sb, sw, su, x⟩ := h
  unfold notify; split <;> constructor <;> grind

theorem winv_tryReceive {cfg : Cfg} {s : St} (h : WInv cfg s) (m : Nat) : WInv cfg (tryReceive cfg s m) := by
  obtain ⟨fv, ft, fw, fu, sv, sb, sw, su, x⟩ := h
  unfold tryReceive; (repeat' split) <;> constructor <;> grind

theorem winv_start {cfg : Cfg} {s : St} (h : WInv cfg s) (a b : Nat) : WInv cfg (start s a b) := by
  obtain ⟨fv, ft, fw, fu, sv, sb, sw, su, x⟩ := h
  unfold start; split <;> constructor <;> grind

theorem winv_poll {cfg : Cfg} {s : St} (h : WInv cfg s) (ok : Bool) : WInv cfg (poll cfg s ok) := by
  obtain ⟨fv, ft, fw, fu, sv, sb, sw, su, x⟩ := h
  unfold poll finish; (repeat' split) <;> constructor <;> grind [valid_iff]

theorem winv_go {cfg : Cfg} {s : St} (h : WInv cfg s) : WInv cfg (go cfg s) := by
  obtain ⟨fv, ft, fw, fu, sv, sb, sw, su, x⟩ := h
  unfold go finish; (repeat' split) <;> constructor <;> grind

theorem winv_cancel {cfg : Cfg} {s : St} (h : WInv cfg s) : WInv cfg (cancel s) := by
  obtain ⟨fv, ft, fw, fu, sv, sb, sw, su, x⟩ := h
  unfold cancel; split <;> constructor <;> grind

theorem winv_dropFut {cfg : Cfg} {s : St} (h : WInv cfg s) : WInv cfg (dropFut s) := by
  obtain ⟨fv, ft, fw, fu, sv, sb, sw, su, x⟩ := h
  unfold dropFut; (repeat' split) <;> constructor <;> grind

theorem winv_take {cfg : Cfg} {s : St} (h : WInv cfg s) : WInv cfg (take s) := by
  obtain ⟨fv, ft, fw, fu, sv, sb, sw, su, x⟩ := h
  unfold take; (repeat' split) <;> constructor <;> grind

theorem winv_toStream {cfg : Cfg} {s : St} (h : WInv cfg s) (ok : Bool) : WInv cfg (toStream s ok) := by
  obtain ⟨fv, ft, fw, fu, sv, sb, sw, su, x⟩ := h
  unfold toStream; (repeat' split) <;> constructor <;> grind

theorem winv_next {cfg : Cfg} {s : St} (h : WInv cfg s) : WInv cfg (nextItem s) := by
  obtain ⟨fv, ft, fw, fu, sv, sb, sw, su, x⟩ := h
  unfold nextItem; (repeat' split) <;> constructor <;> grind

theorem winv_goStream {cfg : Cfg} {s : St} (h : WInv cfg s) : WInv cfg (goStream cfg s) := by
  obtain ⟨fv, ft, fw, fu, sv, sb, sw, su, x⟩ := h
  unfold goStream; (repeat' split) <;> constructor <;> grind

theorem winv_dropStream {cfg : Cfg} {s : St} (h : WInv cfg s) : WInv cfg (dropStream s) := by
  obtain ⟨fv, ft, fw, fu, sv, sb, sw, su, x⟩ := h
  unfold dropStream; (repeat' split) <;> constructor <;> grind

theorem tail_ne {l : List Nat} (h : l.tail ≠ []) : l ≠ [] := by cases l <;> simp_all

theorem winv_step {cfg : Cfg} {s : St} (h : WInv cfg s) (op : Op) : WInv cfg (step cfg s op) := by
  unfold step
  split
  · exact h
  cases op <;> dsimp only
  case store => obtain ⟨fv, ft, fw, fu, sv, sb, sw, su, x⟩ := h; constructor <;> grind
  case lose => exact ⟨h.fv, h.ft, h.fw, fun f a b c => h.fu f a b (tail_ne c), h.sv, h.sb, h.sw, fun f a b c => h.su f a b (tail_ne c), h.x⟩
  case signal => exact winv_signal h
  case notify => exact winv_notify h
  case tryReceive m => exact winv_tryReceive h m
  case start a b => exact winv_start h a b
  case poll ok => exact winv_poll h ok
  case go => exact winv_go h
  case cancel => exact winv_cancel h
  case dropFut => exact winv_dropFut h
  case take => exact winv_take h
  case release => exact ⟨h.fv, h.ft, h.fw, h.fu, h.sv, h.sb, h.sw, h.su, h.x⟩
  case toStream ok => exact winv_toStream h ok
  case next => exact winv_next h
  case goStream => exact winv_goStream h
  case dropStream => exact winv_dropStream h

theorem winv_run {cfg : Cfg} : ∀ (ops : List Op) {s : St}, WInv cfg s → WInv cfg (run cfg s ops)
  | [], _, h => h
  | op :: ops, _, h => winv_run ops (winv_step h op)

end Verif.RustReceive
