import Verif.Model.CallQueue
import Verif.Spec.ShmAlloc
/-! Vocabulary for the method call slots. -/
namespace Verif.CallQueue

/-- The byte at address `x` belongs to the span. -/
def Span.Has (s : Span) (x : Nat) : Prop := s.data ≤ x ∧ x < s.data + s.size

/-- Every byte of `s` is a byte of `t`, also if `s` is empty it starts in `t` or at its end. -/
def Span.Inside (s t : Span) : Prop := t.data ≤ s.data ∧ s.data + s.size ≤ t.data + t.size

/-- No byte belongs to both. -/
def Span.Apart (s t : Span) : Prop := ∀ x, ¬ (s.Has x ∧ t.Has x)

/-- A type as C++ has them: the alignment is a power of two and the size a multiple of it. -/
def TypeInfo.Ok (t : TypeInfo) : Prop := t.size < 2 ^ 64 ∧ t.align ∣ t.size ∧ ∃ k, k < 64 ∧ t.align = 2 ^ k

/-- The types are C++ types and the queue size is a std::size_t. -/
def Info.Ok (i : Info) : Prop := (∀ t, i.inArg = some t → t.Ok) ∧ (∀ t, i.ret = some t → t.Ok) ∧ i.queueSize < 2 ^ 64

/-- The size of a whole queue is representable in std::size_t. -/
def Info.Fits (i : Info) : Prop :=
  (∀ t, i.inArg = some t → t.size * i.queueSize < 2 ^ 64) ∧ (∀ t, i.ret = some t → t.size * i.queueSize < 2 ^ 64)

/-- `q` has been constructed in the shared memory object `c`, mapped by process `i`, at allocation counter `cur`. -/
def Built (c : ShmAlloc.Cfg) (i cur : Nat) (q : Queue) (cur' : Nat) : Prop :=
  c.Ok ∧ cur ≤ c.size ∧ q.info.Ok ∧ construct c i cur q.info = some (q, cur')

end Verif.CallQueue
