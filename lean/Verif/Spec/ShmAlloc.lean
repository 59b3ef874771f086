import Verif.Model.ShmAlloc
/-! Vocabulary for the allocations in a shared memory resource. -/
namespace Verif.ShmAlloc

/-- The object has room for its control block, and every process has it mapped below 2^64, not at address 0. -/
structure Cfg.Ok (c : Cfg) : Prop where
  room : c.mgmt ≤ c.size
  mapped : ∀ i, 0 < c.base i ∧ c.base i + c.size < 2 ^ 64

/-- The arguments of an operation are values of std::size_t, and the alignment is a power of two. -/
def Op.Ok : Op → Prop
  | .start _ bytes align => bytes < 2 ^ 64 ∧ ∃ k, k < 64 ∧ align = 2 ^ k
  | _ => True

/-- Reachable by any interleaving of any allocations of any threads. -/
def Reachable (c : Cfg) (s : St) : Prop := ∃ ops : List Op, (∀ o ∈ ops, o.Ok) ∧ s = run c (init c) ops

/-- The block covers the byte at offset `x` of the shared memory object. -/
def Covers (c : Cfg) (b : Block) (x : Nat) : Prop := b.addr ≤ c.base b.thread + x ∧ c.base b.thread + x < b.addr + b.bytes

/-- No byte of the shared memory object is in both blocks. -/
def Disjoint (c : Cfg) (b b' : Block) : Prop := ∀ x, ¬ (Covers c b x ∧ Covers c b' x)

/-- An aligned block of that size fits between the offset `from` and the end of the object. -/
def Fits (c : Cfg) (i start bytes align : Nat) : Prop :=
  ∃ q, align ∣ q ∧ c.base i + start ≤ q ∧ q + bytes ≤ c.base i + c.size

end Verif.ShmAlloc
