import Verif.Lib.Fn
import Verif.Model.Arith
/-! Allocation in a shared memory resource (/repo/score/memory/shared/shared_memory_resource.cpp): a bump counter in the control
block, advanced with compare-and-swap by any number of threads of any number of processes, each with its own mapping. Steps are
atomic accesses in a sequentially consistent order. -/
namespace Verif.ShmAlloc

/-- The shared memory object: its size (virtual_address_space_to_reserve_), the space for the control block
(GetNeededManagementSpace, shared_memory_resource.h:187-190), and where each thread's process has mapped it (base_address_). -/
structure Cfg where
  size : Nat
  mgmt : Nat
  base : Nat → Nat

/-- The address std::align rounds to (power-of-two alignments). -/
def alignUp (p align : Nat) : Nat := ((p + align - 1) / align * align) % Arith.W

/-- std::align: `none` is nullptr. -/
def stdAlign (align bytes p space : Nat) : Option Nat :=
  if space < bytes then none
  else
    let q := alignUp p align
    let diff := (q + Arith.W - p) % Arith.W
    if space - bytes < diff then none else if q = 0 then none else some q

/-- do_allocation_algorithm (shared_memory_resource.cpp:253-268): the signed difference is cast to std::size_t. The outer `none`
is the assertion in SubtractPointersBytes. -/
def algorithm (start stop bytes align : Nat) : Option (Option Nat) :=
  (Arith.subPointers stop start).map (fun d => stdAlign align bytes start (Arith.toUnsigned d))

/-- safe_math::Add(...).value(): terminates on overflow. -/
def safeAdd (x y : Nat) : Option Nat := if x + y < Arith.W then some (x + y) else none

/-- One iteration's computation (shared_memory_resource.cpp:726, 733-762) from the known counter value: the aligned address and the
new counter value. `none`: the process terminates. -/
def compute (c : Cfg) (i cur bytes align : Nat) : Option (Nat × Nat) := do
  let stop ← Arith.addOffset (c.base i) c.size
  let start ← Arith.addOffset (c.base i) cur
  let q? ← algorithm start stop bytes align
  let q ← q?
  let pad ← Arith.subPointers q start
  if pad < 0 then none
  else do
    let total ← safeAdd bytes pad.toNat
    let new ← safeAdd cur total
    pure (q, new)

/-- max_retries (shared_memory_resource.cpp:720). -/
def maxRetries : Nat := 32

/-- Where a thread is in do_allocate. -/
inductive Pc where
  | idle
  /-- About to load the counter (shared_memory_resource.cpp:728-729). -/
  | load (bytes align : Nat)
  /-- Knows a value of the counter, about to compute (733-762). -/
  | know (bytes align cur retries : Nat)
  /-- About to compare and swap (767-771). -/
  | cas (bytes align cur retries addr new : Nat)
  /-- Its process has terminated. -/
  | dead
  deriving DecidableEq, Repr

/-- Ghost record of a returned block. -/
structure Block where
  thread : Nat
  addr : Nat
  bytes : Nat
  align : Nat
  deriving DecidableEq, Repr

structure St where
  counter : Nat
  pc : Nat → Pc
  /-- The blocks that were returned, newest first. -/
  blocks : List Block

/-- initializeControlBlock (shared_memory_resource.cpp:976-988). -/
def init (c : Cfg) : St := ⟨c.mgmt, fun _ => .idle, []⟩

inductive Op where
  | start (i bytes align : Nat)
  | step (i : Nat)
  /-- compare_exchange_weak fails spuriously. -/
  | spurious (i : Nat)
  /-- The process of thread `i` crashes. -/
  | crash (i : Nat)
  deriving DecidableEq, Repr

/-- The compare-and-swap has failed and has loaded the current value (shared_memory_resource.cpp:731, 767-778). -/
def retry (s : St) (i bytes align retries : Nat) : St :=
  if retries + 1 < maxRetries then { s with pc := upd s.pc i (.know bytes align s.counter (retries + 1)) }
  else { s with pc := upd s.pc i .dead }

/-- One atomic step of do_allocate_with_indirector (shared_memory_resource.cpp:700-779). -/
def step (c : Cfg) (s : St) : Op → St
  | .start i bytes align => match s.pc i with
    | .idle => { s with pc := upd s.pc i (.load bytes align) }
    | _ => s
  | .step i => match s.pc i with
    | .load bytes align => { s with pc := upd s.pc i (.know bytes align s.counter 0) }
    | .know bytes align cur retries =>
      match compute c i cur bytes align with
      | some (q, new) => { s with pc := upd s.pc i (.cas bytes align cur retries q new) }
      | none => { s with pc := upd s.pc i .dead }
    | .cas bytes align cur retries q new =>
      if s.counter = cur then
        { counter := new, pc := upd s.pc i .idle, blocks := ⟨i, q, bytes, align⟩ :: s.blocks }
      else retry s i bytes align retries
    | _ => s
  | .spurious i => match s.pc i with
    | .cas bytes align _ retries _ _ => retry s i bytes align retries
    | _ => s
  | .crash i => { s with pc := upd s.pc i .dead }

def run (c : Cfg) (s : St) (ops : List Op) : St := ops.foldl (step c) s

/-- GetUserAllocatedBytes (shared_memory_resource.cpp:820-831). -/
def userBytes (c : Cfg) (s : St) : Nat := s.counter - c.mgmt

end Verif.ShmAlloc
