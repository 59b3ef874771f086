import Verif.Model.CallQueue
/-! The storage of method arguments and results in shared memory (/repo/score/mw/com/impl/util/type_erased_storage.h), and how a call
uses it (/repo/score/mw/com/impl/methods/{proxy_method.h, proxy_method_with_in_args_and_return.h, skeleton_method.h}).

Addresses and sizes are numbers without a bound: a buffer lies below 2^64 (`CallQueue.getElement` checks it), and the sum of the sizes of
the arguments is assumed not to wrap (constexpr unsigned arithmetic). A value is the list of its bytes. -/
namespace Verif.ArgStore
open CallQueue

abbrev Byte := BitVec 8

/-- The bytes needed to get from `a` to the next multiple of the alignment (type_erased_storage.h:63, 82). -/
def padding (a align : Nat) : Nat := if a % align = 0 then 0 else align - a % align

/-- AggregateArgType (60-66). -/
def aggregate (i t : TypeInfo) : TypeInfo := ⟨i.size + (t.size + padding i.size t.align), max i.align t.align⟩

/-- CreateDataTypeSizeInfoFromTypes (179-196). -/
def sizeInfo (ts : List TypeInfo) : TypeInfo :=
  let r := ts.foldl aggregate ⟨0, 0⟩
  if r.align ≠ 0 ∧ r.size % r.align ≠ 0 then ⟨r.size + (r.align - r.size % r.align), r.align⟩ else r

/-- Deserialize and DeserializeArg (74-101), DeserializeArgs (241-247): the addresses of the arguments in a buffer at `data`. -/
def pointers (data off : Nat) : List TypeInfo → List Nat
  | [] => []
  | t :: ts => (data + off + padding (data + off) t.align) :: pointers data (off + (padding (data + off) t.align + t.size)) ts

/-! ### Memory -/

/-- A shared memory object: the byte at each offset. A process that has mapped it at `base` finds it at `base + offset`. -/
abbrev Mem := Nat → Byte

/-- Writing bytes to the address `p`. -/
def put (base : Nat) (m : Mem) (p : Nat) (v : List Byte) : Mem :=
  fun x => if p ≤ base + x ∧ base + x < p + v.length then v.getD (base + x - p) 0 else m x

/-- Reading `n` bytes from the address `p`. -/
def get (base : Nat) (m : Mem) (p n : Nat) : List Byte := (List.range n).map fun k => m (p + k - base)

/-- `(*(in_args_ptrs.get()) = args), ...` (proxy_method_with_in_args_and_return.h:176-181). -/
def putAll (base : Nat) (m : Mem) : List Nat → List (List Byte) → Mem
  | p :: ps, v :: vs => putAll base (put base m p v) ps vs
  | _, _ => m

/-- The arguments that the handler is called with: `*in_arg_ptrs...` (skeleton_method.h:249-263). -/
def getAll (base : Nat) (m : Mem) : List Nat → List TypeInfo → List (List Byte)
  | p :: ps, t :: ts => get base m p t.size :: getAll base m ps ts
  | _, _ => []

/-! ### Serialization -/

/-- An argument for SerializeArgs: its type, its bytes, and the address of the copy of it that AreRegionsOverlapping gets. The lambda
takes `T source_object` by value (type_erased_storage.h:124): it looks at the copy, not at the argument. -/
structure Arg where
  type : TypeInfo
  value : List Byte
  copy : Nat
  deriving DecidableEq, Repr

/-- AreRegionsOverlapping (124-136). -/
def overlapping (buf : Span) (a : Arg) : Bool := !(decide (a.copy + a.type.size < buf.data) || decide (a.copy > buf.data + buf.size))

/-- SerializeArgs (109-164, 226-231). `none`: an assertion fails. std::align returns nullptr if there is no room (112-122). -/
def serialize (base : Nat) (m : Mem) (buf : Span) (off : Nat) : List Arg → Option Mem
  | [] => some m
  | a :: as =>
    let p := buf.data + off + padding (buf.data + off) a.type.align
    if buf.size - off < a.type.size + padding (buf.data + off) a.type.align then none
    else if overlapping buf a = true then none
    else serialize base (put base m p a.value) buf (off + (a.type.size + padding (buf.data + off) a.type.align)) as

/-! ### A call -/

/-- Where a process that has mapped the object at `base'` finds a span of the process that has mapped it at `base` (the storages are kept
as offset pointers: bindings/lola/methods/type_erased_call_queue.h, proxy.cpp and skeleton.cpp). -/
def move (base base' : Nat) (s : Span) : Span := ⟨s.data - base + base', s.size⟩

/-- A call with arguments and result: the consumer (mapping `base`) allocates (AllocateImpl, proxy_method.h:144-171), assigns the
arguments and calls; the provider (mapping `base'`) calls its handler with the arguments and lets it write the result to the address that
DeserializeArg gives (skeleton_method.h:231-275, type_erased_storage.h:254-261). Second component: the arguments that the handler sees.
Third: what the consumer reads through the pointer to the result, which is the start of the storage
(proxy_method_with_in_args_and_return.h:204-215). A handler that changes its arguments is not modelled. -/
def call (base base' : Nat) (m : Mem) (inArgs ret : Span) (ts : List TypeInfo) (rt : TypeInfo) (handler : List (List Byte) → List Byte)
    (vs : List (List Byte)) : Mem × List (List Byte) × List Byte :=
  let m := putAll base m (pointers inArgs.data 0 ts) vs
  let args := getAll base' m (pointers (move base base' inArgs).data 0 ts) ts
  let m := match pointers (move base base' ret).data 0 [rt] with
    | p :: _ => put base' m p (handler args)
    | [] => m
  (m, args, get base m ret.data rt.size)

end Verif.ArgStore
