import Verif.Model.ShmAlloc
/-! The queue of method call slots in shared memory (/repo/score/mw/com/impl/bindings/lola/methods/type_erased_call_queue.cpp).
std::size_t is a Nat below 2^64, products are reduced modulo 2^64 as the code's unsigned multiplications are. -/
namespace Verif.CallQueue

/-- memory::DataTypeSizeInfo (used in type_erased_call_queue.h). -/
structure TypeInfo where
  size : Nat
  align : Nat
  deriving DecidableEq, Repr

/-- TypeErasedElementInfo (type_erased_call_queue.h:34-39). -/
structure Info where
  inArg : Option TypeInfo
  ret : Option TypeInfo
  queueSize : Nat
  deriving DecidableEq, Repr

/-- A span of bytes. -/
structure Span where
  data : Nat
  size : Nat
  deriving DecidableEq, Repr

/-- `type_info.Size() * queue_size` in std::size_t. -/
def mul (x y : Nat) : Nat := (x * y) % Arith.W

/-- GetElement (type_erased_call_queue.cpp:32-49); `none`: a precondition or AddOffsetToPointer's assertion fails. -/
def getElement (pos : Nat) (t : TypeInfo) (storage : Span) (queueSize : Nat) : Option Span :=
  if ¬ pos < queueSize then none
  else if ¬ storage.size = mul t.size queueSize then none
  else (Arith.addOffset storage.data (mul t.size pos)).map (fun p => ⟨p, t.size⟩)

/-- GetInArgValuesElementStorage (type_erased_call_queue.cpp:53-63). -/
def inArgElement (pos : Nat) (storage : Span) (info : Info) : Option Span :=
  match info.inArg with
  | none => none
  | some t => getElement pos t storage info.queueSize

/-- GetReturnValueElementStorage (type_erased_call_queue.cpp:65-75). -/
def returnElement (pos : Nat) (storage : Span) (info : Info) : Option Span :=
  match info.ret with
  | none => none
  | some t => getElement pos t storage info.queueSize

/-- A TypeErasedCallQueue object. -/
structure Queue where
  info : Info
  inArgs : Span
  returns : Span
  deriving DecidableEq, Repr

/-- One half of AllocateQueue (type_erased_call_queue.cpp:131-141 and 143-152): the storage and the new value of the allocation
counter of the shared memory object. The allocation is the single-threaded one of C54's model. -/
def allocateOne (c : ShmAlloc.Cfg) (i cur : Nat) (t? : Option TypeInfo) (queueSize : Nat) : Option (Span × Nat) :=
  match t? with
  | none => some (⟨0, 0⟩, cur)
  | some t => (ShmAlloc.compute c i cur (mul t.size queueSize) t.align).map (fun r => (⟨r.1, mul t.size queueSize⟩, r.2))

/-- The constructor (type_erased_call_queue.cpp:77-92) and AllocateQueue (128-156). -/
def construct (c : ShmAlloc.Cfg) (i cur : Nat) (info : Info) : Option (Queue × Nat) :=
  match allocateOne c i cur info.inArg info.queueSize with
  | none => none
  | some (a, cur') =>
    match allocateOne c i cur' info.ret info.queueSize with
    | none => none
    | some (r, cur'') => some (⟨info, a, r⟩, cur'')

/-- GetInArgValuesQueueStorage (type_erased_call_queue.cpp:106-113). -/
def Queue.inArgStorage (q : Queue) : Option Span := if q.info.inArg.isSome then some q.inArgs else none

/-- GetReturnValueQueueStorage (type_erased_call_queue.cpp:115-122). -/
def Queue.returnStorage (q : Queue) : Option Span := if q.info.ret.isSome then some q.returns else none

/-- Where an in-argument of call slot `pos` lives, as the proxy (proxy_method.cpp:65) and the skeleton
(skeleton_method.cpp:80-85) compute it. -/
def Queue.inArgAt (q : Queue) (pos : Nat) : Option Span := q.inArgStorage.bind (fun s => inArgElement pos s q.info)

/-- Where the return value of call slot `pos` lives (proxy_method.cpp:83, skeleton_method.cpp:87-92). -/
def Queue.returnAt (q : Queue) (pos : Nat) : Option Span := q.returnStorage.bind (fun s => returnElement pos s q.info)

end Verif.CallQueue
