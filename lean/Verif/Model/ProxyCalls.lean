import Verif.Lib.Fn
/-! Method calls on the consumer's side: the positions of a method's call queue and the pointers to the arguments and results that
are handed out to the application (/repo/score/mw/com/impl/methods). One method of one proxy, used by one thread (the class is not
thread safe). Any number of positions, arguments and pointers; in the code the number of positions is the constant 1
(proxy_method_base.h:82).

A value of any type is a number. Not modelled: moving a proxy, the missing binding (every operation returns an error), and pointers
of one method that are handed to another one. -/
namespace Verif.ProxyCalls

/-- What a pointer can point to: an argument or the result. -/
inductive Cell where
  | arg (i : Nat)
  | ret
  deriving DecidableEq, Repr

/-- MethodSignatureElementPtr (method_signature_element_ptr.h:25-106), used for arguments (MethodInArgPtr) and results
(MethodReturnTypePtr): `owns` is `element_ptr_ != nullptr`, which is false once the pointer has been moved from. `seen` is a ghost:
the value that the application has last read or written through it. -/
structure Ptr where
  cell : Cell
  pos : Nat
  owns : Bool
  seen : Nat
  deriving DecidableEq, Repr

structure Cfg where
  /-- The size of the call queue. -/
  n : Nat
  /-- The number of arguments. -/
  k : Nat
  /-- Does the method have a result? -/
  hasRet : Bool
  deriving DecidableEq, Repr

/-- What can be observed (ghost). -/
inductive Ev where
  /-- Storage for the arguments has been handed out. -/
  | allocated (pos : Nat)
  /-- kCallQueueFull has been returned. -/
  | full
  /-- The binding's DoCall has been invoked with these arguments in the storage. -/
  | called (pos : Nat) (args : List Nat)
  deriving DecidableEq, Repr

structure St where
  /-- are_in_arg_ptrs_active_ (position, argument). -/
  argFlag : Nat → Nat → Bool
  /-- is_return_type_ptr_active_. -/
  retFlag : Nat → Bool
  /-- The storage. -/
  argVal : Nat → Nat → Nat
  retVal : Nat → Nat
  /-- The pointer objects of the application. -/
  ptr : Nat → Option Ptr
  next : Nat
  /-- A failed assertion or an access through a null pointer. -/
  dead : Bool
  log : List Ev

def init : St := ⟨fun _ _ => false, fun _ => false, fun _ _ => 0, fun _ => 0, fun _ => none, 0, false, []⟩

def St.flag (s : St) : Cell → Nat → Bool
  | .arg i, pos => s.argFlag pos i
  | .ret, pos => s.retFlag pos

def St.setFlag (s : St) (b : Bool) : Cell → Nat → St
  | .arg i, pos => { s with argFlag := upd s.argFlag pos (upd (s.argFlag pos) i b) }
  | .ret, pos => { s with retFlag := upd s.retFlag pos b }

def St.val (s : St) : Cell → Nat → Nat
  | .arg i, pos => s.argVal pos i
  | .ret, pos => s.retVal pos

def St.setVal (s : St) (v : Nat) : Cell → Nat → St
  | .arg i, pos => { s with argVal := upd s.argVal pos (upd (s.argVal pos) i v) }
  | .ret, pos => { s with retVal := upd s.retVal pos v }

/-- The constructor (method_signature_element_ptr.h:30-34). -/
def create (s : St) (cell : Cell) (pos : Nat) : St :=
  let s' := s.setFlag true cell pos
  { s' with ptr := upd s'.ptr s'.next (some ⟨cell, pos, true, s.val cell pos⟩), next := s'.next + 1 }

/-- The end of a pointer that was moved out of object `id`, which stays with the application as a moved-from one: the move
constructor (57-61) and the destructor (67-73). -/
def release (s : St) (id : Nat) : St :=
  match s.ptr id with
  | some p =>
    if p.owns then
      let s' := s.setFlag false p.cell p.pos
      { s' with ptr := upd s'.ptr id (some { p with owns := false }) }
    else s
  | none => s

def releaseAll (s : St) : List Nat → St
  | [] => s
  | id :: ids => releaseAll (release s id) ids

/-- DetermineNextAvailableQueueSlot (proxy_method.h:79-98; proxy_method.cpp:18-28 if there are no arguments). -/
def free (c : Cfg) (s : St) (pos : Nat) : Bool := (List.range c.k).all (fun i => !s.argFlag pos i) && !s.retFlag pos

def findSlot (c : Cfg) (s : St) : Option Nat := (List.range c.n).find? (free c s)

/-- CreateMethodInArgPtrTuple (proxy_method.h:111-120). -/
def createArgs (s : St) (pos : Nat) : List Nat → St
  | [] => s
  | i :: is => createArgs (create s (.arg i) pos) pos is

/-- AllocateImpl (proxy_method.h:127-148). `buf`: the binding has the buffer (the method is subscribed). -/
def allocate (c : Cfg) (s : St) (buf : Bool) : St :=
  match findSlot c s with
  | none => { s with log := .full :: s.log }
  | some pos =>
    if buf then createArgs { s with log := .allocated pos :: s.log } pos (List.range c.k) else s

/-- GetCommonQueuePosition (proxy_method.h:228-249): `none` is the failed assertion. -/
def commonPos : List Ptr → Option Nat
  | [] => none
  | p :: ps => if ps.all (fun q => q.pos == p.pos) then some p.pos else none

/-- What the binding does: has it the buffer for the result (if it is asked), does DoCall succeed, and what has the provider written
as the result, if anything. -/
structure Bind where
  buf : Bool
  ok : Bool
  wrote : Option Nat
  deriving DecidableEq, Repr

/-- binding_->DoCall. -/
def doCall (c : Cfg) (s : St) (pos : Nat) (b : Bind) : St :=
  { s with
    log := .called pos ((List.range c.k).map (s.argVal pos)) :: s.log,
    retVal := match b.wrote with
      | some v => if c.hasRet then upd s.retVal pos v else s.retVal
      | none => s.retVal }

/-- The end of the call operators: the buffer for the result, DoCall, the result's pointer
(proxy_method_with_in_args_and_return.h:191-214, proxy_method_with_in_args.h:152-171, proxy_method_with_return_type.h:130-156). -/
def callAt (c : Cfg) (s : St) (pos : Nat) (b : Bind) : St :=
  if c.hasRet && !b.buf then s
  else
    let s' := doCall c s pos b
    if b.ok && c.hasRet then create s' .ret pos else s'

/-- The call operator that takes pointers to the arguments. The parameters, moved out of the application's objects, end at the end of
the call. -/
def call (c : Cfg) (s : St) (ids : List Nat) (b : Bind) : St :=
  match ids.mapM s.ptr with
  | none => s
  | some ps =>
    match commonPos ps with
    | none => { s with dead := true }
    | some pos => releaseAll (callAt c s pos b) ids

def writeArgs (s : St) (pos : Nat) : Nat → List Nat → St
  | _, [] => s
  | i, v :: vs => writeArgs (s.setVal v (.arg i) pos) pos (i + 1) vs

/-- The call operator that copies the arguments (proxy_method_with_in_args_and_return.h:157-181,
proxy_method_with_in_args.h:126-149): allocate, copy, call the other one. The pointers live only inside of it, so they are not
created here. -/
def callCopy (c : Cfg) (s : St) (vals : List Nat) (inBuf : Bool) (b : Bind) : St :=
  match findSlot c s with
  | none => { s with log := .full :: s.log }
  | some pos => if inBuf then callAt c (writeArgs s pos 0 vals) pos b else s

/-- The call operator without arguments (proxy_method_with_return_type.h:115-157). -/
def callNoArgs (c : Cfg) (s : St) (b : Bind) : St :=
  match findSlot c s with
  | none => { s with log := .full :: s.log }
  | some pos => callAt c s pos b

inductive Op where
  | allocate (buf : Bool)
  | call (ids : List Nat) (b : Bind)
  | callCopy (vals : List Nat) (inBuf : Bool) (b : Bind)
  | callNoArgs (b : Bind)
  /-- `*p = v`. -/
  | write (id v : Nat)
  /-- A new pointer is constructed from this one by move; also the conversion of a field's result
  (method_signature_element_ptr.h:42-47). -/
  | move (id : Nat)
  /-- A pointer's life ends. -/
  | drop (id : Nat)
  deriving DecidableEq, Repr

def stepCore (c : Cfg) (s : St) : Op → St
  | .allocate buf => allocate c s buf
  | .call ids b => call c s ids b
  | .callCopy vals inBuf b => callCopy c s vals inBuf b
  | .callNoArgs b => callNoArgs c s b
  | .write id v =>
    match s.ptr id with
    | none => s
    | some p =>
      if p.owns then
        let s' := s.setVal v p.cell p.pos
        { s' with ptr := upd s'.ptr id (some { p with seen := v }) }
      else { s with dead := true }
  | .move id =>
    match s.ptr id with
    | none => s
    | some p => { s with ptr := upd (upd s.ptr id (some { p with owns := false })) s.next (some p), next := s.next + 1 }
  | .drop id => let s' := release s id; { s' with ptr := upd s'.ptr id none }

def step (c : Cfg) (s : St) (o : Op) : St := if s.dead then s else stepCore c s o

def run (c : Cfg) (s : St) : List Op → St
  | [] => s
  | o :: os => run c (step c s o) os

end Verif.ProxyCalls
