import Verif.Lib.Fn
/-! The shared memory factory: Create, CreateOrOpen, Open, Remove and RemoveStaleArtefacts of SharedMemoryFactoryImpl
(/repo/score/memory/shared/shared_memory_factory_impl.cpp:67-405) on the same path, with what they use of SharedMemoryResource
(shared_memory_resource.cpp:157-234, 308-350, 499-638, 938-967, 992-1165), LockFile (lock_file.cpp:29-56, 102-126) and the registry
(memory_resource_registry.cpp:50-100).

Any number of processes. A process has one call at a time (the mutex of the factory, shared_memory_factory_impl.cpp:154, 203, 302, 349);
RemoveStaleArtefacts and destructors run beside it. Each access to a file that other processes see is a step of its own. A process can
be killed between any two steps; what it has left in the file system stays. A process that starts later has a number of its own.

Simplifications: one path, without the prefix of inter-VM memory, and no other path with the same hash; system calls fail only for the
reasons given here; the owner is determined together with opening the object; the user of the typed memory daemon runs nothing else;
access rights of the files, sizes, and anonymous memory are not modelled (C103, C81). A name is removed by shm_unlink and by the
daemon alike. -/
namespace Verif.ShmFactory

/-- What the processes are given: their users, whether a typed memory provider has been set (shared_memory_factory_impl.cpp:407-410),
and the user of the typed memory daemon. -/
structure Cfg where
  uid : Nat → Nat
  prov : Nat → Bool
  tuid : Nat

/-- A shared memory object; `made` counts the initialisations that have been finished. -/
structure Obj where
  typed : Bool
  creator : Nat
  made : Nat
  deriving DecidableEq, Repr

inductive Kind where
  | create | createOrOpen | open
  deriving DecidableEq, Repr

/-- The parameters of a call: `rw` is is_read_write of Open, `typed` is prefer_typed_memory of the others. -/
structure Call where
  kind : Kind
  rw : Bool
  typed : Bool
  allowed : Option (List Nat)
  deriving DecidableEq, Repr

/-- Where a call is. -/
inductive Pc where
  | idle
  /-- acquireLockFile, before making the lock file (shared_memory_resource.cpp:997); `again` is the second OpenImpl of CreateOrOpen. -/
  | opLock (c : Call) (again : Bool)
  /-- waitForFreeLockFile, after `k` looks at the lock file (157-179). -/
  | opWait (c : Call) (again : Bool) (k : Nat)
  /-- Before shm_open (625). -/
  | opShm (c : Call) (again : Bool)
  /-- The object does not exist; the lock file is there until the return (626-631). -/
  | opNone (c : Call) (again : Bool)
  /-- Before mapping the memory (637). -/
  | opMap (c : Call) (o : Nat) (owner : Nat)
  /-- Before the lock file is removed and the call returns (638). -/
  | opEnd (c : Call) (r : Nat)
  /-- CreateImpl, before making the lock file (512). -/
  | mkLock (c : Call)
  /-- Before making the object (521-526). -/
  | mkShm (c : Call)
  /-- The object is in typed memory; before opening it (526). -/
  | mkOpen (c : Call)
  /-- The object exists already; the lock file is there until the return (527-530). -/
  | mkBusy (c : Call)
  /-- Before mapping the memory (543). -/
  | mkMap (c : Call) (o : Nat)
  /-- Before the initialisation is finished (545-547). -/
  | mkInit (c : Call) (r : Nat)
  /-- Before the lock file is removed and the call returns (549). -/
  | mkEnd (c : Call) (r : Nat)
  deriving DecidableEq, Repr

/-- A SharedMemoryResource: the mapped object, whether it is writable, the owner it has determined, and the number of pointers the user
holds. `dying`: the last pointer has been given up and the destructor has not yet taken it from the registry (308-311). -/
structure Res where
  obj : Nat
  rw : Bool
  owner : Nat
  refs : Nat
  dying : Bool
  deriving DecidableEq, Repr

/-- Why a process has ended: it was killed; the lock file was there for 500 ms (1003-1006); the registry holds another resource of the
same path (959-966); the object made in typed memory is gone (1095-1100); RemoveStaleArtefacts of a path in use
(shared_memory_factory_impl.cpp:370-372). -/
inductive Why where
  | killed | timeout | registered | noObject | inUse
  deriving DecidableEq, Repr

/-- A process. `map` is the entry of the factory's map (weak pointers), `reg` the entry of the registry; `stale` is how far a
RemoveStaleArtefacts is: 1 before the lock file is removed, 2 before the object is. -/
structure Proc where
  over : Option Why
  pc : Pc
  map : Option Nat
  reg : Option Nat
  nres : Nat
  res : Nat → Res
  stale : Nat

/-- What a call has returned: the resource, its object, whether it is writable; none is a null pointer. -/
structure Got where
  res : Nat
  obj : Nat
  rw : Bool
  deriving DecidableEq, Repr

structure Ret where
  proc : Nat
  call : Call
  got : Option Got
  deriving DecidableEq, Repr

/-- `lock`: the lock file exists. `name`: the object that is found under the path. `log`: the returns of calls, latest first. -/
structure St where
  lock : Bool
  name : Option Nat
  nobj : Nat
  objs : Nat → Obj
  procs : Nat → Proc
  log : List Ret

inductive Op where
  /-- A thread calls Create, CreateOrOpen or Open. -/
  | call (p : Nat) (c : Call)
  /-- The call goes on; `ok`: typed memory is available. -/
  | step (p : Nat) (ok : Bool)
  /-- A pointer is given up, and the destructor has run if it was the last one. -/
  | release (p r : Nat)
  /-- A pointer is given up; the destructor has not yet run. -/
  | drop (p r : Nat)
  | destroy (p r : Nat)
  | remove (p : Nat)
  /-- RemoveStaleArtefacts begins, or goes on. -/
  | stale (p : Nat)
  | kill (p : Nat)
  deriving DecidableEq, Repr

def Proc.init : Proc :=
  { over := none, pc := .idle, map := none, reg := none, nres := 0, res := fun _ => ⟨0, false, 0, 0, false⟩, stale := 0 }

def init : St :=
  { lock := false, name := none, nobj := 0, objs := fun _ => ⟨false, 0, 0⟩, procs := fun _ => .init, log := [] }

/-- The resource the map leads to, if a pointer to it is held (GetResourceIfAlreadyOpened, shared_memory_factory_impl.cpp:103-120). -/
def Proc.found (P : Proc) : Option Nat :=
  match P.map with
  | none => none
  | some r => if (P.res r).refs = 0 then none else some r

/-- checkUidMatch and the condition before it (shared_memory_factory_impl.cpp:67-83, 169-179, 331-341); Create has no such check. -/
def admits (cfg : Cfg) (p : Nat) (c : Call) (owner : Nat) : Bool :=
  match c.kind, c.allowed with
  | .create, _ => true
  | _, none => true
  | _, some l => owner == cfg.uid p || l.contains owner

/-- The provider of typed memory that a call uses (shared_memory_factory_impl.cpp:158, 211-226, 307-321). -/
def provider (cfg : Cfg) (p : Nat) (c : Call) : Bool :=
  match c.kind with
  | .open => cfg.prov p
  | _ => c.typed && cfg.prov p

/-- GetShmObjectStatInfo (shared_memory_resource.cpp:199-234): the user the object belongs to; for an object in typed memory that is
the daemon, which is asked for the creator if the process has a provider. -/
def ownerOf (cfg : Cfg) (p : Nat) (c : Call) (o : Obj) : Nat :=
  if o.typed && !provider cfg p c then cfg.tuid else cfg.uid o.creator

/-- The process goes on at `pc`. -/
def goto (s : St) (p : Nat) (pc : Pc) : St :=
  { s with procs := upd s.procs p { s.procs p with pc := pc } }

def finish (s : St) (p : Nat) (w : Why) : St :=
  { s with procs := upd s.procs p { s.procs p with over := some w } }

/-- A call returns a null pointer before it has made a resource. -/
def refuse (s : St) (p : Nat) (c : Call) : St :=
  { s with procs := upd s.procs p { s.procs p with pc := .idle }, log := ⟨p, c, none⟩ :: s.log }

/-- A call returns a null pointer; the destructor of its resource takes the entry of the path from the registry, whatever it is
(shared_memory_resource.cpp:308-311, memory_resource_registry.cpp:86-100). -/
def fail (s : St) (p : Nat) (c : Call) : St :=
  { s with procs := upd s.procs p { s.procs p with pc := .idle, reg := none }, log := ⟨p, c, none⟩ :: s.log }

/-- A call returns another pointer to resource `r`. -/
def give (s : St) (p : Nat) (c : Call) (r : Nat) : St :=
  let R := (s.procs p).res r
  { s with
    procs := upd s.procs p { s.procs p with pc := .idle, map := some r, res := upd (s.procs p).res r { R with refs := R.refs + 1 } }
    log := ⟨p, c, some ⟨r, R.obj, R.rw⟩⟩ :: s.log }

/-- The resource of a call is complete: it is entered into the map, and given to the caller if its owner is allowed, otherwise destroyed
(shared_memory_factory_impl.cpp:165-181, 234-235, 328-344). -/
def complete (cfg : Cfg) (s : St) (p : Nat) (c : Call) (r : Nat) : St :=
  if admits cfg p c ((s.procs p).res r).owner then give s p c r
  else
    { s with
      procs := upd s.procs p { s.procs p with pc := .idle, map := some r, reg := none }
      log := ⟨p, c, none⟩ :: s.log }

/-- mapMemoryIntoProcess (shared_memory_resource.cpp:938-967): a new resource, entered into the registry; an entry of the same path that
is there already ends the process (memory_resource_registry.cpp:50-84). -/
def mapInto (s : St) (p : Nat) (o owner : Nat) (rw : Bool) (next : Nat → Pc) : St :=
  let P := s.procs p
  match P.reg with
  | some _ => finish s p .registered
  | none =>
    { s with
      procs := upd s.procs p
        { P with reg := some P.nres, nres := P.nres + 1, res := upd P.res P.nres ⟨o, rw, owner, 0, false⟩, pc := next P.nres } }

/-- The beginning of Create, CreateOrOpen and Open (shared_memory_factory_impl.cpp:154-157, 203-209, 213-226, 302-321). -/
def begin (cfg : Cfg) (s : St) (p : Nat) (c : Call) : St :=
  let P := s.procs p
  match P.found with
  | some r =>
    match c.kind with
    | .create => refuse s p c
    | _ => if admits cfg p c (P.res r).owner then give s p c r else refuse s p c
  | none =>
    let s := { s with procs := upd s.procs p { P with map := none } }
    match c.kind with
    | .open => goto s p (.opLock c false)
    | .create => if c.typed && !cfg.prov p then refuse s p c else goto s p (.mkLock c)
    | .createOrOpen => if c.typed && !cfg.prov p then refuse s p c else goto s p (.opLock c false)

/-- The end of CreateImpl with an error: CreateOrOpen tries to open the object again (shared_memory_resource.cpp:562-592), Create
fails. -/
def notMade (s : St) (p : Nat) (c : Call) : St :=
  match c.kind with
  | .createOrOpen => goto s p (.opLock c true)
  | _ => fail s p c

/-- The next step of a call. -/
def advance (cfg : Cfg) (s : St) (p : Nat) (ok : Bool) : St :=
  match (s.procs p).pc with
  | .idle => s
  -- acquireLockFile (shared_memory_resource.cpp:992-1011)
  | .opLock c a => if s.lock then goto s p (.opWait c a 0) else goto { s with lock := true } p (.opShm c a)
  -- waitForFreeLockFile (157-179): 51 looks
  | .opWait c a k =>
    if s.lock then (if k < 50 then goto s p (.opWait c a (k + 1)) else finish s p .timeout) else goto s p (.opLock c a)
  -- acquireLockAndOpenSharedMemory (616-639)
  | .opShm c a =>
    match s.name with
    | none => goto s p (.opNone c a)
    | some o => goto s p (.opMap c o (ownerOf cfg p c (s.objs o)))
  | .opNone c a =>
    let s := { s with lock := false }
    if c.kind = .createOrOpen ∧ a = false then goto s p (.mkLock c) else fail s p c
  | .opMap c o w => mapInto s p o w (c.kind != .open || c.rw) (.opEnd c)
  | .opEnd c r => complete cfg { s with lock := false } p c r
  -- CreateImpl (499-550)
  | .mkLock c => if s.lock then notMade s p c else goto { s with lock := true } p (.mkShm c)
  | .mkShm c =>
    match s.name with
    | some _ => goto s p (.mkBusy c)
    | none =>
      let t := provider cfg p c && ok
      let s := { s with name := some s.nobj, nobj := s.nobj + 1, objs := upd s.objs s.nobj ⟨t, p, 0⟩ }
      goto s p (if t then .mkOpen c else .mkMap c (s.nobj - 1))
  | .mkOpen c =>
    match s.name with
    | none => finish s p .noObject
    | some o => goto s p (.mkMap c o)
  | .mkBusy c => notMade { s with lock := false } p c
  | .mkMap c o => mapInto s p o (cfg.uid (s.objs o).creator) true (.mkInit c)
  | .mkInit c r =>
    let o := ((s.procs p).res r).obj
    goto { s with objs := upd s.objs o { s.objs o with made := (s.objs o).made + 1 } } p (.mkEnd c r)
  | .mkEnd c r => complete cfg { s with lock := false } p c r

/-- A pointer to resource `r` is given up (the destructor: shared_memory_resource.cpp:308-322). -/
def giveUp (s : St) (p r : Nat) (now : Bool) : St :=
  let P := s.procs p
  let R := P.res r
  if R.refs = 0 then s
  else if R.refs = 1 then
    { s with
      procs := upd s.procs p
        { P with res := upd P.res r { R with refs := 0, dying := !now }, reg := if now then none else P.reg } }
  else { s with procs := upd s.procs p { P with res := upd P.res r { R with refs := R.refs - 1 } } }

/-- The rest of a destructor. -/
def destroy (s : St) (p r : Nat) : St :=
  let P := s.procs p
  if (P.res r).dying then
    { s with procs := upd s.procs p { P with res := upd P.res r { P.res r with dying := false }, reg := none } }
  else s

/-- Remove (shared_memory_factory_impl.cpp:347-362) and UnlinkFilesystemEntry (shared_memory_resource.cpp:325-350). -/
def remove (s : St) (p : Nat) : St :=
  match (s.procs p).found with
  | none => { s with procs := upd s.procs p { s.procs p with map := none } }
  | some _ => { s with name := none, procs := upd s.procs p { s.procs p with map := none } }

/-- RemoveStaleArtefacts (shared_memory_factory_impl.cpp:364-405). -/
def stale (s : St) (p : Nat) : St :=
  let P := s.procs p
  match P.stale with
  | 0 =>
    if P.pc ≠ .idle then s
    else if P.found.isSome then finish s p .inUse
    else { s with procs := upd s.procs p { P with map := none, stale := 1 } }
  | 1 => { s with lock := false, procs := upd s.procs p { P with stale := 2 } }
  | _ => { s with name := none, procs := upd s.procs p { P with stale := 0 } }

/-- A process that has ended does nothing; a call or Remove waits while another call is under way (the mutex). -/
def step (cfg : Cfg) (s : St) : Op → St
  | .call p c => if (s.procs p).over.isSome ∨ (s.procs p).pc ≠ .idle then s else begin cfg s p c
  | .step p ok => if (s.procs p).over.isSome then s else advance cfg s p ok
  | .release p r => if (s.procs p).over.isSome then s else giveUp s p r true
  | .drop p r => if (s.procs p).over.isSome then s else giveUp s p r false
  | .destroy p r => if (s.procs p).over.isSome then s else destroy s p r
  | .remove p => if (s.procs p).over.isSome ∨ (s.procs p).pc ≠ .idle then s else remove s p
  | .stale p => if (s.procs p).over.isSome then s else stale s p
  | .kill p => if (s.procs p).over.isSome then s else finish s p .killed

def run (cfg : Cfg) (s : St) (ops : List Op) : St := ops.foldl (step cfg) s

end Verif.ShmFactory
