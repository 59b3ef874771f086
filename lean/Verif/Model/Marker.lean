import Verif.Lib.Fn
/-! The marker file with which a skeleton object claims a service instance: Skeleton::Create and the end of Skeleton::~Skeleton
(/repo/score/mw/com/impl/bindings/lola/skeleton.cpp:104-119, 196-241; order of the members: skeleton.h:251-255), with LockFile
(/repo/score/memory/shared/lock_file.cpp:60-83, 105-126) and flock (flock/flock_mutex.cpp:46-60).

One service instance; any number of skeleton objects in any number of processes. Each file operation is a step. A file is its inode:
unlinking removes the name only, and the locks stay with the inode. Simplifications: the directory exists; opening the file and
setting its permissions succeed or fail together; what else the constructor and destructor do is not modelled; a lock that fails for
another reason than that it is taken (std::terminate) is an end of the process. -/
namespace Verif.Marker

inductive Pc where
  | none
  /-- In Create: the file is open, not yet locked. -/
  | opened (i : Nat)
  /-- The object exists and has locked the file with this inode. -/
  | up (i : Nat)
  /-- In the destructor: the file is unlocked, its name is not yet removed. -/
  | unlocked
  deriving DecidableEq, Repr

structure St where
  /-- The inode that the path names. -/
  path : Option Nat
  fresh : Nat
  /-- Who has locked an inode exclusively. -/
  lock : Nat → Option Nat
  pc : Nat → Pc

def init : St := ⟨.none, 0, fun _ => .none, fun _ => .none⟩

inductive Op where
  /-- Create opens the file, or makes it; `ok`: no error (skeleton.cpp:213-220, lock_file.cpp:60-83). -/
  | open (k : Nat) (ok : Bool)
  /-- Create tries to lock it (skeleton.cpp:221-230) and becomes its owner (235). -/
  | tryLock (k : Nat)
  /-- The destructor of the object begins: it unlocks the file (skeleton.h:255, the last member is destroyed first). -/
  | unlock (k : Nat)
  /-- The destructor of the file removes its name (skeleton.h:251, lock_file.cpp:105-121). -/
  | unlink (k : Nat)
  /-- Process `p` ends. -/
  | crash (p : Nat)
  deriving DecidableEq, Repr

/-- `c k` is the process of object `k`. -/
def step (c : Nat → Nat) (s : St) : Op → St
  | .open k ok =>
    match s.pc k, ok with
    | .none, true =>
      match s.path with
      | some i => { s with pc := upd s.pc k (.opened i) }
      | none => { s with path := some s.fresh, fresh := s.fresh + 1, pc := upd s.pc k (.opened s.fresh) }
    | _, _ => s
  | .tryLock k =>
    match s.pc k with
    | .opened i =>
      match s.lock i with
      | some _ => { s with pc := upd s.pc k .none }
      | none => { s with lock := upd s.lock i (some k), pc := upd s.pc k (.up i) }
    | _ => s
  | .unlock k =>
    match s.pc k with
    | .up i => { s with lock := upd s.lock i .none, pc := upd s.pc k .unlocked }
    | _ => s
  | .unlink k =>
    match s.pc k with
    | .unlocked => { s with path := .none, pc := upd s.pc k .none }
    | _ => s
  | .crash p =>
    { s with
      lock := fun i => match s.lock i with
        | some k => if c k = p then .none else some k
        | none => .none
      pc := fun k => if c k = p then .none else s.pc k }

def run (c : Nat → Nat) (s : St) (ops : List Op) : St := ops.foldl (step c) s

end Verif.Marker
