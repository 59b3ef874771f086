import Verif.Lib.Fn
/-! The shared memory of a service instance, from offering to stopping, and the connection of consumers to it:
Skeleton::PrepareOffer and PrepareStopOffer (/repo/score/mw/com/impl/bindings/lola/skeleton.cpp:120-188, 290-370, 478-520),
SkeletonMemoryManager (skeleton_memory_manager.cpp:157-218, 342-369, 690-884), Proxy::Create and ~Proxy (proxy.cpp:113-150, 166-199,
355-430; order of the members: proxy.h:230-246), SharedMemoryFactoryImpl (/repo/score/memory/shared/shared_memory_factory_impl.cpp:
85-101, 141-181, 183-230, 347-405), SharedMemoryResource::CreateImpl, OpenImpl and acquireLockFile
(shared_memory_resource.cpp:499-547, 595-638, 992-1032) and LockFile (lock_file.cpp:60-126).

One service instance with one provider at a time (property C77), which can end and be replaced, in the same or another process, and
any number `n` of consumers. Each file operation is a step, which can fail; processes can end between any two steps. The usage marker
file is its inode: unlinking removes the name only, and locks stay with the inode. A shared memory object is its number; unlinking
removes the name only.

Simplifications: there are two memory objects, control and data (an ASIL-B provider has a second control object, which is created
and opened the same way); opening a marker file and setting its permissions succeed or fail together; CreateImpl fails only when it
makes the lock file or the object (a later failure ends the process); typed memory and services forwarded by a gateway are not
modelled; the existence marker is not modelled (C77); a consumer's transaction logs and the registration of method handlers appear
only as something that can fail; releasing the memory and the lock of a consumer whose creation failed is one step (the memory is
released first). The mutex of the factory does not matter: within a process two threads at the same part exclude each other by the
lock file anyway. -/
namespace Verif.ShmLife

inductive Part where
  | ctl | dat
  deriving DecidableEq, Repr

def setP {α : Type} (f : Part → α) (p : Part) (v : α) : Part → α := fun q => if q = p then v else f q

/-- Where the provider is. -/
inductive SPc where
  /-- There is no skeleton object. -/
  | none
  /-- Not offered. -/
  | idle
  | offered
  /-- PrepareOffer: before opening or making the usage marker file (skeleton.cpp:297-304). -/
  | oOpen
  /-- Before trying to lock it exclusively (306-309). -/
  | oTry
  /-- RemoveStaleArtefacts of a part: the check and the lock file (shared_memory_factory_impl.cpp:367-375), then the object (387). -/
  | oStaleL (p : Part)
  | oStaleS (p : Part)
  /-- Creating a part: the lock file, the object, its contents (shared_memory_resource.cpp:512, 526, 543-547). -/
  | oMk (p : Part)
  | oShm (p : Part)
  | oInit (p : Part) (o : Nat)
  /-- Opening a part that is in use: the lock file, the object (shared_memory_resource.cpp:622-626). -/
  | rLk (p : Part)
  | rShm (p : Part)
  /-- The rest of PrepareOffer: the lock is released (skeleton.cpp:306). -/
  | oEnd
  /-- PrepareStopOffer: before trying to lock the usage marker file (478-481). -/
  | sTry
  /-- Removing a part (skeleton_memory_manager.cpp:350-352). -/
  | sRm (p : Part)
  /-- Unlocking and closing the marker file, removing its name (skeleton.cpp:505-507). -/
  | sUnlock
  | sUnlink
  deriving DecidableEq, Repr

/-- Where a consumer is. -/
inductive PPc where
  | none
  /-- The usage marker file is open; `k` attempts to lock it have failed (proxy.cpp:113-150). -/
  | pTry (k : Nat)
  /-- Opening a part: the lock file, the object. -/
  | pLk (p : Part)
  | pShm (p : Part)
  /-- The rest of Create. -/
  | pEnd
  /-- Create has returned the proxy. -/
  | conn
  /-- In the destructor: the marker file is unlocked, the memory is not yet released (proxy.h:230-246, in reverse order). -/
  | gone
  deriving DecidableEq, Repr

structure Sk where
  pc : SPc
  /-- The process of the skeleton object. -/
  proc : Nat
  /-- service_instance_usage_marker_file_, and whether it is locked. -/
  u : Option Nat
  lk : Bool
  /-- control_qm_resource_ and storage_resource_. -/
  held : Part → Option Nat

structure Px where
  pc : PPc
  u : Option Nat
  lk : Bool
  held : Part → Option Nat

structure St where
  /-- The inode that the path of the usage marker file names. -/
  usage : Option Nat
  /-- The objects that the paths of the memory name. -/
  shm : Part → Option Nat
  /-- The lock files exist. -/
  lockf : Part → Bool
  /-- The contents of an object are initialised. -/
  ready : Nat → Bool
  fresh : Nat
  /-- resources_ of the factory of each process. -/
  cache : Nat → Part → Option Nat
  sk : Sk
  px : Nat → Px
  /-- The library has ended this process (history). -/
  ended : Nat → Bool

def noSk : Sk := ⟨.none, 0, .none, false, fun _ => .none⟩
def noPx : Px := ⟨.none, .none, false, fun _ => .none⟩

def init : St :=
  ⟨none, fun _ => none, fun _ => false, fun _ => false, 0, fun _ _ => none, noSk, fun _ => noPx, fun _ => false⟩

/-- `n` consumers; `proc x` is the process of consumer `x`. -/
structure Cfg where
  n : Nat
  proc : Nat → Nat

/-- Process `q` ends: its objects are gone and their locks are released, files stay. -/
def crash (c : Cfg) (s : St) (q : Nat) : St :=
  { s with
    cache := upd s.cache q (fun _ => none)
    sk := if s.sk.proc = q then noSk else s.sk
    px := fun x => if c.proc x = q then noPx else s.px x }

/-- The library ends process `q`. -/
def terminate (c : Cfg) (s : St) (q : Nat) : St := crash c { s with ended := upd s.ended q true } q

/-- An object of process `q` holds memory object `o`. -/
def live (c : Cfg) (s : St) (q : Nat) (p : Part) (o : Nat) : Bool :=
  (decide (s.sk.proc = q) && s.sk.held p == some o) ||
    (List.range c.n).any (fun x => decide (c.proc x = q) && (s.px x).held p == some o)

/-- GetResourceIfAlreadyOpened (shared_memory_factory_impl.cpp:85-101). -/
def cached (c : Cfg) (s : St) (q : Nat) (p : Part) : Option Nat :=
  match s.cache q p with
  | some o => if live c s q p o then some o else none
  | none => none

def setCache (s : St) (q : Nat) (p : Part) (v : Option Nat) : Nat → Part → Option Nat := upd s.cache q (setP (s.cache q) p v)

/-- A consumer has locked the file that the provider has opened. -/
def inUse (c : Cfg) (s : St) : Bool := (List.range c.n).any (fun x => (s.px x).lk && (s.px x).u == s.sk.u)

/-- PrepareOffer returns an error: the lock is released. -/
def failOffer (s : St) (p : Part) : St :=
  { s with sk := { s.sk with pc := .idle, lk := false, held := setP s.sk.held p none } }

/-- The next step of the provider; `ok`: the operation succeeds, or waiting goes on. -/
def skNext (c : Cfg) (s : St) (ok : Bool) : St :=
  let q := s.sk.proc
  match s.sk.pc with
  | .oOpen =>
    if ok then
      match s.usage with
      | some i => { s with sk := { s.sk with pc := .oTry, u := some i } }
      | none => { s with usage := some s.fresh, fresh := s.fresh + 1, sk := { s.sk with pc := .oTry, u := some s.fresh } }
    else { s with sk := { s.sk with pc := .idle, u := none } }
  | .oTry =>
    if inUse c s then { s with sk := { s.sk with pc := .rLk .ctl } }
    else { s with sk := { s.sk with pc := .oStaleL .ctl, lk := true } }
  | .oStaleL p =>
    if (cached c s q p).isSome then terminate c s q
    else { s with lockf := setP s.lockf p false, sk := { s.sk with pc := .oStaleS p } }
  | .oStaleS .ctl => { s with shm := setP s.shm .ctl none, sk := { s.sk with pc := .oStaleL .dat } }
  | .oStaleS .dat => { s with shm := setP s.shm .dat none, sk := { s.sk with pc := .oMk .ctl } }
  | .oMk p =>
    if (cached c s q p).isSome || s.lockf p || !ok then failOffer s p
    else { s with lockf := setP s.lockf p true, sk := { s.sk with pc := .oShm p } }
  | .oShm p =>
    if (s.shm p).isSome || !ok then failOffer { s with lockf := setP s.lockf p false } p
    else { s with shm := setP s.shm p (some s.fresh), fresh := s.fresh + 1, sk := { s.sk with pc := .oInit p s.fresh } }
  | .oInit p o =>
    { s with
      ready := upd s.ready o true, lockf := setP s.lockf p false, cache := setCache s q p (some o)
      sk := { s.sk with held := setP s.sk.held p (some o), pc := match p with
        | .ctl => .oMk .dat
        | .dat => .oEnd } }
  | .rLk p =>
    match cached c s q p with
    | some o =>
      { s with sk := { s.sk with held := setP s.sk.held p (some o), pc := match p with
        | .ctl => .rLk .dat
        | .dat => .oEnd } }
    | none =>
      if s.lockf p then if ok then s else terminate c s q
      else { s with lockf := setP s.lockf p true, sk := { s.sk with pc := .rShm p } }
  | .rShm p =>
    match s.shm p, ok with
    | some o, true =>
      { s with
        lockf := setP s.lockf p false, cache := setCache s q p (some o)
        sk := { s.sk with held := setP s.sk.held p (some o), pc := match p with
          | .ctl => .rLk .dat
          | .dat => .oEnd } }
    | _, _ => failOffer { s with lockf := setP s.lockf p false } p
  | .oEnd => { s with sk := { s.sk with lk := false, pc := if ok then .offered else .idle } }
  | .sTry =>
    if inUse c s then { s with sk := { s.sk with pc := .idle } }
    else { s with sk := { s.sk with pc := .sRm .ctl, lk := true } }
  | .sRm .ctl =>
    if (cached c s q .ctl).isSome then
      { s with cache := setCache s q .ctl none, shm := setP s.shm .ctl none, sk := { s.sk with pc := .sRm .dat } }
    else { s with sk := { s.sk with pc := .sRm .dat } }
  | .sRm .dat =>
    if (cached c s q .dat).isSome then
      { s with
        cache := setCache s q .dat none, shm := setP s.shm .dat none
        sk := { s.sk with held := fun _ => none, pc := .sUnlock } }
    else { s with sk := { s.sk with held := fun _ => none, pc := .sUnlock } }
  | .sUnlock => { s with sk := { s.sk with lk := false, u := none, pc := .sUnlink } }
  | .sUnlink => { s with usage := none, sk := { s.sk with pc := .idle } }
  | .none | .idle | .offered => s

/-- The next step of consumer `x`; `ok`: the operation succeeds, or waiting goes on. -/
def pxNext (c : Cfg) (s : St) (x : Nat) (ok : Bool) : St :=
  let q := c.proc x
  let a := s.px x
  match a.pc with
  | .pTry k =>
    if s.sk.lk && s.sk.u == a.u then
      if k + 1 ≥ 3 then { s with px := upd s.px x noPx } else { s with px := upd s.px x { a with pc := .pTry (k + 1) } }
    else { s with px := upd s.px x { a with pc := .pLk .ctl, lk := true } }
  | .pLk p =>
    match cached c s q p with
    | some o =>
      { s with px := upd s.px x { a with held := setP a.held p (some o), pc := match p with
        | .ctl => .pLk .dat
        | .dat => .pEnd } }
    | none =>
      if s.lockf p then if ok then s else terminate c s q
      else { s with lockf := setP s.lockf p true, px := upd s.px x { a with pc := .pShm p } }
  | .pShm p =>
    match s.shm p, ok with
    | some o, true =>
      { s with
        lockf := setP s.lockf p false, cache := setCache s q p (some o)
        px := upd s.px x { a with held := setP a.held p (some o), pc := match p with
          | .ctl => .pLk .dat
          | .dat => .pEnd } }
    | _, _ => { s with lockf := setP s.lockf p false, px := upd s.px x noPx }
  | .pEnd => if ok then { s with px := upd s.px x { a with pc := .conn } } else { s with px := upd s.px x noPx }
  | .gone => { s with px := upd s.px x noPx }
  | .none | .conn => s

inductive Op where
  /-- Skeleton::Create in process `q`. -/
  | skCreate (q : Nat)
  /-- OfferService, StopOfferService and the destructor of the skeleton. -/
  | skOffer
  | skStop
  | skDestroy
  | skNext (ok : Bool)
  /-- Proxy::Create opens the usage marker file; `ok`: no error. -/
  | pxStart (x : Nat) (ok : Bool)
  /-- The destructor of the proxy begins. -/
  | pxDestroy (x : Nat)
  | pxNext (x : Nat) (ok : Bool)
  | crash (q : Nat)
  deriving DecidableEq, Repr

def step (c : Cfg) (s : St) : Op → St
  | .skCreate q => if s.sk.pc = .none then { s with sk := { noSk with pc := .idle, proc := q } } else s
  | .skOffer => if s.sk.pc = .idle then { s with sk := { s.sk with pc := .oOpen } } else s
  | .skStop => if s.sk.pc = .offered then { s with sk := { s.sk with pc := .sTry } } else s
  | .skDestroy => if s.sk.pc = .idle then { s with sk := noSk } else s
  | .skNext ok => skNext c s ok
  | .pxStart x ok =>
    match s.usage, ok with
    | some i, true =>
      if x < c.n ∧ (s.px x).pc = .none then { s with px := upd s.px x { noPx with pc := .pTry 0, u := some i } } else s
    | _, _ => s
  | .pxDestroy x =>
    if (s.px x).pc = .conn then { s with px := upd s.px x { s.px x with pc := .gone, lk := false, u := none } } else s
  | .pxNext x ok => pxNext c s x ok
  | .crash q => crash c s q

def run (c : Cfg) (s : St) (ops : List Op) : St := ops.foldl (step c) s

end Verif.ShmLife
