import Verif.Lib.Fn
/-!
Interleaving model of `ApplicationIdPidMapping::RegisterPid` (lola/application_id_pid_mapping.cpp:34-141,
application_id_pid_mapping_entry.cpp:20-65).

Any number of applications, one process of each alive at a time (that is the documented precondition of the
mapping), register concurrently on one shared array. Each access to the atomic key and each access to `pid_` is one
step. Processes may die at any step and be restarted with a new pid. Sequential consistency.

Simplification: the 64 bit key is a pair (status, application id); that the packing is lossless is proved
separately about `createKey`.
-/
namespace Verif.PidMap
open Verif

/-- MappingEntryStatus (application_id_pid_mapping_entry.h:36-42). -/
inductive Status where
  | unused
  | used
  | updating
  deriving DecidableEq, Repr

/-- Value of the enumerator. -/
def Status.val : Status → BitVec 16
  | .unused => 0
  | .used => 1
  | .updating => 2

/-- CreateKey (application_id_pid_mapping_entry.cpp:55-62). -/
def createKey (st : BitVec 16) (id : BitVec 32) : BitVec 64 := (st.setWidth 64 <<< 32) ||| id.setWidth 64

/-- Status part of GetStatusAndApplicationIdAtomic (…:20-44). -/
def keyStatus (k : BitVec 64) : BitVec 16 := ((k >>> 32) &&& 0x000000000000FFFF#64).setWidth 16

/-- Application id part of GetStatusAndApplicationIdAtomic (…:20-44). -/
def keyId (k : BitVec 64) : BitVec 32 := (k &&& 0x00000000FFFFFFFF#64).setWidth 32

/-- What the process of an application is doing. -/
inductive Pc where
  | idle
  /-- loop of TryUpdatePidForExistingId, about to load key `i` (application_id_pid_mapping.cpp:50-56) -/
  | find (i : Nat)
  /-- entry is ours and used: about to read the old pid (…:62) -/
  | readOld (i : Nat)
  /-- about to store the pid (…:63) -/
  | writeOver (i old : Nat)
  /-- entry is ours but in update: about to store the pid (…:74) -/
  | takeWrite (i : Nat)
  /-- about to store the key (…:75) -/
  | takeKey (i : Nat)
  /-- loop of RegisterPid, pass `retry`, about to load key `i` (…:105-120) -/
  | scan (retry i : Nat)
  /-- key `i` was unused with this id part, about to do the CAS (…:122-129) -/
  | cas (retry i idPart : Nat)
  /-- entry taken: about to store the pid (…:131) -/
  | newWrite (i : Nat)
  /-- about to store the key (…:132) -/
  | newKey (i : Nat)
  /-- RegisterPid returned -/
  | done (r : Option Nat)
  deriving DecidableEq, Repr

/-- Shared array of `n` entries, and per application: program counter, pid of the current process; ghosts: the pid most
recently stored by a process of this application (`last`), and its value when the current process called (`prev`). -/
structure St where
  n : Nat
  key : Nat → Status × Nat
  pid : Nat → Nat
  pc : Nat → Pc
  cur : Nat → Nat
  last : Nat → Option Nat
  prev : Nat → Option Nat

/-- Fresh mapping (application_id_pid_mapping.h:40-60). -/
def init (n : Nat) : St :=
  { n := n, key := fun _ => (.unused, 0), pid := fun _ => 0, pc := fun _ => .idle, cur := fun _ => 0,
    last := fun _ => none, prev := fun _ => none }

/-- kMaxRetries (…:103). -/
def maxRetries : Nat := 50

/-- Next step of the process of application `a`; `spurious` lets the weak CAS fail. -/
def go (s : St) (a : Nat) (spurious : Bool) : St :=
  match s.pc a with
  | .find i =>
    if i < s.n then
      if s.key i = (.used, a) then { s with pc := upd s.pc a (.readOld i) }
      else if s.key i = (.updating, a) then { s with pc := upd s.pc a (.takeWrite i) }
      else { s with pc := upd s.pc a (.find (i + 1)) }
    else { s with pc := upd s.pc a (.scan 0 0) }
  | .readOld i => { s with pc := upd s.pc a (.writeOver i (s.pid i)) }
  | .writeOver i old =>
    { s with pid := upd s.pid i (s.cur a), last := upd s.last a (some (s.cur a)), pc := upd s.pc a (.done (some old)) }
  | .takeWrite i =>
    { s with pid := upd s.pid i (s.cur a), last := upd s.last a (some (s.cur a)), pc := upd s.pc a (.takeKey i) }
  | .takeKey i => { s with key := upd s.key i (.used, a), pc := upd s.pc a (.done (some (s.cur a))) }
  | .scan retry i =>
    if retry < maxRetries then
      if i < s.n then
        if (s.key i).1 = .unused then { s with pc := upd s.pc a (.cas retry i (s.key i).2) }
        else { s with pc := upd s.pc a (.scan retry (i + 1)) }
      else { s with pc := upd s.pc a (.scan (retry + 1) 0) }
    else { s with pc := upd s.pc a (.done none) }
  | .cas retry i idPart =>
    if s.key i = (.unused, idPart) ∧ spurious = false then
      { s with key := upd s.key i (.updating, a), pc := upd s.pc a (.newWrite i) }
    else { s with pc := upd s.pc a (.scan retry (i + 1)) }
  | .newWrite i =>
    { s with pid := upd s.pid i (s.cur a), last := upd s.last a (some (s.cur a)), pc := upd s.pc a (.newKey i) }
  | .newKey i => { s with key := upd s.key i (.used, a), pc := upd s.pc a (.done (some (s.cur a))) }
  | _ => s

/-- Calls and scheduler choices. -/
inductive Op where
  /-- the process of application `a`, with this pid, calls RegisterPid (again) -/
  | register (a pid : Nat)
  | go (a : Nat) (spurious : Bool)
  /-- the process of application `a` dies -/
  | crash (a : Nat)

/-- One step. A call is only possible when no call of the same application is in progress. -/
def step (s : St) : Op → St
  | .register a pid =>
    match s.pc a with
    | .idle | .done _ =>
      { s with cur := upd s.cur a pid, prev := upd s.prev a (s.last a), pc := upd s.pc a (.find 0) }
    | _ => s
  | .go a sp => go s a sp
  | .crash a => { s with pc := upd s.pc a .idle }

/-- Run a schedule. -/
def run (s : St) (ops : List Op) : St := ops.foldl step s

end Verif.PidMap
