import Verif.Lib.Fn
/-! Offering services in the service discovery: OfferService and StopOfferService of the processes' clients
(/repo/score/mw/com/impl/bindings/lola/service_discovery/client/service_discovery_client.cpp:147-265) with the flag files
(service_discovery/flag_file.cpp). Any number of processes, threads, service instances and offers; each file operation is a step of
its own, which can fail; processes can crash at any point and start again.

A file is its path: directory of the instance, quality, pid and disambiguator (flag_file.cpp:50-62). Simplifications: drawing the
disambiguator and the check whether the service is already offered are one step (the counter is atomic, the check is under the lock);
the disambiguator does not wrap; the directory is read in one
step and reading it does not fail; when the service turns out to be in flag_files_ at the end, the new flag files are destroyed after
the lock is released (the standard library can do it before, which has fewer interleavings); creating the directories (flag_file.cpp:243-284) is one step; two processes that run at the same time
have different pids. Not modelled: instance identifiers without an instance id (assertion) and unknown quality types (error). -/
namespace Verif.Offer

inductive Qual where
  | b | qm
  deriving DecidableEq, Repr

structure File where
  inst : Nat
  q : Qual
  pid : Nat
  dis : Nat
  deriving DecidableEq, Repr

/-- An element of flag_files_: the flag files of an offered service. -/
structure Offer where
  dis : Nat
  quals : List Qual
  deriving DecidableEq, Repr

/-- What a call of OfferService has to do: `q` is the quality whose file is being made, `rest` follow, `made` are done. -/
structure Job where
  inst : Nat
  dis : Nat
  asilB : Bool
  q : Qual
  rest : List Qual
  made : List Qual
  deriving DecidableEq, Repr

/-- What a call returns after the flag files that it gives up are removed. -/
inductive Res where
  | offered (asilB : Bool)
  | failed
  | stopped
  deriving DecidableEq, Repr

/-- Where a thread is in OfferService or StopOfferService. -/
inductive Pc where
  | idle
  /-- Before the directory is read (GetMatchingFlagFilePaths, flag_file.cpp:64-95). -/
  | list (j : Job)
  /-- Removing the files found (RemoveMatchingFlagFiles, 97-125). -/
  | remove (j : Job) (fs : List File) (failed : Bool)
  /-- CreateSearchPath (243-284). -/
  | mkdir (j : Job)
  /-- Opening the file (209-215). -/
  | create (j : Job)
  /-- Setting its permissions (217-227). -/
  | perm (j : Job)
  /-- All files are made, before they are put into flag_files_ (service_discovery_client.cpp:211-220). -/
  | insert (inst dis : Nat) (asilB : Bool) (made : List Qual)
  /-- Destructors of flag files (flag_file.cpp:169-184); `locked` if flag_files_mutex_ is held. -/
  | undo (inst dis : Nat) (qs : List Qual) (locked : Bool) (res : Res)
  deriving DecidableEq, Repr

/-- What can be observed (ghost). -/
inductive Ev where
  | created (f : File)
  /-- OfferService has returned success. -/
  | offered (p inst : Nat) (asilB : Bool)
  /-- OfferService has returned an error. -/
  | failed (p inst : Nat)
  /-- StopOfferService has been accepted, for both qualities or for QM only. -/
  | stopped (p inst : Nat) (both : Bool)
  /-- StopOfferService has returned an error. -/
  | notOffered (p inst : Nat)
  /-- The permissions of a file could not be set. -/
  | leaked (f : File)
  /-- The process has terminated itself because a flag file could not be removed. -/
  | terminated (p : Nat)
  /-- The process has ended in any way. -/
  | crashed (p : Nat)
  deriving DecidableEq, Repr

structure St where
  files : List File
  up : Nat → Bool
  /-- offer_disambiguator_. -/
  dis : Nat → Nat
  /-- flag_files_ of each process. -/
  tbl : Nat → Nat → Option Offer
  /-- flag_files_mutex_ of each process. -/
  lock : Nat → Bool
  pc : Nat → Pc
  log : List Ev

def init : St := ⟨[], fun _ => false, fun _ => 0, fun _ _ => none, fun _ => false, fun _ => .idle, []⟩

/-- The process of each thread. -/
abbrev Cfg := Nat → Nat

/-- The end of a process: its threads and tables are gone, the files stay. -/
def crash (c : Cfg) (s : St) (p : Nat) : St :=
  { s with
    up := upd s.up p false, tbl := upd s.tbl p (fun _ => none), lock := upd s.lock p false,
    pc := fun t => if c t = p then .idle else s.pc t, log := .crashed p :: s.log }

def finish (s : St) (p t inst : Nat) (locked : Bool) : Res → St
  | .offered b => { s with pc := upd s.pc t .idle, log := .offered p inst b :: s.log }
  | .failed => { s with pc := upd s.pc t .idle, log := .failed p inst :: s.log }
  | .stopped => { s with pc := upd s.pc t .idle, lock := if locked then upd s.lock p false else s.lock }

/-- The next step of thread `t`; `ok`: the file operation succeeds. -/
def next (c : Cfg) (s : St) (t : Nat) (ok : Bool) : St :=
  let p := c t
  match s.pc t with
  | .idle => s
  | .list j => { s with pc := upd s.pc t (.remove j (s.files.filter (fun f => f.inst == j.inst && f.q == j.q)) false) }
  | .remove j [] failed =>
    if failed then { s with pc := upd s.pc t (.undo j.inst j.dis j.made false .failed) }
    else { s with pc := upd s.pc t (.mkdir j) }
  | .remove j (f :: fs) failed =>
    if ok && s.files.contains f then
      { s with files := s.files.filter (fun g => g != f), pc := upd s.pc t (.remove j fs failed) }
    else { s with pc := upd s.pc t (.remove j fs true) }
  | .mkdir j =>
    if ok then { s with pc := upd s.pc t (.create j) } else { s with pc := upd s.pc t (.undo j.inst j.dis j.made false .failed) }
  | .create j =>
    let f : File := ⟨j.inst, j.q, p, j.dis⟩
    if ok then { s with files := f :: s.files.filter (fun g => g != f), pc := upd s.pc t (.perm j), log := .created f :: s.log }
    else { s with pc := upd s.pc t (.undo j.inst j.dis j.made false .failed) }
  | .perm j =>
    if ok then
      match j.rest with
      | [] => { s with pc := upd s.pc t (.insert j.inst j.dis j.asilB (j.made ++ [j.q])) }
      | q :: rest => { s with pc := upd s.pc t (.list { j with q := q, rest := rest, made := j.made ++ [j.q] }) }
    else
      { s with pc := upd s.pc t (.undo j.inst j.dis j.made false .failed), log := .leaked ⟨j.inst, j.q, p, j.dis⟩ :: s.log }
  | .insert inst dis b made =>
    if s.lock p then s
    else
      match s.tbl p inst with
      | none =>
        { s with
          tbl := upd s.tbl p (upd (s.tbl p) inst (some ⟨dis, made⟩)), pc := upd s.pc t .idle,
          log := .offered p inst b :: s.log }
      | some _ => { s with pc := upd s.pc t (.undo inst dis made false (.offered b)) }
  | .undo inst _ [] locked res => finish s p t inst locked res
  | .undo inst dis (q :: qs) locked res =>
    let f : File := ⟨inst, q, p, dis⟩
    if ok && s.files.contains f then
      { s with files := s.files.filter (fun g => g != f), pc := upd s.pc t (.undo inst dis qs locked res) }
    else crash c { s with log := .terminated p :: s.log } p

inductive Op where
  /-- A process starts; its disambiguator starts at `d` (the time, service_discovery_client.cpp:94). -/
  | start (p d : Nat)
  | crash (p : Nat)
  /-- Thread `t` calls OfferService for an instance with ASIL-B and QM, or with QM only. -/
  | offer (t inst : Nat) (asilB : Bool)
  /-- Thread `t` calls StopOfferService, for both qualities or for QM only. -/
  | stop (t inst : Nat) (both : Bool)
  | next (t : Nat) (ok : Bool)
  deriving DecidableEq, Repr

def firstJob (inst dis : Nat) : Bool → Job
  | true => ⟨inst, dis, true, .b, [.qm], []⟩
  | false => ⟨inst, dis, false, .qm, [], []⟩

def step (c : Cfg) (s : St) : Op → St
  | .start p d => if s.up p then s else { s with up := upd s.up p true, dis := upd s.dis p d }
  | .crash p => if s.up p then crash c s p else s
  | .offer t inst b =>
    let p := c t
    if s.up p = false ∨ s.pc t ≠ .idle ∨ s.lock p = true then s
    else
      let s' := { s with dis := upd s.dis p (s.dis p + 1) }
      match s.tbl p inst with
      | some _ => { s' with log := .failed p inst :: s.log }
      | none => { s' with pc := upd s.pc t (.list (firstJob inst (s.dis p) b)) }
  | .stop t inst both =>
    let p := c t
    if s.up p = false ∨ s.pc t ≠ .idle ∨ s.lock p = true then s
    else
      match s.tbl p inst with
      | none => { s with log := .notOffered p inst :: s.log }
      | some o =>
        if both then
          { s with
            tbl := upd s.tbl p (upd (s.tbl p) inst none), lock := upd s.lock p true,
            pc := upd s.pc t (.undo inst o.dis o.quals true .stopped), log := .stopped p inst true :: s.log }
        else
          { s with
            tbl := upd s.tbl p (upd (s.tbl p) inst (some ⟨o.dis, o.quals.filter (· != .qm)⟩)), lock := upd s.lock p true,
            pc := upd s.pc t (.undo inst o.dis (o.quals.filter (· == .qm)) true .stopped), log := .stopped p inst false :: s.log }
  | .next t ok => next c s t ok

def run (c : Cfg) (s : St) : List Op → St
  | [] => s
  | o :: os => run c (step c s o) os

end Verif.Offer
