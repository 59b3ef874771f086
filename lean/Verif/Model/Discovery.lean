/-
Service discovery of the LoLa binding: flag files, the crawler, the inotify queue and ServiceDiscoveryClient
(/repo/score/mw/com/impl/bindings/lola/service_discovery/{client/service_discovery_client.cpp, flag_file_crawler.cpp, flag_file.cpp,
known_instances_container.cpp}).

One consumer process is modelled, with the part of the file system it looks at. Whatever other processes (and the provider side of this
process) do there is a list of activities, which can take place between any two system calls of the client. Handling a batch of events,
StartFindService and StopFindService run under the worker mutex and therefore one after the other; the mutex is recursive, so handlers may
start and stop searches. Events are read without it: a read in the middle of StartFindService is the same as one after it, limited to the
events that were there, as the client does not look at the queue.
-/
import Verif.Lib.Fn

namespace Verif.Discovery

/-- QualityType: kASIL_B and kASIL_QM. -/
inductive Q where
  | b
  | qm
  deriving DecidableEq, Repr

/-- A directory of the search path: that of a service, or that of one of its instances (GetSearchPathForIdentifier,
flag_file.cpp:148-164; LolaServiceInstanceIdentifier). -/
structure Dir where
  svc : Nat
  inst : Option Nat
  deriving DecidableEq, Repr

def updD {α : Type} (f : Dir → α) (d : Dir) (v : α) : Dir → α := fun d' => if d' = d then v else f d'

/-- What an inotify event says: a directory was created in a service directory, or a flag file created or deleted in an instance
directory (the quality is part of its name, flag_file.cpp:50-61, flag_file_crawler.cpp:260-271). -/
inductive Kind where
  | mkdir (i : Nat)
  | create (q : Q)
  | delete (q : Q)
  deriving DecidableEq, Repr

structure Ev where
  wd : Nat
  kind : Kind
  deriving DecidableEq, Repr

/-- SearchRequest (service_discovery_client.h:68-85): the set of watches, what is searched for, and the handles reported last (the
instance id stands for the handle: the rest of a handle is the identifier that was searched for). -/
structure Search where
  svc : Nat
  inst : Option Nat
  q : Q
  wds : List Nat
  prev : List Nat
  deriving DecidableEq, Repr

/-- What the application sees: a call of StartFindService (with what is searched for, and the handle it gets), a call of a find handler,
with the instances found, and a return of StopFindService. -/
inductive Note where
  | started (h s : Nat) (inst : Option Nat) (q : Q)
  | called (h : Nat) (found : List Nat)
  | stopped (h : Nat)
  deriving DecidableEq, Repr

structure World where
  /-- the instance directories of each service -/
  dirs : Nat → List Nat
  /-- whether there is a flag file of this service, instance and quality; two at a time are not modelled (FlagFile::Make removes the
  others first, flag_file.cpp:182-190) -/
  file : Nat → Nat → Q → Bool
  /-- the inotify instance: the watch of each directory, the next watch descriptor (descriptors are not reused), the queue -/
  wdOf : Dir → Option Nat
  nextWd : Nat
  queue : List Ev
  /-- events that the worker thread has read and not handled yet: InotifyInstance::Read takes place before HandleEvents takes the
  worker mutex (service_discovery_client.cpp:113-145) -/
  batch : List Ev
  /-- ServiceDiscoveryClient: watches_, watched_identifiers_, known_instances_, search_requests_, obsolete_search_requests_ -/
  watches : Nat → Option (Dir × List Nat)
  ids : Dir → Option (Option Nat × List Nat)
  known : Q → Nat → List Nat
  searches : Nat → Option Search
  obsolete : List Nat
  /-- the next FindServiceHandle (a counter in ServiceDiscovery) -/
  nextH : Nat
  /-- history of what the application sees, newest first -/
  log : List Note
  /-- an assertion has failed -/
  aborted : Bool

/-! ### The file system -/

/-- Activities of others. `stray`: a watch added by an attempt to crawl that failed later (CrawlAndWatchWithRetry tries three times,
flag_file_crawler.cpp:214-247). -/
inductive Act where
  | mkdir (s i : Nat)
  | create (s i : Nat) (q : Q)
  | delete (s i : Nat) (q : Q)
  | stray (d : Dir)
  deriving DecidableEq, Repr

/-- The kernel queues an event if the directory is watched. -/
def notify (w : World) (d : Dir) (k : Kind) : World :=
  match w.wdOf d with
  | none => w
  | some wd => { w with queue := w.queue ++ [{ wd, kind := k }] }

/-- Creating an instance directory (FlagFile::CreateSearchPath, flag_file.cpp:244-283; the directories above it are not watched). -/
def mkdir (w : World) (s i : Nat) : World :=
  if i ∈ w.dirs s then w
  else notify { w with dirs := upd w.dirs s (i :: w.dirs s) } { svc := s, inst := none } (.mkdir i)

def setFile (w : World) (s i : Nat) (q : Q) (v : Bool) : World :=
  { w with file := fun s' i' q' => if s' = s ∧ i' = i ∧ q' = q then v else w.file s' i' q' }

/-- CreateSearchPath for any directory. -/
def mkpath (w : World) (d : Dir) : World :=
  match d.inst with
  | none => w
  | some i => mkdir w d.svc i

/-- inotify_add_watch: the descriptor of the directory, a new one if it is not watched. -/
def addKernelWatch (w : World) (d : Dir) : World × Nat :=
  match w.wdOf d with
  | some wd => (w, wd)
  | none => ({ w with wdOf := updD w.wdOf d (some w.nextWd), nextWd := w.nextWd + 1 }, w.nextWd)

/-- FlagFileCrawler::AddWatchToInotifyInstance (flag_file_crawler.cpp:317-330). -/
def addWatch (w : World) (d : Dir) : World × Nat := addKernelWatch (mkpath w d) d

def act (w : World) : Act → World
  | .mkdir s i => mkdir w s i
  -- FlagFile::Make (flag_file.cpp:182-222) creates the directory first
  | .create s i q =>
    let w := mkdir w s i
    if w.file s i q = true then w else notify (setFile w s i q true) { svc := s, inst := some i } (.create q)
  -- FlagFile::~FlagFile (166-180), RemoveMatchingFlagFiles (95-120)
  | .delete s i q => if w.file s i q = false then w else notify (setFile w s i q false) { svc := s, inst := some i } (.delete q)
  | .stray d => (addWatch w d).1

def acts (w : World) : List Act → World
  | [] => w
  | a :: as => acts (act w a) as

/-! ### The crawler -/

/-- GetAlreadyExistingInstances (flag_file_crawler.cpp:42-110): looks for flag files, one after the other. `env`: the activities before
each look. -/
def checks (s : Nat) : List (Nat × Q) → World → List (List Act) → List (Nat × Q) → World × List (List Act) × List (Nat × Q)
  | [], w, env, found => (w, env, found)
  | (i, q) :: rest, w, env, found =>
    let w := acts w (env.headD [])
    checks s rest w env.tail (if w.file s i q = true then (i, q) :: found else found)

/-- The loop over the instance directories (flag_file_crawler.cpp:183-199). -/
def addWatches (s : Nat) : List Nat → World → List (List Act) → List (Nat × Dir) → World × List (List Act) × List (Nat × Dir)
  | [], w, env, l => (w, env, l)
  | i :: rest, w, env, l =>
    let w := acts w (env.headD [])
    let r := addWatch w { svc := s, inst := some i }
    addWatches s rest r.1 env.tail (l ++ [(r.2, { svc := s, inst := some i })])

def bothQualities (l : List Nat) : List (Nat × Q) := l.flatMap fun i => [(i, Q.b), (i, Q.qm)]

structure Crawled where
  w : World
  wds : List (Nat × Dir)
  found : List (Nat × Q)

/-- CrawlAndWatchImpl (flag_file_crawler.cpp:144-206), with watches: first the watch of the searched directory, then (if any instance is
searched) the directories found in it and their watches, then the flag files. Directories whose name is not a number are not modelled. -/
def crawl (w : World) (env : List (List Act)) (d : Dir) : Crawled :=
  let w := acts w (env.headD [])
  let r := addWatch w d
  match d.inst with
  | some i =>
    let c := checks d.svc (bothQualities [i]) r.1 env.tail []
    { w := c.1, wds := [(r.2, d)], found := c.2.2 }
  | none =>
    let w := acts r.1 (env.tail.headD [])
    let a := addWatches d.svc (w.dirs d.svc) w env.tail.tail []
    let c := checks d.svc (bothQualities (w.dirs d.svc)) a.1 a.2.1 []
    { w := c.1, wds := (r.2, d) :: a.2.2, found := c.2.2 }

/-! ### Tables of the client -/

def insertNew (x : Nat) (l : List Nat) : List Nat := if x ∈ l then l else x :: l

/-- KnownInstancesContainer::Insert and Remove (known_instances_container.cpp:20-56). -/
def learn (w : World) (s i : Nat) (q : Q) : World :=
  { w with known := fun q' s' => if q' = q ∧ s' = s then insertNew i (w.known q' s') else w.known q' s' }

def forget (w : World) (s i : Nat) (q : Q) : World :=
  { w with known := fun q' s' => if q' = q ∧ s' = s then (w.known q' s').filter (· ≠ i) else w.known q' s' }

/-- KnownInstancesContainer::Merge of what a crawler has found for a service (known_instances_container.cpp:92-119). -/
def merge (w : World) (s : Nat) : List (Nat × Q) → World
  | [] => w
  | (i, q) :: rest => merge (learn w s i q) s rest

/-- KnownInstancesContainer::GetKnownHandles (58-90): the known instances, or the one searched for if it is among them. -/
def select (l : List Nat) (inst : Option Nat) : List Nat :=
  match inst with
  | none => l
  | some i => if i ∈ l then [i] else []

/-- StoreWatch (service_discovery_client.cpp:599-623). `emplace` does nothing if there is an entry already. -/
def storeWatch (w : World) (wd : Nat) (d : Dir) : World :=
  let w := if w.watches wd = none then { w with watches := upd w.watches wd (some (d, [])) } else w
  let w := if w.ids d = none then { w with ids := updD w.ids d (some (some wd, [])) } else w
  match d.inst with
  | none => w
  | some _ =>
    let any : Dir := { svc := d.svc, inst := none }
    match w.ids any with
    | none => { w with ids := updD w.ids any (some (none, [wd])) }
    | some (m, ch) => { w with ids := updD w.ids any (some (m, insertNew wd ch)) }

/-- LinkWatchWithSearchRequest (671-684). -/
def link (w : World) (wd h : Nat) : World :=
  match w.watches wd, w.searches h with
  | some (d, hs), some s =>
    { w with watches := upd w.watches wd (some (d, insertNew h hs)), searches := upd w.searches h (some { s with wds := insertNew wd s.wds }) }
  | _, _ => { w with aborted := true }

/-- TransferNewSearchRequest (301-314): the watches of a new search. -/
def storeAndLink (w : World) (h : Nat) : List (Nat × Dir) → World
  | [] => w
  | (wd, d) :: rest => storeAndLink (link (storeWatch w wd d) wd h) h rest

/-- OnInstanceDirectoryCreated (808-813): the new watch is linked to all searches of the service. -/
def linkAll (w : World) (wd : Nat) : List Nat → World
  | [] => w
  | h :: hs => linkAll (link w wd h) wd hs

/-- EraseWatch (625-669) together with RemoveWatch of inotify and the known instances of the directory (353-359). -/
def eraseWatch (w : World) (wd : Nat) (d : Dir) : World :=
  let w := match d.inst with
    | none => w
    | some i => forget (forget w d.svc i .b) d.svc i .qm
  let w := { w with wdOf := fun d' => if w.wdOf d' = some wd then none else w.wdOf d' }
  let w := match d.inst with
    | some _ =>
      let any : Dir := { svc := d.svc, inst := none }
      let w := { w with ids := updD w.ids d none }
      match w.ids any with
      | none => w
      | some (m, ch) => { w with ids := updD w.ids any (some (m, ch.filter (· ≠ wd))) }
    | none =>
      match w.ids d with
      | none => w
      | some (_, ch) => { w with ids := updD w.ids d (some (none, ch)) }
  { w with watches := upd w.watches wd none }

/-- One watch of an obsolete search (TransferObsoleteSearchRequest 341-367): UnlinkWatchWithSearchRequest (686-701); if no search is
left, EraseWatch. -/
def dropWatch (w : World) (h wd : Nat) : World :=
  match w.watches wd, w.searches h with
  | some (d, hs), some s =>
    if h ∈ hs ∧ wd ∈ s.wds then
      let w := { w with watches := upd w.watches wd (some (d, hs.filter (· ≠ h))), searches := upd w.searches h (some { s with wds := s.wds.filter (· ≠ wd) }) }
      if hs.filter (· ≠ h) = [] then eraseWatch w wd d else w
    else { w with aborted := true }
  | _, _ => w

def dropWatches (w : World) (h : Nat) : List Nat → World
  | [] => w
  | wd :: rest => dropWatches (dropWatch w h wd) h rest

/-- TransferObsoleteSearchRequest (331-371). -/
def transferOne (w : World) (h : Nat) : World :=
  match w.searches h with
  | none => w
  | some s =>
    let w := dropWatches w h s.wds
    { w with searches := upd w.searches h none }

/-- TransferObsoleteSearchRequests (322-329). -/
def transferAll (w : World) : List Nat → World
  | [] => w
  | h :: hs => transferAll (transferOne w h) hs

def transfer (w : World) : World :=
  let w := transferAll w w.obsolete
  { w with obsolete := [] }

/-! ### Searches and calls of handlers -/

/-- StopFindService (267-282). Handles that have not been issued cannot be passed. -/
def stopFind (w : World) (h : Nat) : World :=
  if h < w.nextH then { w with obsolete := insertNew h w.obsolete, log := .stopped h :: w.log } else w

/-- The same search is already in progress (726-727). -/
def sharedWatch (w : World) (d : Dir) : Option (Nat × List Nat) :=
  match w.ids d with
  | some (some wd, ch) => some (wd, ch)
  | _ => none

/-- StartFindService (707-778) up to the synchronous call of the handler. Second component: the instances found; the handler is called if
there are any. Failing attempts to crawl before the one that succeeds are activities (`Act.stray`). -/
def beginFind (w : World) (s : Nat) (inst : Option Nat) (q : Q) (env : List (List Act)) : World × List Nat :=
  let h := w.nextH
  let d : Dir := { svc := s, inst }
  let w := { w with nextH := w.nextH + 1, log := .started h s inst q :: w.log }
  match sharedWatch w d with
  | some (wd, ch) =>
    let handles := select (w.known q s) inst
    let wds := (wd :: ch).map fun x => (w.watches x).map fun e => (x, e.1)
    if wds.any (fun o => o.isNone) then ({ w with aborted := true }, [])
    else
      (storeAndLink { w with searches := upd w.searches h (some { svc := s, inst, q, wds := [], prev := handles }) } h (wds.filterMap id),
        handles)
  | none =>
    let c := crawl w env d
    let handles := select ((c.found.filter (fun p => p.2 = q)).map Prod.fst) inst
    let w := storeAndLink { c.w with searches := upd c.w.searches h (some { svc := s, inst, q, wds := [], prev := handles }) } h c.wds
    (merge w s c.found, handles)

/-- What the application and others do, between the batches of events or in a handler: activities in the file system, StopFindService and
StartFindService (`does`: what the new handler does if it is called synchronously; `env`: the activities during the crawl), which fails if
all attempts to crawl fail (`l`: the activities meanwhile, and the watches they leave behind). -/
inductive Deed where
  | act (a : Act)
  | stop (h : Nat)
  | start (s : Nat) (inst : Option Nat) (q : Q) (env : List (List Act)) (does : List Deed)
  | fail (s : Nat) (inst : Option Nat) (q : Q) (l : List Act)

mutual
/-- The synchronous call of the handler takes place with the worker mutex held (767-775), like all calls of handlers. -/
def deed (w : World) : Deed → World
  | .act a => act w a
  | .stop h => stopFind w h
  | .start s inst q env does =>
    let r := beginFind w s inst q env
    if r.2 = [] then r.1 else deeds { r.1 with log := .called w.nextH r.2 :: r.1.log } does
  -- ServiceDiscovery::StartFindService stops the search (impl/service_discovery.cpp:157-169). A search that is already in progress needs no
  -- crawl.
  | .fail s inst _ l =>
    if (sharedWatch w { svc := s, inst }).isSome then w
    else
      let w := acts w l
      stopFind { w with nextH := w.nextH + 1 } w.nextH

def deeds (w : World) : List Deed → World
  | [] => w
  | d :: ds => deeds (deed w d) ds
end

/-- The handler of `h` is called with the worker mutex held. `does`: what it does, depending on the history (which ends with this call). -/
def callHandler (w : World) (does : List Note → List Deed) (h : Nat) (found : List Nat) : World :=
  let w := { w with log := .called h found :: w.log }
  deeds w (does w.log)

/-- std::unordered_set equality. -/
def sameSet (a b : List Nat) : Bool := a.all (fun x => decide (x ∈ b)) && b.all (fun x => decide (x ∈ a))

/-- CallHandlers (517-597). -/
def callHandlers (w : World) (does : List Note → List Deed) : List Nat → World
  | [] => w
  | h :: hs =>
    match w.searches h with
    | none => callHandlers w does hs
    | some s =>
      if h ∈ w.obsolete then callHandlers w does hs
      else
        let found := select (w.known s.q s.svc) s.inst
        if sameSet s.prev found = true then callHandlers w does hs
        else callHandlers (callHandler { w with searches := upd w.searches h (some { s with prev := found }) } does h found) does hs

/-! ### Events -/

/-- HandleDeletionEvents (449-486). Second component: the impacted searches. -/
def deletions : List Ev → World → List Nat → World × List Nat
  | [], w, imp => (w, imp)
  | e :: rest, w, imp =>
    match w.watches e.wd with
    | none => deletions rest w imp
    | some (d, hs) =>
      match e.kind, d.inst with
      -- OnInstanceFlagFileRemoved (864-906)
      | .delete q, some i => deletions rest (forget w d.svc i q) (imp ++ hs)
      | .delete _, none => ({ w with aborted := true }, imp)
      | _, _ => deletions rest w imp

/-- OnInstanceDirectoryCreated (784-817). -/
def dirCreated (w : World) (env : List (List Act)) (d : Dir) (hs : List Nat) (i : Nat) : World :=
  let c := crawl w env { svc := d.svc, inst := some i }
  match c.wds with
  | [(wd, d')] => merge (linkAll (storeWatch c.w wd d') wd hs) d.svc c.found
  | _ => { c.w with aborted := true }

/-- HandleCreationEvents (488-515). `env`: the activities during the crawl of each event. -/
def creations : List Ev → World → List (List (List Act)) → List Nat → World × List Nat
  | [], w, _, imp => (w, imp)
  | e :: rest, w, env, imp =>
    match w.watches e.wd with
    | none => creations rest w env.tail imp
    | some (d, hs) =>
      match e.kind, d.inst with
      -- OnInstanceFlagFileCreated (819-862)
      | .create q, some i => creations rest (learn w d.svc i q) env.tail (imp ++ hs)
      | .mkdir i, none => creations rest (dirCreated w (env.headD []) d hs i) env.tail (imp ++ hs)
      -- a name that is not that of a flag file, or not a number, is ignored
      | _, _ => creations rest w env.tail (imp ++ hs)

def Ev.isDelete (e : Ev) : Bool := match e.kind with | .delete _ => true | _ => false

def once : List Nat → List Nat
  | [] => []
  | x :: l => x :: (once l).filter (· ≠ x)

/-- The order in which the impacted searches are served, each once (an unordered set): those in `pref` first. -/
def arrange (pref l : List Nat) : List Nat := once (pref.filter (fun h => decide (h ∈ l)) ++ l)

/-- The worker thread reads up to `n` events. -/
def readEvents (w : World) (n : Nat) : World :=
  if w.batch = [] then { w with batch := w.queue.take n, queue := w.queue.drop n } else w

/-- HandleEvents (373-447): all deletions are handled before all creations, and the handlers are called after each of the two. The
events that report the end of a watch (kInIgnored) have no effect and are not modelled, nor is an overflow of the queue (the process
is terminated). -/
def handleEvents (w : World) (env : List (List (List Act))) (does : List Note → List Deed) (pref : List Nat) : World :=
  let w := transfer w
  let evs := w.batch
  let w := { w with batch := [] }
  let d := deletions (evs.filter Ev.isDelete) w []
  let w := callHandlers d.1 does (arrange pref d.2)
  let c := creations (evs.filter (fun e => !e.isDelete)) w env []
  callHandlers c.1 does (arrange pref c.2)

/-- FindService (912-932): a crawl without watches (FlagFileCrawler::Crawl, flag_file_crawler.cpp:118-130), which looks into the directories
that exist. It does not use the tables. Found instances are kept in a set (`insertNew`). A failing listing (and then a failing FindService) is not modelled. -/
def findOnce (w : World) (env : List (List Act)) (s : Nat) (inst : Option Nat) (q : Q) : List Nat :=
  let w := acts w (env.headD [])
  let l := match inst with
    | some i => [i]
    | none => w.dirs s
  let c := checks s (bothQualities l) w env.tail []
  select (((c.2.2.filter (fun p => p.2 = q)).map Prod.fst).foldr insertNew []) inst

inductive Op where
  | app (d : Deed)
  | read (n : Nat)
  | handle (env : List (List (List Act))) (does : List Note → List Deed) (pref : List Nat)

def step (w : World) : Op → World
  | .app d => deed w d
  | .read n => readEvents w n
  | .handle env does pref => handleEvents w env does pref

def run (w : World) : List Op → World
  | [] => w
  | o :: os => run (step w o) os

/-- A new client. The file system may be in any state. -/
def init (dirs : Nat → List Nat) (file : Nat → Nat → Q → Bool) : World :=
  { dirs, file, wdOf := fun _ => none, nextWd := 0, queue := [], batch := [], watches := fun _ => none, ids := fun _ => none,
    known := fun _ _ => [], searches := fun _ => none, obsolete := [], nextH := 0, log := [], aborted := false }

end Verif.Discovery
