/-!
# Names of shared objects, files and message passing endpoints

Processes meet by names that each of them computes for itself.  A name is a list
of characters.

Simplifications:
* The Linux variants of the path prefixes; on QNX `/tmp_discovery/` and
  `/dev/shmem` are used instead.
* Numbers are natural numbers.  The code uses unsigned types, and process ids,
  which are positive.
* `filesystem::Path` is the string it is printed as; `/` appends a separator and
  a component.
-/
namespace Verif.Paths

/-- A name. -/
abbrev Name := List Char

/-- The characters of a string literal. -/
macro "chars " s:str : term => do
  let cs := (s.getString.toList.map fun c => Lean.Syntax.mkCharLit c).toArray
  `(([$cs,*] : List Char))

/-- A number written with `std::to_string` or with `operator<<` of a stream. -/
def dec (n : Nat) : Name := Nat.toDigits 10 n

/-- A number written with `std::setfill('0') << std::setw(w)`. -/
def pad (w n : Nat) : Name := List.replicate (w - (dec n).length) '0' ++ dec n

/-- The quality of a service instance. -/
inductive Quality where
  | qm
  | b
  deriving DecidableEq, Repr

/-- `AppendServiceAndInstance` (lola/path_builder.cpp 34-48). -/
def serviceAndInstance (sid iid : Nat) : Name := pad 16 sid ++ '-' :: pad 5 iid

/-- A shared memory object of a service instance. -/
inductive Shm where
  | data
  | ctl (q : Quality)
  /-- the memory for method calls of one proxy: application id and number of the
  proxy -/
  | method (app proxy : Nat)
  deriving DecidableEq, Repr

/-- `EmitDataFileName`, `EmitControlFileName`, `EmitMethodFileName`
(lola/shm_path_builder.cpp 40-108). -/
def shmFile (sid iid : Nat) : Shm → Name
  | .data => (chars "lola-data-") ++ serviceAndInstance sid iid
  | .ctl .qm => (chars "lola-ctl-") ++ serviceAndInstance sid iid
  | .ctl .b => (chars "lola-ctl-") ++ serviceAndInstance sid iid ++ (chars "-b")
  | .method app proxy =>
    (chars "lola-methods-") ++ serviceAndInstance sid iid ++ '-' :: pad 5 app ++ '-' :: pad 5 proxy

/-- `GetDataChannelShmName`, `GetControlChannelShmName`,
`GetMethodChannelShmName` (lola/shm_path_builder.cpp 112-137). -/
def shmName (vm : Bool) (sid iid : Nat) (s : Shm) : Name :=
  (if vm then (chars "/intervm-shared-shmem/") else (chars "/")) ++ shmFile sid iid s

/-- `SharedMemoryResource::GetLockFilePath`
(memory/shared/shared_memory_resource.cpp 681-684). -/
def lockName (shm : Name) : Name := (chars "/tmp") ++ shm ++ (chars "_lock")

/-- `GetServiceInstanceExistenceMarkerFilePath`,
`GetServiceInstanceUsageMarkerFilePath` (lola/partial_restart_path_builder.cpp
42-79). -/
def markerName (usage : Bool) (sid iid : Nat) : Name :=
  (chars "/tmp/mw_com_lola/partial_restart/") ++
    (if usage then (chars "usage-") else (chars "existence-")) ++ serviceAndInstance sid iid

/-- `GetQualityTypeString` (lola/service_discovery/flag_file.cpp 124-148). -/
def qualityName : Quality → Name
  | .b => (chars "asil-b")
  | .qm => (chars "asil-qm")

/-- `GetSearchPathForIdentifier` without instance id
(lola/service_discovery/flag_file.cpp 150-154). -/
def serviceDir (sid : Nat) : Name :=
  (chars "/tmp/mw_com_lola/service_discovery") ++ '/' :: dec sid

/-- `GetSearchPathForIdentifier` with instance id
(lola/service_discovery/flag_file.cpp 150-164). -/
def instanceDir (sid iid : Nat) : Name := serviceDir sid ++ '/' :: dec iid

/-- The last component of `GetFlagFilePath`
(lola/service_discovery/flag_file.cpp 50-61). -/
def flagFile (pid : Nat) (q : Quality) (disambiguator : Nat) : Name :=
  dec pid ++ '_' :: qualityName q ++ '_' :: dec disambiguator

/-- `GetFlagFilePath` (lola/service_discovery/flag_file.cpp 50-61). -/
def flagName (sid iid pid : Nat) (q : Quality) (disambiguator : Nat) : Name :=
  instanceDir sid iid ++ '/' :: flagFile pid q disambiguator

/-- `MessagePassingClientCache::CreateMessagePassingName`
(lola/messaging/message_passing_client_cache.cpp 193-207). -/
def endpointName (pid : Nat) : Quality → Name
  | .qm => (chars "LoLa_2_") ++ dec pid ++ (chars "_QM")
  | .b => (chars "LoLa_2_") ++ dec pid ++ (chars "_ASIL_B")

/-- `std::string::find` finds something. -/
def contains (needle : Name) : Name → Bool
  | [] => needle.isEmpty
  | c :: cs => needle.isPrefixOf (c :: cs) || contains needle cs

/-- `FlagFileCrawler::ParseQualityTypeFromString`
(lola/service_discovery/flag_file_crawler.cpp 260-271); `none`:
`QualityType::kInvalid`. -/
def parseQuality (name : Name) : Option Quality :=
  if contains (qualityName .b) name then some .b
  else if contains (qualityName .qm) name then some .qm
  else none

/-- The test that `GetMatchingFlagFilePaths` applies to the path of an entry
(lola/service_discovery/flag_file.cpp 63-93). -/
def matchesQuality (q : Quality) (path : Name) : Bool := contains (qualityName q) path

/-- `FlagFileCrawler::ConvertFromStringToInstanceId`
(lola/service_discovery/flag_file_crawler.cpp 249-258): `std::from_chars` reads
the digits at the beginning and fails if there are none or if the number does
not fit into 16 bits. -/
def parseInstance (name : Name) : Option Nat :=
  let ds := name.takeWhile Char.isDigit
  if ds.isEmpty then none
  else if Nat.ofDigitChars 10 ds 0 < 65536 then some (Nat.ofDigitChars 10 ds 0) else none

/-- The size of `sockaddr_un::sun_path` on Linux. -/
def sunPath : Nat := 108

/-- `UnixDomainSocketAddress::UnixDomainSocketAddress` with `isAbstract`
(message_passing/unix_domain/unix_domain_socket_address.h 52-58): the bytes of
`sun_path`.  Servers (unix_domain_server.cpp 180) and clients
(unix_domain_engine.cpp 78) compute it from the service identifier. -/
def address (identifier : Name) : Name :=
  Char.ofNat 0 :: (identifier.take (sunPath - 2) ++
    List.replicate (sunPath - 1 - (identifier.take (sunPath - 2)).length) (Char.ofNat 0))

end Verif.Paths
