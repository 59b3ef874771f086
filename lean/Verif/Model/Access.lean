import Verif.Model.Ident

/-!
# Who may use the shared memory and the methods of a service instance

Simplifications:
* The operating system is a rule: the owner of a shared memory object may read and write
  it, a user with an entry in its access control list what the entry says, any other user
  what the mode says for everybody.  The superuser, groups and calls of the operating
  system that fail are left out.
* Of a deployment only the permissions matter.
-/
namespace Verif.Access
open Verif.Json Verif.Ident

/-- `uid_t`. -/
abbrev Uid := UInt32

/-- `SharedMemoryFactory::UserPermissions`; the map has a list of users for reading and one
for writing (memory/shared/user_permission.h). -/
inductive Permissions where
  | worldReadable
  | worldWritable
  | users (read write : List Uid)
deriving DecidableEq, Repr

/-- A shared memory object. -/
structure Shm where
  owner : Uid
  /-- the mode for everybody -/
  anyRead : Bool
  anyWrite : Bool
  /-- the access control list -/
  aclRead : List Uid
  aclWrite : List Uid
deriving DecidableEq, Repr

/-- `SharedMemoryFactory::Create`: `calcStatModeForPermissions` (shared_memory_resource.cpp
273-296 with 87-91) and `ApplyPermissions` (shared_memory_resource.cpp 899-926). -/
def createShm (owner : Uid) : Permissions → Shm
  | .worldWritable => { owner, anyRead := true, anyWrite := true, aclRead := [], aclWrite := [] }
  | .worldReadable => { owner, anyRead := true, anyWrite := false, aclRead := [], aclWrite := [] }
  | .users read write => { owner, anyRead := false, anyWrite := false, aclRead := read, aclWrite := write }

/-- The operating system: a user has an entry in the list. -/
def Shm.hasEntry (s : Shm) (u : Uid) : Bool := s.aclRead.contains u || s.aclWrite.contains u

/-- The operating system: a user may open the object for reading. -/
def Shm.canRead (s : Shm) (u : Uid) : Bool :=
  u == s.owner || (if s.hasEntry u then s.aclRead.contains u else s.anyRead)

/-- The operating system: a user may open the object for writing. -/
def Shm.canWrite (s : Shm) (u : Uid) : Bool :=
  u == s.owner || (if s.hasEntry u then s.aclWrite.contains u else s.anyWrite)

/-- The permissions of `CreateSharedMemoryForData` (skeleton_memory_manager.cpp 695-710):
the consumers of all qualities may read. -/
def dataPermissions (d : Lola) : Permissions :=
  let users := d.consumers.flatMap (·.2)
  if users.isEmpty && !d.strict then .worldReadable else .users users []

/-- The list of a quality, empty if there is none (skeleton_memory_manager.cpp 757, 762-763). -/
def listOf (l : List (Quality × List Uid)) (q : Quality) : List Uid :=
  match find l q with
  | some users => users
  | none => []

/-- The permissions of `CreateSharedMemoryForControl` (skeleton_memory_manager.cpp 757-775):
the consumers of the quality may read and write. -/
def controlPermissions (d : Lola) (q : Quality) : Permissions :=
  let users := listOf d.consumers q
  if users.isEmpty && !d.strict then .worldWritable else .users users users

/-- `checkUidMatch` (shared_memory_factory_impl.cpp 66-80). -/
def uidMatches (own owner : Uid) (allowed : List Uid) : Bool := owner == own || allowed.contains owner

/-- The check of the owner in `SharedMemoryFactoryImpl::Open` (shared_memory_factory_impl.cpp
165-176). -/
def ownerOk (own owner : Uid) : Option (List Uid) → Bool
  | none => true
  | some allowed => uidMatches own owner allowed

/-- `SharedMemoryFactoryImpl::Open` (shared_memory_factory_impl.cpp 137-179) by a process of
this user. -/
def openShm (s : Shm) (own : Uid) (readWrite : Bool) (allowed : Option (List Uid)) : Bool :=
  s.canRead own && (!readWrite || s.canWrite own) && ownerOk own s.owner allowed

/-- The providers of `OpenSharedMemory` (proxy.cpp 172-183). -/
def providersFor (d : Lola) (q : Quality) : Option (List Uid) :=
  match find d.providers q with
  | some l => some l
  | none => if d.strict then some [] else none

/-- `OpenSharedMemory` (proxy.cpp 165-200): a proxy of the user `cu` with the deployment
`c` connects to the instance that the user `pu` offers with the deployment `p`. -/
def connects (p : Lola) (pu : Uid) (c : Lola) (cu : Uid) (q : Quality) : Bool :=
  openShm (createShm pu (controlPermissions p q)) cu true (providersFor c q) &&
    openShm (createShm pu (dataPermissions p)) cu false (providersFor c q)

/-- `Skeleton::GetAllowedConsumers` (skeleton.cpp 792-818). -/
def allowedConsumers (d : Lola) (q : Quality) : Option (List Uid) :=
  match find d.consumers q with
  | some l => some l
  | none => if d.strict then some [] else none

/-- The check of the user who subscribes to the methods of an instance
(message_passing_service_instance.cpp 675-680). -/
def subscribes (d : Lola) (q : Quality) (u : Uid) : Bool :=
  match allowedConsumers d q with
  | some l => l.contains u
  | none => true

/-- The memory for the calls of a proxy, which the proxy makes for the user of the skeleton
(proxy.cpp 713-721 and 783-793). -/
def methodShm (proxy skeleton : Uid) : Shm := createShm proxy (.users [skeleton] [skeleton])

/-- The skeleton opens this memory when the proxy has subscribed (skeleton.cpp 688-690).
`proxy` is the user from whom the message has come. -/
def opensMethodShm (s : Shm) (skeleton proxy : Uid) : Bool := openShm s skeleton true (some [proxy])

/-- The check of the user who calls a method (message_passing_service_instance.cpp 747-752):
the one who has subscribed. -/
def callOk (subscribed caller : Uid) : Bool := !(subscribed != caller)

end Verif.Access
