import Verif.Model.Paths

/-! What is named. -/
namespace Verif.PathsSpec
open Verif.Paths

/-- Everything that processes find by its name. -/
inductive Thing where
  /-- a shared memory object of service `sid`, instance `iid`, shared between virtual machines or not -/
  | shm (vm : Bool) (sid iid : Nat) (s : Shm)
  /-- the lock file of a shared memory object -/
  | lock (vm : Bool) (sid iid : Nat) (s : Shm)
  /-- the usage or existence marker of a service instance -/
  | marker (usage : Bool) (sid iid : Nat)
  /-- a flag file: process `pid` offers the instance with a quality; `d` is the number of the offer -/
  | flag (sid iid pid : Nat) (q : Quality) (d : Nat)
  /-- the endpoint at which process `pid` receives messages -/
  | endpoint (pid : Nat) (q : Quality)
  deriving DecidableEq, Repr

/-- The name of a thing. -/
def name : Thing → Name
  | .shm vm sid iid s => shmName vm sid iid s
  | .lock vm sid iid s => lockName (shmName vm sid iid s)
  | .marker u sid iid => markerName u sid iid
  | .flag sid iid pid q d => flagName sid iid pid q d
  | .endpoint pid q => endpointName pid q

end Verif.PathsSpec
