import Verif.Model.Tracker
/-! Vocabulary for C24, C25 and C69. -/

namespace Verif.Props.TrackerSpec
open Verif.Tracker

/-- SamplePtr objects that hold a sample. -/
def alive (G : Nat) (s : St) : Nat := count s.guard G

/-- Samples reserved by running GetNewSamples calls. -/
def pending (T : Nat) (s : St) : Nat := sumTo (fun u => reserved (s.pc u)) T

/-- Event slots that are referenced on behalf of this consumer. -/
def slotsReferenced (T G : Nat) (s : St) : Nat := count s.ref G + sumTo (fun u => refsOf (s.pc u)) T

/-- Threads inside a SamplePtr destructor, between giving back the sample and dereferencing the slot. -/
def inDestructor (T : Nat) (s : St) : Nat := count (fun u => unrefing (s.pc u)) T

end Verif.Props.TrackerSpec
