/-!
NotifyEventRemote and CopyNodeIdentifiers: the update notification is sent to all nodes of a set, which is copied in portions
(score/mw/com/impl/bindings/lola/messaging/message_passing_service_instance.cpp:874-948, node_identifier_copier.h:50-91).

The lock on the set is released between the portions, so the set may be another one each time: `sets i` is the set at the time of
the `i`-th portion. A std::set is an ascending list. Node identifiers (pid_t) are integers below `maxPid`.
-/
namespace Verif.NotifyNodes

/-- NodeIdTmpBufferSize (message_passing_service_instance.h:179). -/
def bufSize : Nat := 20

/-- Bound of the loop counter, a std::uint8_t (message_passing_service_instance.cpp:880-889). -/
def maxLoops : Nat := 255

/-- std::numeric_limits<pid_t>::max() -/
def maxPid : Int := 2 ^ 31 - 1

/-- std::set::lower_bound: the elements from the first one that is not smaller. -/
def lowerBound (set : List Int) (start : Int) : List Int := set.dropWhile (· < start)

/-- CopyNodeIdentifiers (node_identifier_copier.h:50-91): up to a buffer full, and whether there are further ones. -/
def copyNodes (set : List Int) (start : Int) : List Int × Bool :=
  ((lowerBound set start).take bufSize, decide ((lowerBound set start).length > bufSize))

/-- The loop of NotifyEventRemote (message_passing_service_instance.cpp:882-939): `i` is the number of portions copied so far
(`loop_count`), `fuel` the number of portions the loop counter still allows. Result: the nodes a message is sent to, in order. -/
def loop (sets : Nat → List Int) (start : Int) (i : Nat) : Nat → List Int
  | 0 => []
  | fuel + 1 =>
    let c := copyNodes (sets i) start
    if c.2 then
      let last := c.1.getLastD 0
      if last < maxPid then c.1 ++ loop sets (last + 1) (i + 1) fuel else c.1
    else c.1

/-- NotifyEventRemote (874-948): starts with node 0. -/
def notifyRemote (sets : Nat → List Int) : List Int := loop sets 0 0 maxLoops

end Verif.NotifyNodes
