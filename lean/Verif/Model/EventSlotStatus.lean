/-!
Model of `EventSlotStatus` (lola/event_slot_status.h, lola/event_slot_status.cpp).
The 64-bit word `data_` is a `BitVec 64`.
-/
namespace Verif.Slot

/-- `EventSlotStatus::value_type` (lola/event_slot_status.h:41). -/
abbrev Word := BitVec 64

/-- `INVALID_EVENT` (lola/event_slot_status.cpp:20). -/
def invalidEvent : Word := 0#64

/-- `IN_WRITING` = maximum of `SubscriberCount` (uint32) (lola/event_slot_status.cpp:23). -/
def inWriting : Word := 0x00000000FFFFFFFF#64

/-- `TIMESTAMP_MAX` (lola/event_slot_status.h:54). -/
def timestampMax : BitVec 32 := 0xFFFFFFFF#32

/-- `GetReferenceCount` (lola/event_slot_status.cpp:34-37). -/
def getReferenceCount (w : Word) : BitVec 32 := (w &&& 0x00000000FFFFFFFF#64).setWidth 32

/-- `GetTimeStamp` (lola/event_slot_status.cpp:39-42). -/
def getTimeStamp (w : Word) : BitVec 32 := (w >>> 32).setWidth 32

/-- `IsInvalid` (lola/event_slot_status.cpp:44-47). -/
def isInvalid (w : Word) : Bool := w == invalidEvent

/-- `IsInWriting` (lola/event_slot_status.cpp:49-52). -/
def isInWriting (w : Word) : Bool := w == inWriting

/-- `SetTimeStamp`: overwrites the whole word (lola/event_slot_status.cpp:64-67). -/
def setTimeStamp (ts : BitVec 32) : Word := (ts.setWidth 64) <<< 32

/-- `SetReferenceCount` (lola/event_slot_status.cpp:69-72). -/
def setReferenceCount (w : Word) (rc : BitVec 32) : Word :=
  (w &&& 0xFFFFFFFF00000000#64) ||| rc.setWidth 64

/-- Constructor from timestamp and reference count (lola/event_slot_status.cpp:28-32). -/
def make (ts rc : BitVec 32) : Word := setReferenceCount (setTimeStamp ts) rc

/-- `IsTimeStampBetween` (lola/event_slot_status.cpp:74-84). -/
def isTimeStampBetween (w : Word) (min max : BitVec 32) : Bool :=
  !(isInWriting w) && !(isInvalid w) && decide (min < getTimeStamp w) && decide (getTimeStamp w < max)

/-- `IsUsed` (lola/event_slot_status.cpp:103-106). -/
def isUsed (w : Word) : Bool := getReferenceCount w != 0#32 || isInWriting w

end Verif.Slot
