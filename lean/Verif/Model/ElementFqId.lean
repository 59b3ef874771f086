/-! /repo/score/mw/com/impl/bindings/lola/element_fq_id.{h,cpp}: the key of service elements. -/
namespace Verif.ElementFqId

/-- /repo/score/mw/com/impl/service_element_type.h:30-36. -/
inductive ElementType where
  | invalid
  | event
  | field
  | method
  deriving DecidableEq, Repr

/-- element_fq_id.h: the members. -/
structure Id where
  service : UInt16
  element : UInt16
  inst : UInt16
  type : ElementType
  deriving DecidableEq, Repr

/-- Constructor from a raw element type (element_fq_id.cpp:33-49); `none` is std::terminate. -/
def ofRaw (service element inst : UInt16) (type : UInt8) : Option Id :=
  if type > 2 then none
  else if type = 0 then some ⟨service, element, inst, .invalid⟩
  else if type = 1 then some ⟨service, element, inst, .event⟩
  else some ⟨service, element, inst, .field⟩

/-- operator== (element_fq_id.cpp:79-88). -/
def eq (a b : Id) : Bool := a.service == b.service && a.element == b.element && a.inst == b.inst

/-- operator< (element_fq_id.cpp:90-101). -/
def lt (a b : Id) : Bool :=
  if a.service = b.service then
    if a.inst = b.inst then decide (a.element < b.element) else decide (a.inst < b.inst)
  else decide (a.service < b.service)

/-- IsElementEvent, IsElementField (element_fq_id.cpp:69-77). -/
def isEvent (a : Id) : Bool := a.type == .event
def isField (a : Id) : Bool := a.type == .field

end Verif.ElementFqId
