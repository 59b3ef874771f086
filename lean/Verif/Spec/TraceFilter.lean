import Verif.Model.TraceFilter
/-! Vocabulary for C108. -/
namespace Verif.Spec.TraceFilter
open Verif.TraceFilter

/-- `v` is the value of `key` in the JSON object `j`. -/
def At (j : Json) (key : String) (v : Json) : Prop := ∃ o, j = .obj o ∧ o.lookup key = some v

/-- `v` is in the JSON list `j`. -/
def Item (j v : Json) : Prop := ∃ l, j = .list l ∧ v ∈ l

/-- The names of the switches of a consumer's trace points in the trace filter file. -/
def notifSwitch : Notif → String
  | .subscribe => "trace_subscribe_send"
  | .unsubscribe => "trace_unsubscribe_send"
  | .stateChange => "trace_subscription_state_changed"
  | .setStateHandler => "trace_subscription_state_change_handler_registered"
  | .unsetStateHandler => "trace_subscription_state_change_handler_deregistered"
  | .callStateHandler => "trace_subscription_state_change_handler_callback"
  | .setHandler => "trace_receive_handler_registered"
  | .unsetHandler => "trace_receive_handler_deregistered"
  | .callHandler => "trace_receive_handler_callback"
  | .getNew => "trace_get_new_samples"
  | .callback => "trace_get_new_samples_callback"

/-- In which part of the entry of a field the switches for getter and setter are. -/
def accPart : Acc → String
  | .get | .getResult => "getter"
  | .set | .setResult => "setter"

/-- Where the switch of a trace point is in the entry of an element: the part of the entry, if any, and its name. -/
def switch : Point → Option String × String
  | .proxyEvent n => (none, notifSwitch n)
  | .proxyField n => (some "notifier", notifSwitch n)
  | .skelEvent .copy => (none, "trace_send")
  | .skelEvent .allocate => (none, "trace_send_allocate")
  | .skelField _ => (some "notifier", "trace_update")
  | .proxyAcc a => (some (accPart a), match a with | .get | .set => "trace_request_send" | _ => "trace_response_received")
  | .skelAcc a => (some (accPart a), match a with | .get | .set => "trace_request_received" | _ => "trace_response_send")

/-- The switch of `p` is on in the entry `el`. -/
def On (el : Json) (p : Point) : Prop :=
  match switch p with
  | (none, s) => At el s (.bool true)
  | (some part, s) => ∃ b, At el part b ∧ At b s (.bool true)

/-- The trace point is one of a field and not of an event. -/
def OfField : Point → Bool
  | .proxyEvent _ | .skelEvent _ => false
  | .proxyField _ | .proxyAcc _ | .skelField _ | .skelAcc _ => true

/-- The trace filter file asks for the trace point `p` of the element `name` of `service`. -/
def Asked (file : Json) (service name : String) (p : Point) : Prop :=
  ∃ ss s es e, At file "services" ss ∧ Item ss s ∧ At s "shortname_path" (.str service) ∧
    At s (if OfField p then "fields" else "events") es ∧ Item es e ∧ At e "shortname" (.str name) ∧ On e p

/-- The events or the fields of an instance and of a type. -/
def instElems (i : Inst) (field : Bool) : List (String × Nat) := if field then i.fields else i.events
def typeElems (t : TypeDep) (field : Bool) : List String := if field then t.fields else t.events

/-- The configuration has tracing slots for the element in the instance `spec`, and the element is one of the service type. -/
def Configured (c : Conf) (service name : String) (field : Bool) (spec : String) : Prop :=
  c.enabled = true ∧ (∃ i ∈ c.insts, i.spec = spec ∧ i.service = service ∧ ∃ n, 0 < n ∧ (name, n) ∈ instElems i field) ∧
    ∃ t ∈ c.types, t.name = service ∧ name ∈ typeElems t field

/-- A name without a zero character. -/
def Plain (s : String) : Prop := '\x00' ∉ s.toList

/-- All names of service types, events and fields are plain. -/
def PlainConf (c : Conf) : Prop := ∀ t ∈ c.types, Plain t.name ∧ ∀ field, ∀ x ∈ typeElems t field, Plain x

/-- The names of a service type and an element are together not longer than 1022 bytes. -/
def Short (service name : String) : Prop := service.utf8ByteSize + name.utf8ByteSize ≤ 1022

def ShortConf (c : Conf) : Prop := ∀ t ∈ c.types, ∀ field, ∀ x ∈ typeElems t field, Short t.name x

/-- Instances are distinct, and so are the events and the fields of an instance. -/
def DistinctConf (c : Conf) : Prop :=
  (c.insts.map (·.spec)).Nodup ∧ ∀ i ∈ c.insts, ∀ field, ((instElems i field).map (·.1)).Nodup

/-- Every value that the parser looks at has the type that the schema asks for. -/
def IsObj (j : Json) : Prop := ∃ l, j = .obj l
def IsList (j : Json) : Prop := ∃ l, j = .list l
def IsStr (j : Json) : Prop := ∃ s, j = .str s
def IsBool (j : Json) : Prop := ∃ b, j = .bool b

/-- All entries of an object whose name begins with "trace_" are Boolean. -/
def Switches (j : Json) : Prop := IsObj j ∧ ∀ k v, At j k v → k.startsWith "trace_" = true → IsBool v

structure WellFormedElem (j : Json) : Prop where
  obj : IsObj j
  name : ∀ v, At j "shortname" v → IsStr v
  switches : ∀ k v, At j k v → k.startsWith "trace_" = true → IsBool v
  parts : ∀ k v, k ∈ ["notifier", "getter", "setter"] → At j k v → Switches v

structure WellFormedService (j : Json) : Prop where
  obj : IsObj j
  name : ∀ v, At j "shortname_path" v → IsStr v
  elems : ∀ k v, k ∈ ["events", "fields"] → At j k v → IsList v ∧ ∀ e, Item v e → WellFormedElem e

structure WellFormed (j : Json) : Prop where
  obj : IsObj j
  services : ∀ v, At j "services" v → IsList v ∧ ∀ s, Item v s → WellFormedService s

/-- What happens to an element of a consumer, seen from outside: whether it is subscribed, whether a receive handler was set and not
unset, and whether it can still be called: Unsubscribe removes it, too. -/
structure Vis where
  subscribed : Bool := false
  handler : Bool := false
  live : Bool := false

def Vis.step (v : Vis) : Op → Vis
  | .subscribe ok _ => { v with subscribed := v.subscribed || ok }
  | .unsubscribe _ => { v with subscribed := false, live := v.live && !v.subscribed }
  | .setHandler _ => { v with handler := true, live := true }
  | .unsetHandler _ => { v with handler := false, live := false }
  | _ => v

/-- What happens in a step, in order. -/
def happens (v : Vis) : Op → List Notif
  | .subscribe _ _ => [.subscribe]
  | .unsubscribe _ => if v.subscribed then [.unsubscribe] else []
  | .setHandler _ => [.setHandler]
  | .unsetHandler _ => if v.handler then [.unsetHandler] else []
  | .getNew guards n _ _ => .getNew :: List.replicate (min n guards) .callback
  | .receive _ => if v.live then [.callHandler] else []
  | .setStateHandler => [.setStateHandler]
  | .unsetStateHandler => [.unsetStateHandler]
  | .stateChange => [.stateChange, .callStateHandler]

/-- What happens in a sequence of steps, in order. -/
def history (v : Vis) : List Op → List Notif
  | [] => []
  | o :: l => happens v o ++ history (v.step o) l

/-- Trace points of changes of the subscription state. -/
def OfState : Notif → Bool
  | .stateChange | .setStateHandler | .unsetStateHandler | .callStateHandler => true
  | _ => false

/-- No trace call of the step switches something off. -/
def Quiet : Op → Prop
  | .subscribe _ a | .unsubscribe a | .setHandler a | .unsetHandler a | .receive a => a = .ok ∨ a = .other
  | .getNew _ _ a as => (a = .ok ∨ a = .other) ∧ ∀ x ∈ as, x = .ok ∨ x = .other
  | _ => True

/-- `a` is the answer to the trace call for `n` in the step. -/
inductive Says : Op → Notif → Answer → Prop
  | subscribe {ok a} : Says (.subscribe ok a) .subscribe a
  | unsubscribe {a} : Says (.unsubscribe a) .unsubscribe a
  | setHandler {a} : Says (.setHandler a) .setHandler a
  | unsetHandler {a} : Says (.unsetHandler a) .unsetHandler a
  | receive {a} : Says (.receive a) .callHandler a
  | getNew {g n a as} : Says (.getNew g n a as) .getNew a
  | callback {g n a x as} : Says (.getNew g n a (x :: as)) .callback x

/-- The trace points of a consumer and of a provider of an event or a field. -/
def proxyPt (field : Bool) (n : Notif) : Point := if field then .proxyField n else .proxyEvent n
def skelPt (field : Bool) (o : Out) : Point := if field then .skelField o else .skelEvent o

/-- The trace point is asked for by the file and configured. -/
def Wanted (c : Conf) (file : Json) (e : Elem) (inst : String) (p : Point) : Prop :=
  Asked file e.service e.name p ∧ Configured c e.service e.name e.field inst

end Verif.Spec.TraceFilter
