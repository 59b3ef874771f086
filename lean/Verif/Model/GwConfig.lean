import Verif.Model.ConfigParse

/-!
# The configuration of the gateway

The gateway has one file with the services and the transport layer, and the sample transport has
another one with the socket.  The result `none` of a function is the end of the process
(`std::terminate`, an assertion, or `value()` of an error in a `noexcept` function).

Simplifications:
* The text is a tree already (`Model.Json`); numbers are integers.
* The IP address is the text of the file: `score::os::Ipv4Address` is not in the repository.
* The transport layer is its configuration; what it does is the matter of C37 to C42.
-/
namespace Verif.GwConfig
open Verif.Json Verif.Ident Verif.ConfigParse

/-- `GatewayConfiguration` (gateway_application/configuration/gateway_configuration.h 23-62). -/
structure GwConf where
  forwarded : List String
  received : List String
  layer : String
  path : String
deriving DecidableEq, Repr

/-- `HyperVisorSocketConfiguration`
(transport_layer/sample/configuration/hypervisor_socket_configuration.h 24-33). -/
structure SockConf where
  ip : String
  localPort : UInt16
  remotePort : UInt16
  timeout : UInt32
deriving DecidableEq, Repr

/-- `ParseForwardedServices` and `ParseReceivedServices` (gateway_config_parser.cpp 34-71). -/
def services (o : Obj) (key : String) : Option (List String) :=
  match find o key with
  | none => some []
  | some v =>
    match asList v with
    | none => none
    | some l => mapAll asStr l

/-- One text of `ParseTransportLayerRef` (gateway_config_parser.cpp 88-98). -/
def text (t : Obj) (key : String) : Option String :=
  match find t key with
  | none => some ""
  | some v => asStr v

/-- `ParseTransportLayerRef` (gateway_config_parser.cpp 73-103). -/
def layerRef (o : Obj) : Option (String × String) :=
  match find o "transport-layer" with
  | none => some ("", "")
  | some v =>
    match asObj v with
    | none => some ("", "")
    | some t =>
      match text t "id", text t "config-path" with
      | some a, some b => some (a, b)
      | _, _ => none

/-- `ParseGatewayConfig` (gateway_config_parser.cpp 122-135). -/
def parseGateway (j : Json) : Option GwConf :=
  match asObj j with
  | none => none
  | some o =>
    match layerRef o, services o "forwarded-services", services o "expected-received-services" with
    | some (a, b), some f, some r => some ⟨f, r, a, b⟩
    | _, _, _ => none

/-- The timeout (sample_transport_config_parser.cpp 87-91; the default is in
hypervisor_socket_configuration.h 32). -/
def timeout (t : Obj) : Option UInt32 :=
  match find t "request-timeout-ms" with
  | none => some 5000
  | some v => asU32 v

/-- The members of the socket (sample_transport_config_parser.cpp 70-93). -/
def socket (t : Obj) : Option SockConf :=
  match find t "remote-ip", find t "local-port", find t "remote-port" with
  | some i, some l, some r =>
    match asStr i, asU16 l, asU16 r, timeout t with
    | some i, some l, some r, some n => some ⟨i, l, r, n⟩
    | _, _, _, _ => none
  | _, _, _ => none

/-- `ParseSampleTransportConfig` (sample_transport_config_parser.cpp 53-94). -/
def parseSocket (j : Json) : Option SockConf :=
  match asObj j with
  | none => none
  | some o =>
    match find o "hypervisor-socket" with
    | none => none
    | some v =>
      match asObj v with
      | none => none
      | some t => socket t

/-- `TransportFactory::Create` (transport_layer/transport_factory.cpp 25-41); `files` are the files
that can be read and parsed (sample_transport_config_parser.cpp 38-51). -/
def create (files : String → Option Json) (layer path : String) : Option SockConf :=
  if layer = "sample_hypervisor" then
    match files path with
    | none => none
    | some j => parseSocket j
  else none

/-- The configuration is read (gateway_config_parser.cpp 107-120) and the application set up
(gateway_application.cpp 64-72). -/
def bringUp (files : String → Option Json) (path : String) : Option (GwConf × SockConf) :=
  match files path with
  | none => none
  | some j =>
    match parseGateway j with
    | none => none
    | some c =>
      match create files c.layer c.path with
      | none => none
      | some k => some (c, k)

/-- `IsServiceInstanceAccepted` (gateway_application.cpp 79-87). -/
def accepted (c : GwConf) (name : String) : Bool := c.received.any (· == name)

/-- `StartServiceDiscovery` (gateway_application.cpp 89-126): the searches that were started;
`starts` says whether `StartFindService` succeeds. -/
def searched (starts : String → Bool) : List String → List String
  | [] => []
  | s :: l =>
    match makeSpecifier s with
    | none => searched starts l
    | some n => if starts n then n :: searched starts l else searched starts l

end Verif.GwConfig
