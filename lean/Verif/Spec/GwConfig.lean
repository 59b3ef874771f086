import Verif.Model.GwConfig
import Verif.Spec.ConfigParse

/-! What the files of the gateway say, and what their schemas allow. -/
namespace Verif.GwConfig
open Verif.Json

/-- The object has no such member. -/
def Absent (o : Obj) (k : String) : Prop := ∀ v, (k, v) ∉ o

/-- The member is this list of texts; a missing member is the empty list. -/
def ListAt (o : Obj) (k : String) (l : List String) : Prop :=
  (k, .list (l.map .str)) ∈ o ∨ (Absent o k ∧ l = [])

/-- The member is this text; a missing member is the empty text. -/
def TextAt (o : Obj) (k : String) (s : String) : Prop := (k, .str s) ∈ o ∨ (Absent o k ∧ s = "")

/-- The reference to the transport layer; anything but an object counts as missing. -/
def LayerAt (o : Obj) (layer path : String) : Prop :=
  (∃ t, ("transport-layer", .obj t) ∈ o ∧ TextAt t "id" layer ∧ TextAt t "config-path" path) ∨
    ((∀ t, ("transport-layer", .obj t) ∉ o) ∧ layer = "" ∧ path = "")

/-- The file of the gateway says this. -/
def GatewaySays (j : Json) (c : GwConf) : Prop :=
  ∃ o, j = .obj o ∧ ListAt o "forwarded-services" c.forwarded ∧
    ListAt o "expected-received-services" c.received ∧ LayerAt o c.layer c.path

/-- The file of the sample transport says this. -/
def SocketSays (j : Json) (c : SockConf) : Prop :=
  ∃ o t, j = .obj o ∧ ("hypervisor-socket", .obj t) ∈ o ∧ ("remote-ip", .str c.ip) ∈ t ∧
    ("local-port", .num c.localPort.toNat) ∈ t ∧ ("remote-port", .num c.remotePort.toNat) ∈ t ∧
    (("request-timeout-ms", .num c.timeout.toNat) ∈ t ∨ (Absent t "request-timeout-ms" ∧ c.timeout = 5000))

/-! ### The schemas -/

def IsText (v : Json) : Prop := ∃ s, v = .str s

def IsInt (v : Json) : Prop := ∃ n, v = .num n

def IsTexts (v : Json) : Prop := ∃ l : List String, v = .list (l.map .str)

/-- "transport-layer" of mw_com_gateway_config_schema.json. -/
def SchemaLayer (v : Json) : Prop :=
  ∃ t, v = .obj t ∧ (∀ k w, (k, w) ∈ t → (k = "id" ∨ k = "config-path") ∧ IsText w) ∧
    (∃ w, ("id", w) ∈ t) ∧ ∃ w, ("config-path", w) ∈ t

/-- mw_com_gateway_config_schema.json. -/
def SchemaGateway (j : Json) : Prop :=
  ∃ o, j = .obj o ∧ ∀ k v, (k, v) ∈ o → (k = "forwarded-services" ∧ IsTexts v) ∨
    (k = "expected-received-services" ∧ IsTexts v) ∨ (k = "transport-layer" ∧ SchemaLayer v)

/-- "hypervisor-socket" of mw_com_gateway_sample_transport_config_schema.json. -/
def SchemaSock (t : Obj) : Prop :=
  (∀ k w, (k, w) ∈ t → (k = "remote-ip" ∧ IsText w) ∨ (k = "local-port" ∧ IsInt w) ∨
    (k = "remote-port" ∧ IsInt w) ∨ (k = "request-timeout-ms" ∧ IsInt w)) ∧
    (∃ w, ("remote-ip", w) ∈ t) ∧ (∃ w, ("local-port", w) ∈ t) ∧ ∃ w, ("remote-port", w) ∈ t

/-- mw_com_gateway_sample_transport_config_schema.json. -/
def SchemaSocket (j : Json) : Prop :=
  ∃ o, j = .obj o ∧ (∀ k v, (k, v) ∈ o → k = "hypervisor-socket" ∧ ∃ t, v = .obj t ∧ SchemaSock t) ∧
    ∃ v, ("hypervisor-socket", v) ∈ o

/-- The ports have 16 bits and the timeout has 32. -/
def InRange (j : Json) : Prop :=
  ∀ o t, j = .obj o → ("hypervisor-socket", .obj t) ∈ o → ∀ k n, (k, .num n) ∈ t →
    0 ≤ n ∧ n < 4294967296 ∧ (k = "local-port" ∨ k = "remote-port" → n < 65536)

end Verif.GwConfig
