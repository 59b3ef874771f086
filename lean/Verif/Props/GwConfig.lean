import Verif.Proofs.GwConfig

namespace Verif.Demo.GwConfig
open Verif.Json Verif.GwConfig Verif.ConfigSays

def gateway : Json := .obj [
  ("forwarded-services", .list [.str "abc/Speed", .str "9 bad", .str "abc/Light"]),
  ("transport-layer", .obj [("id", .str "sample_hypervisor"), ("config-path", .str "/etc/socket.json")]),
  ("expected-received-services", .list [.str "abc/Door"])]

def gatewayConf : GwConf :=
  ⟨["abc/Speed", "9 bad", "abc/Light"], ["abc/Door"], "sample_hypervisor", "/etc/socket.json"⟩

/-- A socket with these ports. -/
def socketWith (l r : Int) : Json := .obj [("hypervisor-socket", .obj [("remote-port", .num r),
  ("remote-ip", .str "10.0.0.2"), ("local-port", .num l)])]

def files (p : String) : Option Json :=
  if p = "/etc/gateway.json" then some gateway
  else if p = "/etc/socket.json" then some (socketWith 1234 4321) else none

theorem pstr (l : List String) : Proper (.list (l.map .str)) := by
  refine .list _ fun j h => ?_
  obtain ⟨s, _, e⟩ := List.mem_map.1 h
  rw [← e]; exact .str s

theorem proper_gateway : Proper gateway := by
  refine .obj _ (by unfold Distinct; decide) ?_
  intro k j h
  simp only [List.mem_cons, Prod.mk.injEq, List.not_mem_nil, or_false] at h
  rcases h with ⟨_, h⟩ | ⟨_, h⟩ | ⟨_, h⟩ <;> subst h
  · exact pstr ["abc/Speed", "9 bad", "abc/Light"]
  · refine .obj _ (by unfold Distinct; decide) ?_
    intro k j h
    simp only [List.mem_cons, Prod.mk.injEq, List.not_mem_nil, or_false] at h
    rcases h with ⟨_, h⟩ | ⟨_, h⟩ <;> subst h <;> exact .str _
  · exact pstr ["abc/Door"]

theorem proper_socket (l r : Int) : Proper (socketWith l r) := by
  refine .obj _ (by unfold Distinct; simp) ?_
  intro k j h
  simp only [List.mem_cons, Prod.mk.injEq, List.not_mem_nil, or_false] at h
  obtain ⟨_, h⟩ := h
  subst h
  refine .obj _ (by unfold Distinct; simp) ?_
  intro k j h
  simp only [List.mem_cons, Prod.mk.injEq, List.not_mem_nil, or_false] at h
  rcases h with ⟨_, h⟩ | ⟨_, h⟩ | ⟨_, h⟩ <;> subst h
  · exact .num _
  · exact .str _
  · exact .num _

theorem schema_socket (l r : Int) : SchemaSocket (socketWith l r) := by
  refine ⟨_, rfl, ?_, ⟨_, List.mem_cons_self ..⟩⟩
  intro k v h
  simp only [List.mem_cons, Prod.mk.injEq, List.not_mem_nil, or_false] at h
  obtain ⟨h, h'⟩ := h
  refine ⟨h, _, h', ?_, ⟨.str "10.0.0.2", by simp⟩, ⟨.num l, by simp⟩, ⟨.num r, by simp⟩⟩
  intro k w h
  simp only [List.mem_cons, Prod.mk.injEq, List.not_mem_nil, or_false] at h
  rcases h with ⟨e, h⟩ | ⟨e, h⟩ | ⟨e, h⟩ <;> subst e <;> subst h
  · exact .inr (.inr (.inl ⟨rfl, _, rfl⟩))
  · exact .inl ⟨rfl, _, rfl⟩
  · exact .inr (.inl ⟨rfl, _, rfl⟩)

end Verif.Demo.GwConfig

/-!
# C123  The configuration of the gateway

A file is a JSON value; `Proper` says that no object has a member twice.  The result `none` is the
end of the process.
-/
namespace Verif.Props.C123
open Verif.Json Verif.GwConfig Verif.ConfigSays Verif.Demo.GwConfig

/-- **The gateway has what its file says.**  The file is accepted exactly if it says something, and the
lists of services (in their order) and the reference to the transport layer are those of the file. -/
theorem gateway_as_written (j : Json) (p : Proper j) (c : GwConf) :
    parseGateway j = some c ↔ GatewaySays j c := gateway_iff j p c

example : Proper gateway ∧ parseGateway gateway = some gatewayConf :=
  ⟨proper_gateway, by decide +kernel⟩

/-- **The transport has what its file says.** -/
theorem socket_as_written (j : Json) (p : Proper j) (c : SockConf) :
    parseSocket j = some c ↔ SocketSays j c := parseSocket_iff j p c

example : Proper (socketWith 1234 4321) ∧
    parseSocket (socketWith 1234 4321) = some ⟨"10.0.0.2", 1234, 4321, 5000⟩ :=
  ⟨proper_socket _ _, by decide +kernel⟩

/-- **Start.**  The gateway comes up exactly if its file can be read, the transport layer is the known
one, and the file of the transport can be read; it then has what the two files say. -/
theorem comes_up_iff (files : String → Option Json) (hp : ∀ q j, files q = some j → Proper j)
    (path : String) (c : GwConf) (k : SockConf) :
    bringUp files path = some (c, k) ↔ ∃ j j', files path = some j ∧ GatewaySays j c ∧
      c.layer = "sample_hypervisor" ∧ files c.path = some j' ∧ SocketSays j' k := by
  rw [bringUp_iff]
  constructor
  · rintro ⟨j, a, b, d, j', e, f⟩
    exact ⟨j, j', a, (gateway_iff j (hp _ _ a) c).1 b, d, e, (parseSocket_iff j' (hp _ _ e) k).1 f⟩
  · rintro ⟨j, j', a, b, d, e, f⟩
    exact ⟨j, a, (gateway_iff j (hp _ _ a) c).2 b, d, j', e, (parseSocket_iff j' (hp _ _ e) k).2 f⟩

example : bringUp files "/etc/gateway.json" = some (gatewayConf, ⟨"10.0.0.2", 1234, 4321, 5000⟩) := by
  decide +kernel

/-- **Only listed services come in.**  A service of the peer is accepted exactly if its name is in the
list of the file, without a pattern or a prefix. -/
theorem accepted_iff (o : Obj) (p : Proper (.obj o)) (c : GwConf) (h : parseGateway (.obj o) = some c)
    (name : String) : accepted c name = true ↔
      ∃ l, ("expected-received-services", .list l) ∈ o ∧ .str name ∈ l := by
  obtain ⟨o', e, _, hr, _⟩ := (gateway_iff _ p c).1 h
  injection e with e
  subst e
  have d := distinct_of p
  unfold accepted
  simp only [List.any_eq_true, beq_iff_eq, exists_eq_right]
  rcases hr with hr | ⟨ha, hr⟩
  · constructor
    · intro hm; exact ⟨_, hr, List.mem_map.2 ⟨name, hm, rfl⟩⟩
    · rintro ⟨l, hl, hm⟩
      have a := (find_iff d _ _).2 hr
      rw [(find_iff d _ _).2 hl] at a
      injection a with a
      injection a with a
      subst a
      obtain ⟨s, hs, e⟩ := List.mem_map.1 hm
      injection e with e
      subst e
      exact hs
  · rw [hr]
    constructor
    · intro hm; cases hm
    · rintro ⟨l, hl, _⟩; exact absurd hl (ha _)

example : accepted gatewayConf "abc/Door" = true ∧ accepted gatewayConf "abc/Doo" = false := by
  decide +kernel

/-- **Listed services go out.**  The services that the gateway looks for are those of the file, each as
often as it is there, in this order; names that are no instance specifiers and searches that cannot
be started are left out, and do not hinder the others. -/
theorem forwarded_searched (j : Json) (p : Proper j) (c : GwConf) (h : parseGateway j = some c)
    (starts : String → Bool) :
    (∃ o, j = .obj o ∧ ListAt o "forwarded-services" c.forwarded) ∧
    (searched starts c.forwarded).Sublist c.forwarded ∧
    ∀ s, (ValidName s.toList ∧ starts s = true →
        (searched starts c.forwarded).count s = c.forwarded.count s) ∧
      (¬ (ValidName s.toList ∧ starts s = true) → s ∉ searched starts c.forwarded) := by
  obtain ⟨o, e, hf, _⟩ := (gateway_iff _ p c).1 h
  rw [searched_eq]
  refine ⟨⟨o, e, hf⟩, List.filter_sublist, fun s => ⟨fun ⟨a, b⟩ => ?_, fun a => ?_⟩⟩
  · refine List.count_filter ?_
    simp [(Verif.ConfigParse.shortNameValid_iff _).2 a, b]
  · intro hm
    have := (List.mem_filter.1 hm).2
    simp only [Bool.and_eq_true] at this
    exact a ⟨(Verif.ConfigParse.shortNameValid_iff _).1 this.1, this.2⟩

example : searched (fun _ => true) gatewayConf.forwarded = ["abc/Speed", "abc/Light"] := by decide +kernel

/-- **Files of the schema are accepted.**  For the gateway always, for the transport if the numbers
have at most 16 and 32 bits.

Missing for the full claim: the schema of the transport has no such limits (`port_fails`), and the
gateway needs a transport layer that its schema does not ask for (`no_layer_fails`). -/
theorem schema_accepted_partial (j : Json) (p : Proper j) :
    (SchemaGateway j → ∃ c, parseGateway j = some c) ∧
    (SchemaSocket j → InRange j → ∃ c, parseSocket j = some c) := by
  constructor
  · intro h
    obtain ⟨c, hc⟩ := gateway_schema h
    exact ⟨c, (gateway_iff j p c).2 hc⟩
  · intro h r
    obtain ⟨c, hc⟩ := socket_schema h r
    exact ⟨c, (parseSocket_iff j p c).2 hc⟩

example : SchemaSocket (socketWith 1234 4321) ∧ InRange (socketWith 1234 4321) := by
  refine ⟨schema_socket _ _, ?_⟩
  intro o t e h k n hn
  injection e with e
  subst e
  simp only [List.mem_cons, Prod.mk.injEq, true_and, Json.obj.injEq, List.not_mem_nil, or_false] at h
  subst h
  simp only [List.mem_cons, Prod.mk.injEq, Json.num.injEq, List.not_mem_nil, or_false, reduceCtorEq,
    and_false, false_or] at hn
  rcases hn with ⟨_, hn⟩ | ⟨_, hn⟩ <;> subst hn <;> exact ⟨by decide, by decide, fun _ => by decide⟩

/-- **Violated.**  One would expect that a file that the schema allows does not end the process.  The
schema allows every integer as a port. -/
theorem port_fails : ∃ j, Proper j ∧ SchemaSocket j ∧ parseSocket j = none :=
  ⟨socketWith 70000 4321, proper_socket _ _, schema_socket _ _, by decide +kernel⟩

/-- **Violated.**  The schema does not ask for a transport layer, and a gateway without one ends the
process, whatever files there are. -/
theorem no_layer_fails : ∃ j, Proper j ∧ SchemaGateway j ∧
    ∀ (files : String → Option Json) (path : String), files path = some j → bringUp files path = none := by
  refine ⟨.obj [], .obj _ (by unfold Distinct; simp) (fun k j h => by cases h),
    ⟨[], rfl, fun k v h => by cases h⟩, ?_⟩
  intro files path h
  unfold bringUp
  rw [h]
  have e : parseGateway (.obj []) = some ⟨[], [], "", ""⟩ := by decide +kernel
  simp only [e, create]
  rw [if_neg (by decide)]

/-- **Violated.**  One would expect that a file that the schema forbids is refused.  A misspelled member
is ignored: here nothing is forwarded and nothing is accepted. -/
theorem misspelled_fails : ∃ j, Proper j ∧ ¬ SchemaGateway j ∧
    parseGateway j = some ⟨[], [], "", ""⟩ := by
  refine ⟨.obj [("forwarded-service", .list [.str "abc/Speed"])], ?_, ?_, by decide +kernel⟩
  · refine .obj _ (by unfold Distinct; simp) ?_
    intro k j h
    simp only [List.mem_cons, Prod.mk.injEq, List.not_mem_nil, or_false] at h
    obtain ⟨_, h⟩ := h
    subst h
    exact pstr ["abc/Speed"]
  · rintro ⟨o, e, m⟩
    injection e with e
    subst e
    rcases m _ _ (List.mem_cons_self ..) with ⟨a, _⟩ | ⟨a, _⟩ | ⟨a, _⟩ <;> exact absurd a (by decide)

end Verif.Props.C123
