import Verif.Proofs.MethodServe
/-! C58 and C71 to C73: who may subscribe to and call methods, and what a method handler uses. -/

namespace Verif.Demo.MethodSub
open Verif.MethodSub

/-- A process with two services, both with methods 1 and 2. Service 0 is for the uids 1000 and 2000 only. -/
def cfg : Cfg := ⟨4, fun _ => [1, 2], fun _ => true, fun k _ => if k = 0 then some [1000, 2000] else none⟩

/-- A consumer (application 7, process 100, uid 1000) subscribes its proxy 0 to both methods and calls method 2. -/
def use : List Op :=
  [.offer 0, .subMsg 0 0 .qm ⟨7, 0⟩ 1000 100, .subRun 0 (some [1, 2]), .callMsg 1 .qm ⟨7, 0⟩ 2 1000, .callEnter 1, .callUse 1]

def reg (m : Nat) : Reg := ⟨0, .qm, ⟨7, 0⟩, m, 1000, 100, 1, 0⟩

/-- The consumer subscribes proxy 0 to service 0; it crashes, and when it comes back, its proxy 0 is for service 1. -/
def otherOrder : List Op :=
  [.offer 0, .offer 1, .subMsg 0 0 .qm ⟨7, 0⟩ 1000 100, .subRun 0 (some [1]),
   .subMsg 0 1 .qm ⟨7, 0⟩ 1000 200, .subRun 0 (some [1])]

/-- A subscription that comes in while the service is being stopped; the service is offered again and the consumer, still the same
process, subscribes again. -/
def racingStop : List Op :=
  [.offer 0, .subMsg 0 0 .qm ⟨7, 0⟩ 1000 100, .stop 0, .stop 0, .subRun 0 (some [1]), .stop 0, .stop 0, .stop 0,
   .offer 0, .subMsg 0 0 .qm ⟨7, 0⟩ 1000 100, .subRun 0 (some [1])]

/-- The consumer, using method 1 only, crashed; its next process uses method 2 only; then method 1 is called for the old proxy. -/
def stale : List Op :=
  [.offer 0, .subMsg 0 0 .qm ⟨7, 0⟩ 1000 100, .subRun 0 (some [1]), .subMsg 0 0 .qm ⟨7, 0⟩ 1000 200, .subRun 0 (some [2]),
   .callMsg 1 .qm ⟨7, 0⟩ 1 1000, .callEnter 1, .callUse 1]

/-- While an ASIL-B consumer's call is being processed, somebody who is not allowed to use the service unsubscribes the consumer's
proxy, through the message passing server for QM. -/
def foreign : List Op :=
  [.offer 0, .subMsg 0 0 .b ⟨7, 0⟩ 1000 100, .subRun 0 (some [1]), .callMsg 0 .b ⟨7, 0⟩ 1 1000, .callEnter 0,
   .unsubMsg 1 0 .qm ⟨7, 0⟩, .unsubRun 1, .callUse 0]

/-- Another allowed consumer, uid 2000, subscribes under the application id of the first. -/
def takeover : List Op :=
  [.offer 0, .subMsg 0 0 .qm ⟨7, 0⟩ 1000 100, .subRun 0 (some [1]), .subMsg 1 0 .qm ⟨7, 0⟩ 2000 300, .subRun 1 (some [1])]

end Verif.Demo.MethodSub

namespace Verif.Props.C58
open Verif.MethodSub

/-- A service's subscription handler runs only for a caller whose uid the configuration allows for that service and level. -/
theorem subscribe_only_allowed (c : Cfg) (s : St) (h : Reachable c s) (k : Nat) (l : Lvl) (p : Proxy) (uid pid : Nat)
    (he : .subscribed k l p uid pid ∈ s.log) : c.Allows k l uid := by
  obtain ⟨a, b, hab⟩ := List.append_of_mem he
  have := (inv_of_reachable h).log
  rw [hab] at this
  exact (logOk_split this).1

/-- A method handler runs only for the method that is called and only for a caller with the uid with which the calling proxy was
subscribed before to that service, at the level at which it calls, which the configuration allows. -/
theorem call_only_subscriber (c : Cfg) (s : St) (h : Reachable c s) (r : Reg) (uid : Nat) (l : Lvl) (p : Proxy) (m : Nat)
    (post pre : List Ev) (he : s.log = post ++ .called r uid l p m :: pre) :
    r.method = m ∧ ∃ pid, .subscribed r.skel l p uid pid ∈ pre ∧ c.Allows r.skel l uid := by
  have hlog := (inv_of_reachable h).log
  rw [he] at hlog
  obtain ⟨⟨rfl, ⟨rfl, rfl, rfl⟩, h2⟩, h3⟩ := logOk_split hlog
  obtain ⟨a, b, rfl⟩ := List.append_of_mem h2
  obtain ⟨h4, _⟩ := logOk_split h3
  replace h4 : Ev.subscribed r.skel r.lvl r.proxy r.uid r.pid ∈ b := h4
  refine ⟨rfl, r.pid, List.mem_append_right _ (List.mem_cons_of_mem _ h4), ?_⟩
  obtain ⟨a', b', rfl⟩ := List.append_of_mem h4
  rw [show a ++ Ev.registered r :: (a' ++ Ev.subscribed r.skel r.lvl r.proxy r.uid r.pid :: b') =
    (a ++ Ev.registered r :: a') ++ Ev.subscribed r.skel r.lvl r.proxy r.uid r.pid :: b' by simp] at h3
  exact (logOk_split h3).1

/-- In the example the handlers are run for an allowed consumer. -/
example : (run Demo.MethodSub.cfg init Demo.MethodSub.use).log =
    [.used (Demo.MethodSub.reg 2) true, .called (Demo.MethodSub.reg 2) 1000 .qm ⟨7, 0⟩ 2, .registered (Demo.MethodSub.reg 2),
     .registered (Demo.MethodSub.reg 1), .subscribed 0 .qm ⟨7, 0⟩ 1000 100] := by decide +kernel

/-- Neither a uid that is not allowed, nor a caller with another uid than the subscriber's gets through. -/
example : (run Demo.MethodSub.cfg init (Demo.MethodSub.use ++
      [.subMsg 0 0 .qm ⟨8, 0⟩ 3000 400, .subRun 0 (some [1]), .callMsg 1 .qm ⟨7, 0⟩ 2 2000, .callEnter 1, .callUse 1])).log =
    (run Demo.MethodSub.cfg init Demo.MethodSub.use).log := by decide +kernel

/-- Finding: an unsubscription is not checked at all. In the example a process takes away the subscription of another one; the
message carries no uid, so every process that can send messages to the provider can do so, at any level. -/
theorem anyone_can_unsubscribe :
    ∃ ops, (run Demo.MethodSub.cfg init Demo.MethodSub.use).regs.length = 2 ∧
      ops = [Op.unsubMsg 3 0 .b ⟨7, 0⟩, .unsubRun 3] ∧
      (run Demo.MethodSub.cfg init (Demo.MethodSub.use ++ ops)).regs = [] :=
  ⟨_, by decide +kernel, rfl, by decide +kernel⟩

/-- Finding: the application id in a subscription is not checked against the sender. An allowed consumer that uses the id of
another one takes over its handlers: the first one is no longer served. -/
theorem allowed_consumer_can_take_over :
    (run Demo.MethodSub.cfg init Demo.MethodSub.takeover).regs = [⟨0, .qm, ⟨7, 0⟩, 1, 2000, 300, 1, 1⟩] := by decide +kernel

end Verif.Props.C58

namespace Verif.Props.C71
open Verif.MethodSub

/-- A method handler uses memory that is no longer mapped only if, since it was registered, another process of the same application
has subscribed to the service, or somebody has unsubscribed the proxy. In particular a stop of the service never takes the memory
away under a running handler. -/
theorem unmapped_only_if (c : Cfg) (s : St) (h : Reachable c s) (r : Reg) (post pre : List Ev)
    (he : s.log = post ++ .used r false :: pre) : Since pre r (fun e => e.OtherProcess r ∨ e.Unsubscribes r) := by
  have hlog := (inv_of_reachable h).log
  rw [he] at hlog
  exact (logOk_split hlog).1 rfl

/-- If no other process of the application subscribes to the service and nobody unsubscribes the proxy, a method handler only uses
memory that is mapped. -/
theorem mapped_partial (c : Cfg) (s : St) (h : Reachable c s) (r : Reg) (b : Bool) (he : .used r b ∈ s.log)
    (h1 : ∀ e ∈ s.log, ¬ e.OtherProcess r) (h2 : ∀ e ∈ s.log, ¬ e.Unsubscribes r) : b = true := by
  cases b with
  | true => rfl
  | false =>
    obtain ⟨post, pre, hab⟩ := List.append_of_mem he
    obtain ⟨x, y, hxy, e, hm, hk⟩ := unmapped_only_if c s h r post pre hab
    have hin : e ∈ s.log := by rw [hab, hxy]; simp [hm]
    rcases hk with hk | hk
    · exact absurd hk (h1 e hin)
    · exact absurd hk (h2 e hin)

/-- Every registered handler whose scope has not expired can use its memory, unless another process of the application has
subscribed since. -/
theorem registered_is_mapped (c : Cfg) (s : St) (h : Reachable c s) (r : Reg) (hr : r ∈ s.regs) :
    s.open r = true ∨ LeftOver s r := by
  obtain ⟨post, pre, h1, h2⟩ := (inv_of_reachable h).strong r hr
  rcases h2 with h2 | h2 | h2
  · left
    have := (MethodRes.at_iff ((inv_of_reachable h).wf r.skel) _ _ _).mpr ⟨r.pid, h2⟩
    simp [St.open, this]
  · exact .inr (.inl h2)
  · exact .inr (.inr ⟨post, pre, h1, h2⟩)

example : Reachable Demo.MethodSub.cfg (run Demo.MethodSub.cfg init Demo.MethodSub.use) ∧
    (run Demo.MethodSub.cfg init Demo.MethodSub.use).regs = [Demo.MethodSub.reg 2, Demo.MethodSub.reg 1] ∧
    (run Demo.MethodSub.cfg init Demo.MethodSub.use).open (Demo.MethodSub.reg 2) = true :=
  ⟨⟨_, rfl⟩, by decide +kernel, by decide +kernel⟩

/-- Finding: a handler of a method that only the crashed process of an application used survives the restart of the application,
although its memory is unmapped. A call for it accesses the unmapped memory. -/
theorem stale_handler_uses_unmapped_memory :
    .used (Demo.MethodSub.reg 1) false ∈ (run Demo.MethodSub.cfg init Demo.MethodSub.stale).log := by decide +kernel

/-- Finding: since an unsubscription is accepted from anybody and at any level, a QM process can have the memory unmapped that an
ASIL-B call is using. -/
theorem foreign_unsubscribe_unmaps_used_memory :
    .used ⟨0, .b, ⟨7, 0⟩, 1, 1000, 100, 1, 0⟩ false ∈ (run Demo.MethodSub.cfg init Demo.MethodSub.foreign).log := by
  decide +kernel

end Verif.Props.C71

namespace Verif.Props.C72
open Verif.MethodSub

/-- A subscription terminates the provider only if the consumer's memory lists a method that the service does not have or lists one
twice, or if a handler with the same proxy and method is in the way that is of another service of the process, or that is left over
from an expired scope or a replaced process. -/
theorem terminates_only_if (c : Cfg) (s : St) (h : Reachable c s) (cause : Cause) (hd : s.dead = some cause) :
    match cause with
    | .unknownMethod => True
    | .handlerExists n o => o.lvl = n.lvl ∧ o.proxy = n.proxy ∧ o.method = n.method ∧ (o = n ∨ o.skel ≠ n.skel ∨ LeftOver s o)
    | .guardExists n o => o.skel = n.skel ∧ o.proxy = n.proxy ∧ o.method = n.method ∧ (o = n ∨ LeftOver s o) := by
  obtain ⟨ops, rfl⟩ := h
  have := dead_run (inv_init c) (fun _ h => by cases h) ops cause hd
  cases cause <;> exact this

/-- With well-behaved consumers that are not restarted, and if no subscription is processed in the middle of a stop, the provider is
never terminated. -/
theorem never_terminates_partial (c : Cfg) (pid : Nat → Nat) (svc : Proxy → Nat × Lvl) (ops : List Op)
    (h : CalmRun c pid svc init ops) : (run c init ops).dead = none :=
  (calmed_run ops (inv_init c) (calmed_init pid svc) h).alive

example : CalmRun Demo.MethodSub.cfg (fun _ => 100) (fun _ => (0, .qm)) init Demo.MethodSub.use := by
  refine ⟨trivial, ⟨rfl, rfl⟩, ⟨by decide +kernel, ?_⟩, trivial, trivial, trivial, trivial⟩
  intro ms h; cases h; decide

/-- Finding: the handlers of all services of a process are kept in one table by proxy and method, without the service, and the
number of a proxy starts again at 0 when a consumer is restarted. So a consumer that crashes and then creates its proxies in another
order terminates the provider. -/
theorem restart_in_other_order_terminates :
    (run Demo.MethodSub.cfg init Demo.MethodSub.otherOrder).dead =
      some (.handlerExists ⟨1, .qm, ⟨7, 0⟩, 1, 1000, 200, 1, 1⟩ ⟨0, .qm, ⟨7, 0⟩, 1, 1000, 100, 1, 0⟩) := by decide +kernel

/-- Finding: a subscription that is processed while the service is being stopped leaves its handlers behind. When the service is
offered again, the next subscription of the same consumer terminates the provider. -/
theorem subscription_during_stop_terminates_later :
    (run Demo.MethodSub.cfg init Demo.MethodSub.racingStop).dead =
      some (.handlerExists ⟨0, .qm, ⟨7, 0⟩, 1, 1000, 100, 2, 1⟩ ⟨0, .qm, ⟨7, 0⟩, 1, 1000, 100, 1, 0⟩) := by decide +kernel

/-- Finding: a consumer can terminate the provider by what it writes into its own memory. -/
theorem consumer_memory_terminates :
    (run Demo.MethodSub.cfg init
      [.offer 0, .subMsg 0 0 .qm ⟨7, 0⟩ 1000 100, .subRun 0 (some [3])]).dead = some .unknownMethod ∧
    (run Demo.MethodSub.cfg init
      [.offer 0, .subMsg 0 0 .qm ⟨7, 0⟩ 1000 100, .subRun 0 (some [1, 1])]).dead =
        some (.handlerExists (Demo.MethodSub.reg 1) (Demo.MethodSub.reg 1)) := by decide +kernel

end Verif.Props.C72

namespace Verif.Props.C73
open Verif.MethodSub

/-- A successfully processed subscription registers a handler for every method listed in the consumer's memory, which can be
called. -/
theorem subscription_registers (c : Cfg) (s : St) (t : Nat) (k : Nat) (l : Lvl) (p : Proxy) (uid pid g : Nat) (ms : List Nat)
    (hd : s.dead = none) (hpc : s.pc t = .sub k l p uid pid g) (hg : s.gen k = g) (hph : s.phase k = .offered)
    (hnew : MethodRes.contains (s.res k) p.app p.ctr pid = false) (halive : (step c s (.subRun t (some ms))).dead = none)
    (m : Nat) (hm : m ∈ ms) :
    ∃ r ∈ (step c s (.subRun t (some ms))).regs, r.skel = k ∧ r.lvl = l ∧ r.proxy = p ∧ r.method = m ∧ r.uid = uid ∧ r.pid = pid ∧
      (step c s (.subRun t (some ms))).callAlive r.skel r.gen = true := by
  subst hg
  have e : step c s (.subRun t (some ms)) = onSubscribed c { s with pc := upd s.pc t .idle } k l p uid pid (some ms) := by
    unfold step stepCore
    simp [hd, hpc, St.subAlive, hph]
  rw [e] at halive ⊢
  unfold onSubscribed at halive ⊢
  simp only [hnew, Bool.false_eq_true, if_false] at halive ⊢
  cases hr : registerAll c s.regs (fun m => ⟨k, l, p, m, uid, pid, s.gen k, s.next⟩) ms with
  | error x => rw [hr] at halive; simp at halive
  | ok y =>
    obtain ⟨regs, new⟩ := y
    refine ⟨_, (registerAll_keeps (k := k) (app := p.app) (pid := pid) (fun m => ⟨rfl, rfl, rfl⟩) hr).2 m hm,
      rfl, rfl, rfl, rfl, rfl, rfl, ?_⟩
    simp [St.callAlive, hph]

/-- A registered handler that can be called stays so whatever happens, unless the service is stopped, another process of the
application subscribes to it, or somebody unsubscribes the proxy. In particular, nothing another application or another proxy does
takes it away. -/
theorem stays_registered (c : Cfg) (s : St) (r : Reg) (hr : r ∈ s.regs) (ha : s.callAlive r.skel r.gen = true)
    (ops : List Op) (hstop : .stop r.skel ∉ ops) (new : List Ev) (hlog : (run c s ops).log = new ++ s.log)
    (h1 : ∀ e ∈ new, ¬ e.OtherProcess r) (h2 : ∀ e ∈ new, ¬ e.Unsubscribes r) :
    r ∈ (run c s ops).regs ∧ (run c s ops).callAlive r.skel r.gen = true := by
  obtain ⟨ext, g1, g2⟩ := kept_run (c := c) ops hr ha hstop
  rw [hlog] at g1
  obtain rfl := List.append_cancel_right g1
  rcases g2 with g2 | ⟨e, he, g2 | g2⟩
  · exact g2
  · exact absurd g2 (h1 e he)
  · exact absurd g2 (h2 e he)

/-- A call of a method by the proxy for which a handler is registered, with the subscriber's uid, runs this handler. -/
theorem call_is_served (c : Cfg) (s : St) (h : Reachable c s) (hd : s.dead = none) (r : Reg) (hr : r ∈ s.regs)
    (ha : s.callAlive r.skel r.gen = true) (t : Nat) (ht : t < c.threads) (hidle : s.pc t = .idle) :
    (run c s [.callMsg t r.lvl r.proxy r.method r.uid, .callEnter t]).log =
      .called r r.uid r.lvl r.proxy r.method :: s.log := by
  have e1 : step c s (.callMsg t r.lvl r.proxy r.method r.uid) =
      { s with pc := upd s.pc t (.call r r.uid r.lvl r.proxy r.method) } := by
    unfold step stepCore
    have hn : ¬ c.threads ≤ t := by omega
    simp [hd, hidle, hn, lookup_of_mem (keyOnce_of_reachable h) hr]
  rw [run, run, run, e1]
  unfold step stepCore
  simp only [hd, upd_self]
  have ha' : St.callAlive { s with pc := upd s.pc t (.call r r.uid r.lvl r.proxy r.method), dead := none } r.skel r.gen = true := ha
  simp [ha']

/-- In the example the consumer's subscription is processed; after another consumer's subscription and unsubscription the handler
of the first is still registered and can be called. -/
example :
    let s := run Demo.MethodSub.cfg init [.offer 0, .subMsg 0 0 .qm ⟨7, 0⟩ 1000 100]
    s.pc 0 = .sub 0 .qm ⟨7, 0⟩ 1000 100 1 ∧ s.phase 0 = .offered ∧ MethodRes.contains (s.res 0) 7 0 100 = false ∧
      (step Demo.MethodSub.cfg s (.subRun 0 (some [1, 2]))).dead = none := by decide +kernel

def elsewhere : List Op :=
  [.subMsg 0 0 .qm ⟨7, 1⟩ 1000 100, .subRun 0 (some [1]), .unsubMsg 1 0 .b ⟨7, 1⟩, .unsubRun 1,
   .subMsg 0 0 .b ⟨8, 0⟩ 2000 300, .subRun 0 (some [1, 2]), .offer 1, .stop 1]

example :
    let s := run Demo.MethodSub.cfg init Demo.MethodSub.use
    Demo.MethodSub.reg 1 ∈ s.regs ∧ s.callAlive 0 1 = true ∧ .stop 0 ∉ elsewhere ∧ s.pc 0 = .idle ∧ s.dead = none ∧
      (run Demo.MethodSub.cfg s elsewhere).log =
        [.registered ⟨0, .b, ⟨8, 0⟩, 2, 2000, 300, 1, 2⟩, .registered ⟨0, .b, ⟨8, 0⟩, 1, 2000, 300, 1, 2⟩,
         .subscribed 0 .b ⟨8, 0⟩ 2000 300, .unsubscribed 0 ⟨7, 1⟩, .registered ⟨0, .qm, ⟨7, 1⟩, 1, 1000, 100, 1, 1⟩,
         .subscribed 0 .qm ⟨7, 1⟩ 1000 100] ++ s.log := by decide +kernel

end Verif.Props.C73
