import Verif.Proofs.ShmFactory6

namespace Verif.Demo.ShmFactory
open Verif.ShmFactory

/-- All processes of different users; process 9 has no provider of typed memory; the daemon is user 99. -/
def cfg : Cfg := { uid := fun p => p, prov := fun p => p != 9, tuid := 99 }
def opn : Call := ⟨.open, false, false, none⟩
def opnw : Call := ⟨.open, true, false, none⟩
def mk : Call := ⟨.create, true, false, none⟩
def coo : Call := ⟨.createOrOpen, true, false, none⟩
def mkt : Call := ⟨.create, true, true, none⟩
def steps (p n : Nat) : List Op := List.replicate n (.step p true)
/-- Process 1 makes the memory, processes 2 and 3 open it, 3 while 2 has the lock file. -/
def shared : List Op := .call 1 coo :: steps 1 8 ++ [.call 2 opn, .call 3 coo, .step 2 true, .step 3 true] ++ steps 2 3 ++ steps 3 5 ++
  [.release 2 0, .call 2 opnw] ++ steps 2 4

/-! C114: memory of a path is initialised once, before anyone gets it, and it is the same for all. -/
namespace Verif.Props.C114
open Verif.ShmFactory Verif.Demo.ShmFactory

/-- Whatever the processes do, in whatever order and wherever they are killed: memory that Create, CreateOrOpen or Open has returned has
been initialised by exactly one finished callback. Missing: RemoveStaleArtefacts, see `stale_fails`. -/
theorem initialised_partial (cfg : Cfg) (ops : List Op) (ht : NoStale ops) (x : Ret) (hx : x ∈ (run cfg init ops).log) (g : Got)
    (hg : x.got = some g) : Initialised (run cfg init ops) g.obj :=
  ((inv_run inv_init ht).log x hx g hg).2

/-- No object is ever initialised twice. -/
theorem once_partial (cfg : Cfg) (ops : List Op) (ht : NoStale ops) (o : Nat) : ((run cfg init ops).objs o).made ≤ 1 :=
  (inv_run inv_init ht).once o

/-- Memory that is held is initialised. -/
theorem held_partial (cfg : Cfg) (ops : List Op) (ht : NoStale ops) (p r : Nat) (hr : Holds (run cfg init ops) p r) :
    Initialised (run cfg init ops) (((run cfg init ops).procs p).res r).obj :=
  ((inv_run inv_init ht).res p r hr).2.2

example : NoStale shared ∧ (run cfg init shared).log.map (fun x => (x.proc, x.got.map (·.obj))) =
    [(2, some 0), (3, some 0), (2, some 0), (1, some 0)] := by
  refine ⟨?_, by decide +kernel⟩
  intro p hp; simp [shared, steps] at hp

/-- After any history: processes that have no memory of the path and are in no call get the same memory, from whichever calls, in whatever
order, as long as nothing is removed; and it is the memory that is found under the path. -/
theorem same_partial (cfg : Cfg) (before ops : List Op) (ht : NoRemoval ops) (new : List Ret)
    (hn : (run cfg (run cfg init before) ops).log = new ++ (run cfg init before).log)
    (x y : Ret) (hx : x ∈ new) (hy : y ∈ new) (fx : Fresh (run cfg init before) x.proc) (fy : Fresh (run cfg init before) y.proc)
    (g g' : Got) (hg : x.got = some g) (hg' : y.got = some g') :
    g.obj = g'.obj ∧ (run cfg (run cfg init before) ops).name = some g.obj := by
  have h := j_run (cfg := cfg) (ops := ops) (j_fresh (F := Fresh (run cfg init before)) (s := run cfg init before)
    (fun p hp => ⟨hp.1, fun r => Decidable.not_not.mp (hp.2 r)⟩)) ht
  obtain ⟨n, e, hl⟩ := h.log
  have : n = new := List.append_cancel_right (e.symm.trans hn)
  subst this
  have a := hl x hx fx g hg
  have b := hl y hy fy g' hg'
  rw [a] at b
  injection b with b
  exact ⟨b, a⟩

example : NoRemoval shared ∧ (∀ p, Fresh (run cfg init []) p) ∧ (run cfg init shared).log.length = 4 := by
  refine ⟨?_, ?_, by decide +kernel⟩
  · intro p; constructor <;> intro hp <;> simp [shared, steps] at hp
  · intro p; exact ⟨rfl, fun r => by simp [Holds, run, init, Proc.init]⟩

/-- While nothing is removed, the memory under the path stays the same. -/
theorem stays (cfg : Cfg) (before ops : List Op) (ht : NoRemoval ops) (o : Nat) (h : (run cfg init before).name = some o) :
    (run cfg (run cfg init before) ops).name = some o := name_run h ht

example : (run cfg init shared).name = some 0 := by decide +kernel

/-- Process 1 is killed while it initialises the memory; process 2 removes what it has left, lock file first; process 3 opens. -/
def lost : List Op := .call 1 mk :: steps 1 3 ++ [.kill 1, .stale 2, .stale 2, .call 3 opn] ++ steps 3 4

/-- **Violated.** RemoveStaleArtefacts removes the lock file before the object: another process that opens the path in between gets
memory that has never been initialised. -/
theorem stale_fails : ∃ x g, x ∈ (run cfg init lost).log ∧ x.got = some g ∧ ((run cfg init lost).objs g.obj).made = 0 :=
  ⟨⟨3, opn, some ⟨0, 0, false⟩⟩, ⟨0, 0, false⟩, by decide +kernel, rfl, by decide +kernel⟩

end Verif.Props.C114

/-! C115: Create, CreateOrOpen and Open succeed when they can, and do not end the process. -/
namespace Verif.Props.C115
open Verif.ShmFactory Verif.Demo.ShmFactory

/-- CreateOrOpen and Create of a path that does not exist make the memory and return it, writable and initialised, if there is no lock file
and no other process does anything meanwhile. Missing: other processes doing something, see `both_fail_fails`. -/
theorem creates_partial (cfg : Cfg) (before : List Op) (p : Nat) (c : Call) (ok : Bool) (hr : Ready (run cfg init before) p)
    (hk : c.kind ≠ .open) (hp : HasProvider cfg p c) (hl : (run cfg init before).lock = false) (hn : (run cfg init before).name = none) :
    ∃ n, ∀ s, s = run cfg (run cfg init before) (.call p c :: List.replicate n (.step p ok)) →
      ∃ g, s.log = ⟨p, c, some g⟩ :: (run cfg init before).log ∧ g.rw = true ∧ Initialised s g.obj ∧ s.name = some g.obj ∧
        (s.objs g.obj).creator = p ∧ s.lock = false ∧ (s.procs p).over = none := by
  obtain ⟨n, _, h⟩ := alone_create (cfg := cfg) (c := c) (ok := ok) hr.1 hr.2.1.1 hr.2.1.found hr.2.2 hl hn hk (hp hk)
  refine ⟨n, fun s es => ?_⟩
  obtain ⟨a, b, c, d, e, f⟩ := h s es
  exact ⟨_, a, rfl, by unfold Initialised; dsimp only; rw [e], d, by dsimp only; rw [e], c, f⟩

/-- CreateOrOpen and Open of memory that exists and is complete return it if the provider is allowed, there is no lock file, and no other
process does anything meanwhile. -/
theorem opens_partial (cfg : Cfg) (before : List Op) (ht : NoStale before) (p : Nat) (c : Call) (ok : Bool)
    (hr : Ready (run cfg init before) p) (hk : c.kind ≠ .create) (hp : HasProvider cfg p c) (hl : (run cfg init before).lock = false)
    (o : Nat) (hn : (run cfg init before).name = some o) (ha : Allowed cfg (run cfg init before) p c o)
    (hd : ((run cfg init before).objs o).typed = true → AsksDaemon cfg p c) :
    let s := run cfg (run cfg init before) (.call p c :: List.replicate 4 (.step p ok))
    (∃ g, s.log = ⟨p, c, some g⟩ :: (run cfg init before).log ∧ g.obj = o ∧ g.rw = (c.kind != .open || c.rw)) ∧ Initialised s o ∧
      s.lock = false ∧ (s.procs p).over = none := by
  have hi := inv_run (cfg := cfg) inv_init ht
  have how : ownerOf cfg p c ((run cfg init before).objs o) = cfg.uid ((run cfg init before).objs o).creator := by
    unfold ownerOf
    split
    · rename_i e
      simp at e
      obtain ⟨a, b⟩ := hd e.1
      have : provider cfg p c = true := by
        unfold provider
        split
        · exact a
        · rename_i k
          rcases b with b | b
          · exact absurd b k
          · simp [a, b]
      rw [this] at e; cases e.2
    · rfl
  have had : admits cfg p c (ownerOf cfg p c ((run cfg init before).objs o)) = true := by
    rw [how]; exact admits_iff.mpr (fun _ => ha)
  have h := alone_open (cfg := cfg) (ok := ok) hr.1 hr.2.1.1 hr.2.1.found hr.2.2 hl hn hk
    (fun e => hp (by rw [e]; simp)) had
  dsimp only at h ⊢
  obtain ⟨a, b, c, d, e, f⟩ := h
  refine ⟨⟨_, a, rfl, rfl⟩, ?_, c, f⟩
  unfold Initialised; rw [e]
  rcases (hi.named o hn).2 with m | ⟨q, m⟩
  · exact m
  · have := hi.hold q (making_locks m)
    rw [hl] at this; cases this

example : Ready (run cfg init shared) 4 ∧ (run cfg init shared).lock = false ∧ (run cfg init shared).name = some 0 ∧
    Allowed cfg (run cfg init shared) 4 ⟨.open, false, false, some [1]⟩ 0 := by
  refine ⟨⟨by decide +kernel, ⟨by decide +kernel, fun r => ?_⟩, by decide +kernel⟩, by decide +kernel, by decide +kernel, ?_⟩
  · have : (run cfg init shared).procs 4 = Proc.init := by rfl
    simp [Holds, this, Proc.init]
  · intro l hl; cases hl; right; decide +kernel

/-- The lock file is there only while a process is in a call, or because a process has ended in one: when no call is under way, there is
none, so that `creates_partial` and `opens_partial` apply. -/
theorem lock_given_back (cfg : Cfg) (ops : List Op) (ht : NoStale ops) (hl : (run cfg init ops).lock = true) :
    ∃ p, ((run cfg init ops).procs p).pc ≠ .idle ∧ ((run cfg init ops).procs p).over = none ∨ LeftBehind (run cfg init ops) p := by
  obtain ⟨p, h⟩ := (inv_run (cfg := cfg) inv_init ht).own hl
  refine ⟨p, ?_⟩
  cases ho : ((run cfg init ops).procs p).over with
  | none => exact .inl ⟨(fun e => by rw [e] at h; cases h), rfl⟩
  | some w =>
    refine .inr ⟨by simp [ho], ?_⟩
    revert h
    cases ((run cfg init ops).procs p).pc <;> simp [locks]

example : (run cfg init (.call 1 mk :: steps 1 1)).lock = true ∧ (run cfg init shared).lock = false := by decide +kernel

/-- Whatever the other processes do: once the memory is there, in whatever history, a process that has none gets it from every Open and
CreateOrOpen that returns, if the provider is allowed and nothing is removed. Missing: that the call returns, see `slow_callback_fails`. -/
theorem there_is_got_partial (cfg : Cfg) (before ops : List Op) (ht : NoRemoval ops) (p : Nat) (hp : Fresh (run cfg init before) p)
    (o : Nat) (hn : (run cfg init before).name = some o)
    (hd : ∀ c, .call p c ∈ ops → ((run cfg init before).objs o).typed = true → AsksDaemon cfg p c) (new : List Ret)
    (hl : (run cfg (run cfg init before) ops).log = new ++ (run cfg init before).log) (x : Ret) (hx : x ∈ new) (hxp : x.proc = p)
    (hk : x.call.kind ≠ .create) (hv : HasProvider cfg p x.call) (ha : Allowed cfg (run cfg init before) p x.call o) :
    ∃ g, x.got = some g ∧ g.obj = o := by
  have h := t_run (cfg := cfg) (o := o) (U := cfg.uid ((run cfg init before).objs o).creator) (p := p) (l0 := (run cfg init before).log)
    (s := run cfg init before) ⟨hn, rfl, ⟨fun r hr => absurd hr (hp.2 r), by rw [hp.1]; trivial⟩, fun c hc => (by rw [hp.1] at hc; cases hc),
      [], rfl, fun _ hx => (by cases hx)⟩ ht hd
  obtain ⟨n, e, hn⟩ := h.log
  have : n = new := List.append_cancel_right (e.symm.trans hl)
  subst this
  exact hn x hx hxp hk hv (admits_iff.mpr (fun _ => ha))

/-- Processes 4 and 5 open the memory at the same time. -/
def crowd : List Op := [.call 4 ⟨.open, false, false, some [1]⟩, .step 4 true, .call 5 coo, .step 5 true, .step 4 true, .step 5 true] ++
  steps 4 2 ++ steps 5 5

example : NoRemoval crowd ∧ Fresh (run cfg init shared) 4 ∧ (run cfg init shared).name = some 0 ∧
    ((run cfg init shared).objs 0).typed = false ∧
    (run cfg (run cfg init shared) crowd).log = [⟨5, coo, some ⟨0, 0, true⟩⟩, ⟨4, ⟨.open, false, false, some [1]⟩, some ⟨0, 0, false⟩⟩] ++
      (run cfg init shared).log := by
  refine ⟨fun p => ⟨fun hp => ?_, fun hp => ?_⟩, ⟨by decide +kernel, fun r => ?_⟩, by decide +kernel, by decide +kernel, by decide +kernel⟩
  · simp [crowd, steps] at hp
  · simp [crowd, steps] at hp
  · have : (run cfg init shared).procs 4 = Proc.init := by rfl
    simp [Holds, this, Proc.init]

/-- A process that has the memory gets it again at once, if the provider is allowed. -/
theorem again (cfg : Cfg) (s : St) (p r : Nat) (c : Call) (h1 : (s.procs p).over = none) (h2 : (s.procs p).pc = .idle)
    (h3 : (s.procs p).map = some r) (h4 : Holds s p r) (hk : c.kind ≠ .create)
    (ha : ∀ l, c.allowed = some l → ((s.procs p).res r).owner = cfg.uid p ∨ ((s.procs p).res r).owner ∈ l) :
    (step cfg s (.call p c)).log = ⟨p, c, some ⟨r, ((s.procs p).res r).obj, ((s.procs p).res r).rw⟩⟩ :: s.log := by
  have hf : (s.procs p).found = some r := by simp [Proc.found, h3]; exact h4
  have had : admits cfg p c ((s.procs p).res r).owner = true := admits_iff.mpr (fun _ => ha)
  simp only [step, h1, h2, begin, hf]
  cases e : c.kind with
  | create => exact absurd e hk
  | createOrOpen => simp [had, give]
  | «open» => simp [had, give]

example : ((run cfg init shared).procs 1).map = some 0 ∧ Holds (run cfg init shared) 1 0 := by
  refine ⟨by decide +kernel, ?_⟩
  unfold Holds; decide +kernel

/-- Processes 1 and 2 call CreateOrOpen; each tries to make the memory while the other has the lock file to look whether it exists. -/
def both : List Op := .call 1 coo :: steps 1 3 ++ [.call 2 coo, .step 2 true, .step 1 true] ++ steps 2 2 ++ [.step 1 true, .step 2 true] ++
  steps 1 2 ++ steps 2 3

/-- **Violated.** Two processes that call CreateOrOpen at the same time can both get a null pointer, and there is no memory afterwards:
CreateOrOpen takes the lock file of the other one, which only looks whether the memory exists, for a sign that it is being made. -/
theorem both_fail_fails : (run cfg init both).log = [⟨2, coo, none⟩, ⟨1, coo, none⟩] ∧ (run cfg init both).name = none ∧
    (run cfg init both).lock = false ∧ ∀ p, p < 3 → ((run cfg init both).procs p).pc = .idle := by decide +kernel

/-- **Violated.** Create returns a null pointer although the memory does not exist, because another process looks for it. -/
theorem open_disturbs_create_fails :
    (run cfg init [.call 2 opn, .step 2 true, .call 1 mk, .step 1 true, .step 2 true, .step 2 true]).log =
      [⟨2, opn, none⟩, ⟨1, mk, none⟩] := by decide +kernel

/-- **Violated.** An initialisation that takes longer than 500 ms ends the processes that open the memory: process 1 is in its callback,
process 2 looks 51 times at the lock file. -/
theorem slow_callback_fails :
    let s := run cfg init (.call 1 mk :: steps 1 3 ++ .call 2 opn :: steps 2 52)
    (s.procs 2).over = some .timeout ∧ (s.procs 1).over = none ∧ (s.procs 1).pc = .mkInit mk 0 := by decide +kernel

/-- **Violated.** After a process has been killed while it had the lock file (in any history), no process that has no memory of the path
ever gets it again, whatever all processes do, unless RemoveStaleArtefacts is called. -/
theorem killed_blocks_fails (cfg : Cfg) (before ops : List Op) (ht : NoStale (before ++ ops)) (q p : Nat)
    (hq : LeftBehind (run cfg init before) q) (hp : Fresh (run cfg init before) p) (new : List Ret)
    (hn : (run cfg (run cfg init before) ops).log = new ++ (run cfg init before).log) (x : Ret) (hx : x ∈ new) (hxp : x.proc = p) :
    x.got = none := by
  have lk := hq.locks
  have h := blk_run (cfg := cfg) (ops := ops) (q := q) (p := p) (l0 := (run cfg init before).log) (s := run cfg init before)
    ⟨inv_run inv_init (fun p hp => ht p (List.mem_append_left _ hp)), hq.1, lk, by rw [hp.1]; rfl,
      fun r => Decidable.not_not.mp (hp.2 r), [], rfl, fun _ hx => by cases hx⟩ (fun p hp => ht p (List.mem_append_right _ hp))
  obtain ⟨n, e, hl⟩ := h.log
  have : n = new := List.append_cancel_right (e.symm.trans hn)
  subst this
  exact hl x hx hxp

/-- **Violated.** And a call of Open or CreateOrOpen ends the process. -/
theorem killed_ends_fails (cfg : Cfg) (before : List Op) (ht : NoStale before) (q p : Nat) (hq : LeftBehind (run cfg init before) q)
    (hp : Ready (run cfg init before) p) (c : Call) (hk : c.kind ≠ .create) (hc : HasProvider cfg p c) (ok : Bool) :
    ((run cfg (run cfg init before) (.call p c :: List.replicate 52 (.step p ok))).procs p).over = some .timeout := by
  have lk := hq.locks
  have hl : (run cfg init before).lock = true := (inv_run inv_init ht).hold q lk
  have hf := hp.2.1.found
  have h1 := hp.1
  have h2 := hp.2.1.1
  generalize run cfg init before = s at *
  have e1 : run cfg s [.call p c, .step p ok] = { s with procs := upd s.procs p { s.procs p with map := none, pc := .opWait c false 0 } } := by
    cases e : c.kind with
    | create => exact absurd e hk
    | «open» => simp [run, step, begin, h1, h2, hf, e, advance, goto, hl, upd_upd]
    | createOrOpen =>
      have : ¬ (c.typed = true ∧ cfg.prov p = false) := by
        intro a; rw [hc (by rw [e]; simp) a.1] at a; cases a.2
      simp [run, step, begin, h1, h2, hf, e, advance, goto, hl, this, upd_upd]
  have e2 : (.call p c :: List.replicate 52 (.step p ok) : List Op) = [.call p c, .step p ok] ++ List.replicate (50 + 1) (.step p ok) := rfl
  rw [e2, run_append, e1]
  exact waits (c := c) (a := false) (k := 0) 50 hl (by simp [h1]) (by simp) rfl

example : LeftBehind (run cfg init (.call 1 mk :: steps 1 3 ++ [.kill 1])) 1 ∧ NoStale (.call 1 mk :: steps 1 3 ++ [.kill 1]) ∧
    Ready (run cfg init (.call 1 mk :: steps 1 3 ++ [.kill 1])) 2 := by
  refine ⟨⟨by decide +kernel, ?_⟩, ?_, by decide +kernel, ⟨by decide +kernel, ?_⟩, by decide +kernel⟩
  · have : ((run cfg init (.call 1 mk :: steps 1 3 ++ [.kill 1])).procs 1).pc = .mkInit mk 0 := by decide +kernel
    rw [this]; trivial
  · intro p hp; simp [steps] at hp
  · intro r
    have : (run cfg init (.call 1 mk :: steps 1 3 ++ [.kill 1])).procs 2 = Proc.init := by rfl
    show ¬ (((run cfg init (.call 1 mk :: steps 1 3 ++ [.kill 1])).procs 2).res r).refs ≠ 0
    rw [this]; simp [Proc.init]

/-- And it waits for 50 looks at the lock file, 500 ms: no process ends by the timeout in its first 51 steps since it was in no call. -/
theorem patient (cfg : Cfg) (s : St) (p : Nat) (h1 : (s.procs p).over = none) (h2 : (s.procs p).pc = .idle) (ops : List Op)
    (hn : stepsOf p ops ≤ 51) : ((run cfg s ops).procs p).over ≠ some .timeout := by
  intro h
  have := (pat_run (cfg := cfg) (ops := ops) (s := s) (n := 0) (p := p)
    ⟨fun e => (by rw [h1] at e; cases e), fun c a k e => (by rw [h2] at e; cases e)⟩).1 h
  omega

example : stepsOf 2 (.call 1 mk :: steps 1 3 ++ .call 2 opn :: steps 2 51) = 51 := by decide +kernel

/-- A process ends only when it is killed or when the lock file is there for 500 ms, as long as nothing is removed and it calls nothing
while a destructor of memory of the path runs. Missing: both, see C116. -/
theorem survives_partial (cfg : Cfg) (ops : List Op) (p : Nat) (ht : NoRemoval ops) (hd : ∀ r, .drop p r ∉ ops) (w : Why)
    (h : ((run cfg init ops).procs p).over = some w) : w = .killed ∨ w = .timeout :=
  ends_run ht hd (h0 := ends_init) w h

example : NoRemoval (Op.call 1 mk :: steps 1 3 ++ .call 2 opn :: steps 2 52) ∧ ∀ r, Op.drop 2 r ∉ (Op.call 1 mk :: steps 1 3 ++ .call 2 opn :: steps 2 52) := by
  refine ⟨fun p => ⟨fun hp => ?_, fun hp => ?_⟩, fun r hp => ?_⟩ <;> simp [steps] at hp

end Verif.Props.C115

/-! C116: a process has the memory of a path once, and knows its provider. -/
namespace Verif.Props.C116
open Verif.ShmFactory Verif.Demo.ShmFactory

/-- All pointers of a process to memory of the path lead to the same resource, which is registered, as long as the process does not call
Remove, and calls nothing while a destructor runs. -/
theorem one_partial (cfg : Cfg) (ops : List Op) (p : Nat) (h1 : .remove p ∉ ops) (h2 : ∀ r, .drop p r ∉ ops) (r : Nat)
    (hr : Holds (run cfg init ops) p r) : Registered (run cfg init ops) p r ∧ ∀ r', Holds (run cfg init ops) p r' → r' = r := by
  have h := kp_run (cfg := cfg) (p := p) (s := init) kp_init h1 h2
  refine ⟨(h.live r hr).1, fun r' hr' => ?_⟩
  have a := (h.live r hr).1
  have b := (h.live r' hr').1
  rw [a] at b; cases b; rfl

example : Op.remove 2 ∉ shared ∧ (∀ r, Op.drop 2 r ∉ shared) ∧ Holds (run cfg init shared) 2 1 ∧ ¬ Holds (run cfg init shared) 2 0 := by
  refine ⟨fun hp => ?_, fun r hp => ?_, ?_, ?_⟩
  · simp [shared, steps] at hp
  · simp [shared, steps] at hp
  · unfold Holds; decide +kernel
  · unfold Holds; decide +kernel

/-- A process holds the memory as long as it has given up fewer pointers to it than it has got, whatever all processes do. -/
theorem kept (cfg : Cfg) (ops : List Op) (p r : Nat) (h : timesGivenUp p r ops < timesGot p r (run cfg init ops).log) :
    Holds (run cfg init ops) p r := by
  have k := k_run (cfg := cfg) ops init 0 (k_init p r)
  have := k.held
  unfold Holds
  omega

/-- Process 1 makes the memory and opens it once more, and gives up one of the two pointers. -/
example : timesGivenUp 1 0 (.call 1 mk :: steps 1 5 ++ [.call 1 opn, .release 1 0]) = 1 ∧
    timesGot 1 0 (run cfg init (.call 1 mk :: steps 1 5 ++ [.call 1 opn, .release 1 0])).log = 2 := by decide +kernel

/-- **Violated.** After Remove, an Open that fails takes the memory that is still held from the registry: pointers into it are no longer
known to the library. -/
theorem failed_open_unregisters_fails :
    let s := run cfg init (.call 1 mk :: steps 1 5 ++ [.remove 1, .call 1 opn] ++ steps 1 3)
    Holds s 1 0 ∧ ¬ Registered s 1 0 ∧ s.log = [⟨1, opn, none⟩, ⟨1, mk, some ⟨0, 0, true⟩⟩] := by
  refine ⟨?_, ?_, by decide +kernel⟩
  · unfold Holds; decide +kernel
  · unfold Registered; decide +kernel

/-- **Violated.** After Remove, Create of the same path ends the process while a pointer to the old memory is held. -/
theorem create_again_ends_fails :
    ((run cfg init (.call 1 mk :: steps 1 5 ++ [.remove 1, .call 1 mk] ++ steps 1 3)).procs 1).over = some .registered := by
  decide +kernel

/-- **Violated.** A thread that opens the memory while another one is giving up the last pointer to it ends the process. -/
theorem open_while_released_ends_fails :
    ((run cfg init (.call 1 mk :: steps 1 5 ++ [.drop 1 0, .call 1 opnw] ++ steps 1 3)).procs 1).over = some .registered := by
  decide +kernel

/-- Open and CreateOrOpen with a list of allowed providers return only memory that was made by one of these users, or by the own one, and
Create returns only memory that this process has made, writable; provided that each call asks the daemon or that no call wants typed
memory. Missing: see `typed_fails`. -/
theorem provider_partial (cfg : Cfg) (ops : List Op) (ht : NoStale ops)
    (hc : (∀ p c, .call p c ∈ ops → c.kind ≠ .create → AsksDaemon cfg p c) ∨ ∀ p c, .call p c ∈ ops → c.typed = false)
    (x : Ret) (hx : x ∈ (run cfg init ops).log) (g : Got) (hg : x.got = some g) :
    (x.call.kind ≠ .create → Allowed cfg (run cfg init ops) x.proc x.call g.obj) ∧
      (x.call.kind = .create → ((run cfg init ops).objs g.obj).creator = x.proc ∧ g.rw = true) := by
  have key : ∃ A, ∀ p c, .call p c ∈ ops → Good cfg A p c := by
    rcases hc with h | h
    · refine ⟨true, fun p c hp hk => ?_⟩
      obtain ⟨a, b⟩ := h p c hp hk
      unfold provider
      split
      · exact a
      · rename_i k
        rcases b with b | b
        · exact absurd b k
        · simp [a, b]
    · exact ⟨false, fun p c hp => h p c hp⟩
  obtain ⟨A, hA⟩ := key
  have h := (o_run (o_init (A := A)) inv_init ht hA).log x hx g hg
  exact ⟨fun hk l hl => h.2.1 l hk hl, h.2.2⟩

/-- Process 1 makes memory in typed memory; 2 opens it, allowing 1; 3 opens it, allowing 2. -/
def typed : List Op := .call 1 mkt :: steps 1 6 ++ .call 2 ⟨.open, false, false, some [1]⟩ :: steps 2 4 ++
  .call 3 ⟨.createOrOpen, false, true, some [2]⟩ :: steps 3 4

example : (run cfg init typed).log.map (fun x => (x.proc, x.got.isSome)) = [(3, false), (2, true), (1, true)] ∧
    ((run cfg init typed).objs 0).typed = true ∧
    ∀ p c, .call p c ∈ typed → c.kind ≠ .create → AsksDaemon cfg p c := by
  refine ⟨by decide +kernel, by decide +kernel, ?_⟩
  intro p c hp hk
  simp [typed, steps] at hp
  rcases hp with ⟨a, b⟩ | ⟨a, b⟩ | ⟨a, b⟩ <;> subst a <;> subst b
  · exact absurd rfl hk
  · exact ⟨by decide, .inl rfl⟩
  · exact ⟨by decide, .inr rfl⟩

/-- **Violated.** CreateOrOpen without prefer_typed_memory takes the typed memory daemon for the provider of memory that is in typed
memory: it refuses the memory of an allowed provider, and accepts that of any provider if the daemon is in the list. So does Open in a
process without a provider of typed memory. -/
theorem typed_fails :
    let made := Op.call 1 mkt :: steps 1 6
    (run cfg init (made ++ .call 2 ⟨.createOrOpen, false, false, some [1]⟩ :: steps 2 4)).log.map (fun x => (x.proc, x.got.isSome)) =
      [(2, false), (1, true)] ∧
    (run cfg init (made ++ .call 2 ⟨.createOrOpen, false, false, some [99]⟩ :: steps 2 4)).log.map (fun x => (x.proc, x.got.isSome)) =
      [(2, true), (1, true)] ∧
    (run cfg init (made ++ .call 9 ⟨.open, false, false, some [1]⟩ :: steps 9 4)).log.map (fun x => (x.proc, x.got.isSome)) =
      [(9, false), (1, true)] := by decide +kernel

/-- If a process opens the path only for writing, all memory it gets is writable. -/
theorem writable (cfg : Cfg) (ops : List Op) (p : Nat) (hc : ∀ c, .call p c ∈ ops → c.kind = .open → c.rw = true)
    (x : Ret) (hx : x ∈ (run cfg init ops).log) (hp : x.proc = p) (g : Got) (hg : x.got = some g) : g.rw = true :=
  (w_run w_init hc).log x hx hp g hg

example : ∀ c, .call 3 c ∈ shared → c.kind = .open → c.rw = true := by
  intro c hc; simp [shared, steps] at hc; subst hc; intro h; cases h

/-- Otherwise a call that wants to write gets what the process has, which need not be writable (the interface asks for consistent
parameters within a process). -/
theorem writable_needs_consistency :
    (run cfg init (.call 1 mk :: steps 1 5 ++ .call 2 opn :: steps 2 4 ++ [.call 2 opnw])).log.map (fun x => x.got.map (·.rw)) =
      [some false, some false, some true] := by decide +kernel

end Verif.Props.C116
