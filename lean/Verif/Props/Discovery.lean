/-
C61: the results of a search are the instances offered.
C62: handlers are called only with new results, and never after StopFindService.
C93: FindService returns the instances offered.
-/
import Verif.Proofs.DiscoveryOnce
import Verif.Proofs.DiscoveryStop

namespace Verif.Demo.C61
open Verif.Discovery

def bad (e e' : Ev) : Bool :=
  match e.kind, e'.kind with
  | .create q, .delete q' => decide (e.wd = e'.wd ∧ q = q')
  | _, _ => false

theorem calm_of {l : List Ev} (h : l.Pairwise (fun e e' => bad e e' = false)) : Calm l := by
  rintro a b wd q rfl hm
  have := (List.pairwise_cons.mp (List.pairwise_append.mp h).2.1).1 _ hm
  simp [bad] at this

/-- Instances 5 and 7 of service 0; flag file for ASIL-B of instance 5. -/
def w0 : World := init (fun s => if s = 0 then [5] else []) (fun s i q => s = 0 ∧ i = 5 ∧ q = .b)

theorem w0_ok : ∀ s i q, w0.file s i q = true → i ∈ w0.dirs s := by
  intro s i q h
  have h' : s = 0 ∧ i = 5 ∧ q = .b := by simpa [w0, init] using h
  simp [w0, init, h'.1, h'.2.1]

/-- What the handlers do: when search 0 is told of 7, its handler stops search 1 and starts a search for 7, whose handler starts a search
for any instance of service 3 while an instance of it is offered. -/
def does : List Note → List Deed
  | .called 0 [7, 5] :: _ => [.stop 1, .start 0 (some 7) .b [] [.start 3 none .qm [[], [.create 3 2 .qm]] []]]
  | _ => []

/-- A search for any instance, while 7 is offered and 5 is withdrawn. -/
def ops : List Op :=
  [.app (.start 0 none .b [] []), .app (.start 0 (some 5) .b [] []), .app (.act (.create 0 7 .b)), .read 10,
   .handle [] does [], .app (.act (.delete 0 5 .b)), .app (.act (.create 0 7 .qm)), .read 10, .handle [] does [1]]

theorem ops_calm : CalmRun w0 ops := by
  refine ⟨?_, ?_, ?_, ?_, ?_, ?_, ?_, ?_, ?_, trivial⟩ <;> exact calm_of (by decide +kernel)

/-- A flag file is created and removed, and both events are read at once. -/
def fast : List Op := [.app (.start 0 (some 7) .b [] []), .app (.act (.create 0 7 .b)), .app (.act (.delete 0 7 .b)), .read 10, .handle [] (fun _ => []) []]

/-- 7 is offered, and a search for 8 is under way, which has created its directory. -/
def some7 : List Op := [.app (.act (.create 0 7 .b)), .app (.start 0 (some 8) .b [] []), .app (.fail 0 none .b [.mkdir 3 3])]

def change : List (List Act) := [[.create 0 8 .b], [.delete 0 7 .b], [.create 0 9 .b, .delete 0 8 .b]]

end Verif.Demo.C61

namespace Verif.Props.C61
open Verif.Discovery

/-- Whenever no event is left (neither in the queue of the kernel nor in the hands of the worker thread), every search that has not been
stopped was told last exactly the matching instances whose flag file of the searched quality exists. File system activities, new
searches and stops may come between any two system calls, events are read in batches of any size, and handlers may start and stop
searches, to any depth, and change the file system.

Missing: runs in which a flag file is created and then removed within one batch (`CalmRun` excludes them; `phantom_instance` shows that
the claim fails there), overflow of the queue of the kernel, and failing system calls. -/
theorem reported_is_offered_partial (dirs : Nat → List Nat) (file : Nat → Nat → Q → Bool) (hf : ∀ s i q, file s i q = true → i ∈ dirs s)
    (ops : List Op) (hc : CalmRun (init dirs file) ops) (hq : (run (init dirs file) ops).queue = [])
    (hb : (run (init dirs file) ops).batch = []) (h s : Nat) (inst : Option Nat) (q : Q) (hs : .started h s inst q ∈ (run (init dirs file) ops).log)
    (hn : .stopped h ∉ (run (init dirs file) ops).log) (i : Nat) :
    i ∈ lastResult (run (init dirs file) ops).log h ↔
      (inst = none ∨ inst = some i) ∧ (run (init dirs file) ops).file s i q = true := by
  obtain ⟨i0, c0⟩ := init_inv dirs file hf
  have v := run_inv ops i0
  have c := run_calm ops i0 (by intro a b wd q e; simp [init] at e) c0 hc
  revert hq hb hs hn v c
  generalize run (init dirs file) ops = w
  intro hq hb hs hn v c
  rw [hb] at c
  have vs := v.s
  rw [hb] at vs
  have hlt : h < w.nextH := v.l.new _ hs
  have ho : h ∉ w.obsolete := fun x => hn (v.l.stop2 h hlt (.inl x))
  have hcn : w.core h ≠ none := fun x => hn (v.l.stop2 h hlt (.inr x))
  obtain ⟨S, hS⟩ : ∃ S, w.searches h = some S := by
    cases e : w.searches h with
    | none => exact absurd (by unfold World.core; rw [e]; rfl) hcn
    | some S => exact ⟨S, rfl⟩
  have hcore : w.core h = some (S.svc, S.inst, S.q, S.prev) := by unfold World.core; rw [hS]; rfl
  obtain ⟨a1, a2⟩ := v.l.sub _ _ _ _ _ hcore
  obtain ⟨b1, b2, b3⟩ := v.l.good.unique hs a1
  subst b1; subst b2; subst b3
  rw [a2]
  have hnone : ∀ wd q, lastOf ([] ++ w.queue) wd q = none := by intro wd q; rw [hq]; rfl
  have hknown : (S.inst = none ∨ S.inst = some i) → (i ∈ w.known S.q S.svc ↔ i ∈ S.prev) := by
    intro hi
    rcases c.r h S i hS (by simp) ho hi with x | x | x
    · exact x
    · simp at x
    · rcases x with ⟨wd, _, _, x⟩ | ⟨_, wd, _, x⟩
      · exact absurd (hnone _ _) x
      · rw [hq] at x; simp at x
  constructor
  · intro hm
    have hi := vs.pv _ _ _ hS hm
    refine ⟨hi, ?_⟩
    have hk := (hknown hi).mpr hm
    obtain ⟨wd, l, hw⟩ := vs.kw _ _ _ hk
    exact (c.p2 _ _ _ _ _ hw (hnone _ _)).mp hk
  · rintro ⟨hi, hfile⟩
    refine (hknown hi).mp ?_
    have hwatch : ∃ wd ∈ S.wds, w.wdOf ⟨S.svc, some i⟩ = some wd := by
      rcases hi with hi | hi
      · rcases vs.dirL _ _ hS (by simp) hi i (vs.k.fdir _ _ _ hfile) with x | ⟨_, _, x⟩
        · exact x
        · rw [hq] at x; simp at x
      · have := vs.mainL _ _ hS (by simp)
        rw [hi] at this; exact this
    obtain ⟨wd, hw, hwd⟩ := hwatch
    obtain ⟨l, hl, _⟩ := vs.linked hS hw hwd
    exact (c.p2 _ _ _ _ _ hl (hnone _ _)).mpr hfile

example : (∀ s i q, Demo.C61.w0.file s i q = true → i ∈ Demo.C61.w0.dirs s) ∧ CalmRun Demo.C61.w0 Demo.C61.ops ∧
    (run Demo.C61.w0 Demo.C61.ops).queue = [] ∧ (run Demo.C61.w0 Demo.C61.ops).batch = [] ∧
    (run Demo.C61.w0 Demo.C61.ops).log = [.called 0 [7], .called 3 [2], .started 3 3 none .qm, .called 2 [7], .started 2 0 (some 7) .b,
      .stopped 1, .called 0 [7, 5], .called 1 [5], .started 1 0 (some 5) .b, .called 0 [5], .started 0 0 none .b] :=
  ⟨Demo.C61.w0_ok, Demo.C61.ops_calm, by decide +kernel⟩

/-- No assertion of the client fails: all tables always fit together. For all runs. -/
theorem never_aborts (dirs : Nat → List Nat) (file : Nat → Nat → Q → Bool) (hf : ∀ s i q, file s i q = true → i ∈ dirs s) (ops : List Op) :
    (run (init dirs file) ops).aborted = false :=
  (run_inv ops (init_inv dirs file hf).1).s.ab

/-- For all runs: whoever is reported matches the search. -/
theorem reported_matches (dirs : Nat → List Nat) (file : Nat → Nat → Q → Bool) (hf : ∀ s i q, file s i q = true → i ∈ dirs s)
    (ops : List Op) (h s : Nat) (inst : Option Nat) (q : Q) (hs : .started h s inst q ∈ (run (init dirs file) ops).log)
    (hn : .stopped h ∉ (run (init dirs file) ops).log) (i : Nat) (hi : i ∈ lastResult (run (init dirs file) ops).log h) :
    inst = none ∨ inst = some i := by
  have v := run_inv ops (init_inv dirs file hf).1
  have hlt : h < (run (init dirs file) ops).nextH := v.l.new _ hs
  cases e : (run (init dirs file) ops).searches h with
  | none => exact absurd (v.l.stop2 h hlt (.inr (by unfold World.core; rw [e]; rfl))) hn
  | some S =>
    obtain ⟨a1, a2⟩ := v.l.sub h S.svc S.inst S.q S.prev (by unfold World.core; rw [e]; rfl)
    rw [(v.l.good.unique hs a1).2.1]
    rw [a2] at hi
    exact v.s.pv _ _ _ e hi

example : .started 1 0 (some 5) .b ∈ (run Demo.C61.w0 (Demo.C61.ops.take 3)).log ∧ .stopped 1 ∉ (run Demo.C61.w0 (Demo.C61.ops.take 3)).log ∧
    5 ∈ lastResult (run Demo.C61.w0 (Demo.C61.ops.take 3)).log 1 := by decide +kernel

/-- The full claim fails: of a batch all deletions are handled before all creations. A flag file that is created and removed within one
batch is reported as offered, although all events have been processed and it is gone. -/
theorem phantom_instance : (run Demo.C61.w0 Demo.C61.fast).queue = [] ∧ (run Demo.C61.w0 Demo.C61.fast).batch = [] ∧
    (run Demo.C61.w0 Demo.C61.fast).log = [.called 0 [7], .started 0 0 (some 7) .b] ∧
    (run Demo.C61.w0 Demo.C61.fast).file 0 7 .b = false := by decide +kernel

end Verif.Props.C61

namespace Verif.Props.C62
open Verif.Discovery

/-- In every history each call of a handler brings a result different from the one before (at first: from none found), and no call comes
after StopFindService for this search, be it called by a handler or between batches. `log` is newest first: `b` is what came before. -/
theorem called_on_change_and_not_after_stop (dirs : Nat → List Nat) (file : Nat → Nat → Q → Bool)
    (hf : ∀ s i q, file s i q = true → i ∈ dirs s) (ops : List Op) (a b : List Note) (h : Nat) (found : List Nat)
    (hl : (run (init dirs file) ops).log = a ++ .called h found :: b) :
    ¬ (∀ i, i ∈ found ↔ i ∈ lastResult b h) ∧ .stopped h ∉ b :=
  have g := (run_inv ops (init_inv dirs file hf).1).l.good.call a h found b hl
  ⟨g.1, g.2.1⟩

/-- Only handlers of searches that have been started before are called. -/
theorem called_only_if_started (dirs : Nat → List Nat) (file : Nat → Nat → Q → Bool) (hf : ∀ s i q, file s i q = true → i ∈ dirs s)
    (ops : List Op) (a b : List Note) (h : Nat) (found : List Nat) (hl : (run (init dirs file) ops).log = a ++ .called h found :: b) :
    ∃ s inst q, .started h s inst q ∈ b :=
  ((run_inv ops (init_inv dirs file hf).1).l.good.call a h found b hl).2.2

/-- Every call of StartFindService, in a handler or not, and in any state, enters a search in the history, with the next handle. -/
theorem start_is_recorded (w : World) (s : Nat) (inst : Option Nat) (q : Q) (env : List (List Act)) (does : List Deed) :
    ∃ l, (deed w (.start s inst q env does)).log = l ++ .started w.nextH s inst q :: w.log :=
  deed_start_log w s inst q env does

/-- A handle is given to one search only: nothing in the history before the start of a search is about its handle. -/
theorem handles_are_new (dirs : Nat → List Nat) (file : Nat → Nat → Q → Bool) (hf : ∀ s i q, file s i q = true → i ∈ dirs s)
    (ops : List Op) (a b : List Note) (h s : Nat) (inst : Option Nat) (q : Q)
    (hl : (run (init dirs file) ops).log = a ++ .started h s inst q :: b) : ∀ n ∈ b, n.search ≠ h :=
  (run_inv ops (init_inv dirs file hf).1).l.good.fresh a h s inst q b hl

/-- A search that has been started goes on until somebody stops it: if none of the operations that follow contains StopFindService for it,
in a handler or not, it is not stopped, whatever else happens, other searches that fail to start or are stopped included. -/
theorem goes_on_until_stopped (dirs : Nat → List Nat) (file : Nat → Nat → Q → Bool) (hf : ∀ s i q, file s i q = true → i ∈ dirs s)
    (before after : List Op) (h s : Nat) (inst : Option Nat) (q : Q) (hs : .started h s inst q ∈ (run (init dirs file) before).log)
    (hn : .stopped h ∉ (run (init dirs file) before).log) (hno : ∀ o ∈ after, o.noStop h) :
    .stopped h ∉ (run (init dirs file) (before ++ after)).log := by
  rw [run_append]
  exact (run_runs after ⟨(run_inv before (init_inv dirs file hf).1).l.new _ hs, hn⟩ hno).2

example : .started 0 0 none .b ∈ (run Demo.C61.w0 (Demo.C61.ops.take 1)).log ∧ .stopped 0 ∉ (run Demo.C61.w0 (Demo.C61.ops.take 1)).log ∧
    ∀ o ∈ Demo.C61.ops.drop 1, o.noStop 0 := by
  refine ⟨by decide +kernel, by decide +kernel, ?_⟩
  simp only [Demo.C61.ops, List.drop, List.forall_mem_cons, Op.noStop, NoStop, NoStops, true_and, List.not_mem_nil]
  refine ⟨?_, ?_, by simp⟩ <;>
  · intro log
    unfold Demo.C61.does
    split <;> simp [NoStops, NoStop]

/-- Search 1 is stopped by the handler of search 0, in the middle of a batch, and was called before; search 3 is started by the handler of
search 2, which is started by that of search 0. -/
example : (run Demo.C61.w0 Demo.C61.ops).log =
    [.called 0 [7]] ++ .called 3 [2] :: .started 3 3 none .qm :: [.called 2 [7], .started 2 0 (some 7) .b, .stopped 1, .called 0 [7, 5],
      .called 1 [5], .started 1 0 (some 5) .b, .called 0 [5], .started 0 0 none .b] := by decide +kernel

end Verif.Props.C62

namespace Verif.Props.C93
open Verif.Discovery

/-- FindService, called in any reachable state (also while searches are under way and events are pending), returns only instances that
match and whose flag file of the searched quality existed at some moment of the call. `env`: what happens before each of its looks at
the file system. -/
theorem found_was_offered (dirs : Nat → List Nat) (file : Nat → Nat → Q → Bool) (ops : List Op) (env : List (List Act)) (s : Nat)
    (inst : Option Nat) (q : Q) (i : Nat) (hm : i ∈ findOnce (run (init dirs file) ops) env s inst q) :
    (inst = none ∨ inst = some i) ∧ ∃ k, (acts (run (init dirs file) ops) (env.take k).flatten).file s i q = true := by
  obtain ⟨h1, h2⟩ := mem_findOnce.mp hm
  refine ⟨h1, ?_⟩
  rcases (checks_at _ _ _ _ _).2.1 i q h2 with h | ⟨_, k, h⟩
  · simp at h
  · rw [← World.at_succ] at h; exact ⟨_, h⟩

/-- It returns every matching instance whose flag file exists during the whole call, whatever else comes and goes meanwhile. -/
theorem offered_is_found (dirs : Nat → List Nat) (file : Nat → Nat → Q → Bool) (hf : ∀ s i q, file s i q = true → i ∈ dirs s)
    (ops : List Op) (env : List (List Act)) (s : Nat) (inst : Option Nat) (q : Q) (i : Nat) (hi : inst = none ∨ inst = some i)
    (ho : ∀ k, (acts (run (init dirs file) ops) (env.take k).flatten).file s i q = true) :
    i ∈ findOnce (run (init dirs file) ops) env s inst q := by
  have v := (run_inv ops (init_inv dirs file hf).1).s.k
  revert v ho
  generalize run (init dirs file) ops = w
  intro ho v
  refine mem_findOnce.mpr ⟨hi, ?_⟩
  refine Classical.byContradiction fun hn => ?_
  have h1 : w.at env 1 = acts w (env.headD []) := by rw [World.at_succ]; simp [World.at, acts]
  have hc : i ∈ candidates (acts w (env.headD [])) s inst := by
    rcases hi with rfl | rfl
    · have v1 := (acts_fine w.batch w (env.headD [])).kinv v
      refine v1.fdir s i q ?_
      rw [← h1]; exact ho 1
    · exact List.mem_singleton.mpr rfl
  obtain ⟨k, hk⟩ := (checks_at _ _ _ _ _).2.2 i q (mem_bothQualities.mpr hc) hn
  rw [← World.at_succ] at hk
  have h2 : (w.at env (k + 1 + 1)).file s i q = true := ho (k + 1 + 1)
  rw [hk] at h2
  cases h2

/-- During the call 7 is withdrawn, 8 and 9 are offered (9 without a directory before), and 8 is withdrawn again. The flag files of 5, 7
and 8 are looked for; 5 is offered all the time. -/
example : findOnce (run Demo.C61.w0 Demo.C61.some7) Demo.C61.change 0 none .b = [5, 8] ∧
    findOnce (run Demo.C61.w0 Demo.C61.some7) Demo.C61.change 0 (some 5) .b = [5] ∧
    findOnce (run Demo.C61.w0 Demo.C61.some7) Demo.C61.change 0 (some 8) .b = [8] := by decide +kernel

example (k : Nat) : (acts (run Demo.C61.w0 Demo.C61.some7) (Demo.C61.change.take k).flatten).file 0 5 .b = true := by
  match k with
  | 0 => decide +kernel
  | 1 => decide +kernel
  | 2 => decide +kernel
  | k + 3 =>
    have : Demo.C61.change.take (k + 3) = Demo.C61.change := by simp [Demo.C61.change]
    rw [this]; decide +kernel

/-- Nobody is returned twice. -/
theorem each_once (w : World) (env : List (List Act)) (s : Nat) (inst : Option Nat) (q : Q) : (findOnce w env s inst q).Nodup := by
  unfold findOnce
  dsimp only
  unfold select
  cases inst with
  | none => exact nodup_foldr_insertNew _
  | some i => dsimp only; split <;> simp

end Verif.Props.C93
