import Verif.Proofs.RustReceive3

/-!
# C119  Receiving samples with the Rust API

`run cfg init ops` is the state after any interleaving of the provider, of the thread that calls
the receive handler, of the runtime that polls and of the user.
-/
namespace Verif.Demo.RustReceive
open Verif.RustReceive

def cfg : Cfg := ⟨3, 3⟩

/-- Two samples are sent, `receive(2, 3)` is called, the third sample comes. -/
def three : List Op := [.store, .signal, .store, .signal, .store, .signal]

theorem whole {cfg : Cfg} {s : St} {f : Fut} (hp : s.panic = false) (hf : s.fut = some f)
    (h : f.pc = .waiting ∨ (f.pc = .fresh ∧ 0 < f.new ∧ f.new ≤ f.max ∧ f.max ≤ cfg.maxNum)) (hc : s.cancel = false) :
    ∃ hd, run cfg s onePoll = go cfg { s with woken := false, handler := hd, waker := true, fut := some { f with pc := .polling } } := by
  rcases h with h | ⟨h, v⟩
  · refine ⟨s.handler, ?_⟩
    simp [run, onePoll, step, poll, go, hp, hf, h, hc]
  · refine ⟨true, ?_⟩
    have := valid_iff.2 v
    simp [run, onePoll, step, poll, go, hp, hf, h, hc, this]

theorem wholeNext {cfg : Cfg} {s : St} {r : Str} (hp : s.panic = false) (hr : s.stream = some r) (hb : r.buf = [])
    (h : r.pc = .waiting ∨ r.pc = .fresh) :
    run cfg s oneNext = goStream cfg { s with woken := false, waker := true, stream := some { r with pc := .polling } } := by
  rcases h with h | h <;> simp [run, oneNext, step, nextItem, goStream, hp, hr, h, hb]

theorem reach_w (cfg : Cfg) (ops : List Op) : WInv cfg (run cfg init ops) := winv_run ops (winv_init cfg)

theorem reach_o (cfg : Cfg) (ops : List Op) : OInv cfg (run cfg init ops) := oinv_run ops (winv_init cfg) (oinv_init cfg)

end Verif.Demo.RustReceive

namespace Verif.Props.C119
open Verif.RustReceive Verif.Demo.RustReceive

/-- **No lost wake-up.**  If a receive future or a stream has returned `Pending`, the provider has
looked for handlers for every sample and no call of the handler is outstanding, then the task is
woken if there is a sample to get. -/
theorem no_lost_wakeup (cfg : Cfg) (ops : List Op) :
    let s := run cfg init ops
    Waiting s → s.toSignal = 0 → s.due = 0 → s.unread ≠ [] → s.woken = true := by
  intro s hw h1 h2 hu
  have w : WInv cfg s := reach_w cfg ops
  rcases hw with ⟨f, hf, hp⟩ | ⟨r, hr, hp⟩
  · rcases w.fu f hf hp hu with h | h | h
    · exact h
    · omega
    · omega
  · rcases w.su r hr hp hu with h | h | h
    · exact h
    · omega
    · omega

/-- A sample that comes between the registration of the waker and the end of the poll, and one
that comes while the future waits. -/
example : let s := run cfg init [.start 2 3, .poll true, .go, .store, .go, .signal, .notify, .store, .signal]
    (∃ f, s.fut = some f ∧ f.pc = .waiting ∧ f.total = 1) ∧ s.toSignal = 0 ∧ s.due = 1 ∧ s.unread = [1] ∧ s.woken = true := by
  dsimp only
  refine ⟨⟨⟨2, 3, 1, .waiting⟩, ?_⟩, ?_⟩ <;> decide +kernel

/-- **In the order of sending, and each sample once.**  The samples are handed over in the order
of sending; the container is in this order, and so are the samples that streams have yielded.  No
sample is at two places. -/
theorem in_order (cfg : Cfg) (ops : List Op) :
    let s := run cfg init ops
    Increasing s.got ∧ Increasing s.box ∧ Increasing (s.out ++ inStream s) ∧ (s.box ++ s.user ++ inStream s).Nodup ∧
      ∀ x ∈ s.box ++ s.user ++ inStream s ++ s.out, x ∈ s.got ∧ x < s.next := by
  intro s
  have o : OInv cfg s := reach_o cfg ops
  refine ⟨o.g, o.bx, o.o, ?_, ?_⟩
  · have bn : s.box.Nodup := o.bx.imp (fun h => Nat.ne_of_lt h)
    have fn : (bufOf s).Nodup := (List.pairwise_append.1 o.o).2.1.imp (fun h => Nat.ne_of_lt h)
    refine List.nodup_append.2 ⟨List.nodup_append.2 ⟨bn, o.uu, fun x hx y hy e => (o.ub y hy).1 (e ▸ hx)⟩, fn, ?_⟩
    intro x hx y hy e
    subst e
    rcases List.mem_append.1 hx with hx | hx
    · exact o.bb x hy hx
    · exact (o.ub x hx).2 hy
  · intro x hx
    have hg : x ∈ s.got := by
      rcases List.mem_append.1 hx with hx | hx
      · rcases List.mem_append.1 hx with hx | hx
        · rcases List.mem_append.1 hx with hx | hx
          · exact o.bg x hx
          · exact o.ug x hx
        · exact o.og x (List.mem_append.2 (.inr hx))
      · exact o.og x (List.mem_append.2 (.inl hx))
    exact ⟨hg, o.gn x hg⟩

example : let s := run cfg init (three ++ [.tryReceive 2, .take, .store, .toStream true] ++ oneNext)
    s.got = [1, 2, 3] ∧ s.box = [2] ∧ s.user = [1, 3] ∧ s.out = [3] := by decide +kernel

/-- **Bounded.**  The user never has more samples than they subscribed for, and the container never
holds more than its capacity. -/
theorem bounded (cfg : Cfg) (ops : List Op) :
    let s := run cfg init ops
    s.box.length + s.user.length + (inStream s).length ≤ cfg.maxNum ∧ s.box.length ≤ cfg.cap := by
  intro s
  exact ⟨(reach_o cfg ops).bd, (reach_o cfg ops).bc⟩

example : (run cfg init (three ++ [.tryReceive 3, .store, .take, .tryReceive 3])).box.length = 2 := by decide +kernel

/-- **The number of samples.**  A receive that succeeds reports at least as many samples as asked
for and at most the maximum, and the container that comes back is in the order of sending; the
arguments were valid.  `try_receive` reports at most the maximum. -/
theorem counts (cfg : Cfg) (ops : List Op) :
    (∀ new max n b, .received new max (.ok n) b ∈ (run cfg init ops).log →
      new ≤ n ∧ n ≤ max ∧ 0 < new ∧ max ≤ cfg.maxNum ∧ b.length ≤ cfg.cap ∧ Increasing b) ∧
    (∀ max n, .tried max (.ok n) ∈ (run cfg init ops).log → n ≤ max ∧ 0 < max ∧ max ≤ cfg.maxNum) := by
  have h := log_run ops (winv_init cfg) (oinv_init cfg) (fun e he => by cases he)
  exact ⟨fun new max n b hm => h _ hm, fun max n hm => h _ hm⟩

example : (run cfg init (three ++ [.start 1 2] ++ onePoll)).log = [.received 1 2 (.ok 2) [1, 2]] := by decide +kernel

/-- **A poll does what it can.**  Let a receive future be polled for the first time with valid
arguments, or again, and not be cancelled, and let the container be large enough.  If the user
has no sample left to get, then the future returns an error, with the container as it was.
Otherwise the newest samples are handed over, as many as there are, as the maximum leaves and as
the user may get, and they are the last ones in the container.  If the number that was asked for
is reached now, the future returns all the samples it counted, otherwise it waits. -/
theorem resolves (cfg : Cfg) (ops : List Op) (f : Fut) (hc : cfg.maxNum ≤ cfg.cap) :
    let s := run cfg init ops
    let s' := run cfg s onePoll
    let n := min (min (f.max - f.total) (free cfg s)) s.unread.length
    s.panic = false → s.fut = some f → s.cancel = false →
    f.pc = .waiting ∨ (f.pc = .fresh ∧ 0 < f.new ∧ f.new ≤ f.max ∧ f.max ≤ cfg.maxNum) →
    (free cfg s = 0 → s'.fut = none ∧ s'.log = s.log ++ [.received f.new f.max (.err .failed) s.box] ∧ Untouched s s') ∧
    (0 < free cfg s → ∃ xs k, TookNewest s s' n xs ∧ s'.box = s.box.drop k ++ xs ∧
      (0 < n → s'.box.length = min (f.max - f.total) (s.box.length + n)) ∧
      (f.new ≤ f.total + n → s'.fut = none ∧ s'.log = s.log ++ [.received f.new f.max (.ok (f.total + n)) s'.box]) ∧
      (f.total + n < f.new → s'.fut = some { f with total := f.total + n, pc := .waiting } ∧ s'.log = s.log)) := by
  intro s s' n hp hf hcn hpc
  have w : WInv cfg s := reach_w cfg ops
  have hv : f.new ≤ f.max ∧ f.max ≤ cfg.maxNum ∧ f.total < f.new := by
    rcases hpc with h | ⟨h, h1, h2, h3⟩
    · obtain ⟨v1, v2, v3, v4, _⟩ := w.fv f hf (by rw [h]; simp)
      exact ⟨v2, v3, v4⟩
    · have := w.ft f hf h
      exact ⟨h2, h3, by omega⟩
  obtain ⟨hd, e⟩ := whole hp hf hpc hcn
  have e : s' = _ := e
  generalize hm : ({ s with woken := false, handler := hd, waker := true, fut := some { f with pc := .polling } } : St) = m at e
  have mf : m.fut = some { f with pc := .polling } := by rw [← hm]
  have mb : m.box = s.box := by rw [← hm]
  have mu : m.unread = s.unread := by rw [← hm]
  have mg : m.got = s.got := by rw [← hm]
  have ml : m.log = s.log := by rw [← hm]
  have mus : m.user = s.user := by rw [← hm]
  have mfree : free cfg m = free cfg s := by rw [← hm]; rfl
  constructor
  · intro h0
    have he := fetch_full (cap := cfg.cap) (limit := f.max - f.total) m.box (by omega) (by omega) (mfree.trans h0)
    have : s' = finish m { f with pc := .polling } (.err .failed) := by
      rw [e]; unfold go; rw [mf]; dsimp only; rw [he]
    rw [this]
    exact ⟨rfl, by simp [finish, ml, mb], mb, mg, mu, mus⟩
  · intro h0
    obtain ⟨xs, b, hfe⟩ := fetch_some (cfg := cfg) (s := m) (cap := cfg.cap) (limit := f.max - f.total) m.box (by omega) (by omega)
      (by omega) (by omega)
    have hF := fetch_got hfe
    obtain ⟨k, hk⟩ := hF.tail
    have htk : TookNewest m { m with unread := [], box := b, got := m.got ++ xs } n xs := by
      have := hF.took (s' := { m with unread := [], box := b, got := m.got ++ xs }) rfl rfl
      rw [mfree, mu] at this
      exact this
    have hlen : xs.length = n := htk.2.1
    have hbl : 0 < n → b.length = min (f.max - f.total) (s.box.length + n) := by
      intro h
      rw [hF.blen (by intro h'; rw [h'] at hlen; simp at hlen; omega), mb, hlen]
    obtain ⟨older, ho⟩ := htk.1
    have cases' : s' = if f.total + xs.length ≥ f.new then
        finish { m with unread := [], box := b, got := m.got ++ xs } { f with pc := .polling } (.ok (f.total + xs.length))
      else { m with unread := [], box := b, got := m.got ++ xs, fut := some { f with total := f.total + xs.length, pc := .waiting } } := by
      rw [e]; unfold go; rw [mf]; dsimp only; rw [hfe]
    refine ⟨xs, k, ?_⟩
    by_cases hn : f.new ≤ f.total + n
    · rw [hlen, if_pos hn] at cases'
      rw [cases']
      refine ⟨⟨⟨older, mu ▸ ho⟩, hlen, by simp [finish, mg], rfl⟩, by simp only [finish]; rw [hk, mb], hbl, fun _ => ⟨rfl, by simp [finish, ml]⟩, fun h => by omega⟩
    · rw [hlen, if_neg hn] at cases'
      rw [cases']
      refine ⟨⟨⟨older, mu ▸ ho⟩, hlen, by simp [mg], rfl⟩, by dsimp only; rw [hk, mb], hbl, fun h => absurd h hn, fun _ => ⟨rfl, ml⟩⟩

/-- A first poll that waits with one sample, and a second one that ends. -/
example : let s := run cfg init ([.store, .start 2 3] ++ onePoll)
    s.fut = some ⟨2, 3, 1, .waiting⟩ ∧ s.cancel = false ∧ s.panic = false ∧
    (run cfg s ([.store] ++ onePoll)).log = [.received 2 3 (.ok 2) [0, 1]] := by decide +kernel

/-- **`try_receive`.**  Without a receive under way and without a stream, `try_receive` with a
container that is large enough returns an error, and changes nothing, if the maximum is zero or
larger than the number subscribed for or if the user has no sample left to get.  Otherwise it
hands over the newest samples, as many as there are, as the maximum allows and as the user may
get; they are the last ones in the container, and the oldest samples make room. -/
theorem try_receive (cfg : Cfg) (ops : List Op) (max : Nat) (hc : cfg.maxNum ≤ cfg.cap) :
    let s := run cfg init ops
    let s' := step cfg s (.tryReceive max)
    let n := min (min max (free cfg s)) s.unread.length
    s.panic = false → s.fut = none → s.stream = none →
    (max = 0 ∨ cfg.maxNum < max ∨ free cfg s = 0 →
      (∃ e, s'.log = s.log ++ [.tried max (.err e)] ∧ (e = .bounds ↔ max = 0)) ∧ Untouched s s') ∧
    (0 < max → max ≤ cfg.maxNum → 0 < free cfg s → ∃ xs k, TookNewest s s' n xs ∧ s'.log = s.log ++ [.tried max (.ok n)] ∧
      s'.box = s.box.drop k ++ xs ∧ (0 < n → s'.box.length = min max (s.box.length + n)) ∧ (n = 0 → s'.box = s.box)) := by
  intro s s' n hp hf hs
  have es : s' = tryReceive cfg s max := by show step cfg s _ = _; simp [step, hp]
  unfold tryReceive at es
  rw [hf, hs] at es
  dsimp only at es
  constructor
  · intro h
    have : ∃ e, fetch cfg s cfg.cap max s.box = .error e ∧ (e = .bounds ↔ max = 0) := by
      unfold fetch
      rw [held_free]
      by_cases h0 : max = 0
      · exact ⟨.bounds, by simp [h0], by simp [h0]⟩
      · by_cases h1 : max > cfg.maxNum
        · exact ⟨.failed, by rw [if_neg h0, if_pos h1], by simp [h0]⟩
        · have h2 : free cfg s = 0 := by omega
          exact ⟨.failed, by rw [if_neg h0, if_neg h1, if_pos h2], by simp [h0]⟩
    obtain ⟨e, he, hb⟩ := this
    rw [he] at es
    rw [es]
    exact ⟨⟨e, rfl, hb⟩, rfl, rfl, rfl, rfl⟩
  · intro h0 h1 h2
    obtain ⟨xs, b, hfe⟩ := fetch_some (cfg := cfg) (s := s) (cap := cfg.cap) s.box h0 h1 h2 (by omega)
    have hF := fetch_got hfe
    obtain ⟨k, hk⟩ := hF.tail
    rw [hfe] at es
    have htk : TookNewest s s' n xs := hF.took (by rw [es]) (by rw [es])
    have hlen := htk.2.1
    refine ⟨xs, k, htk, by rw [es, ← hlen], by rw [es, hk], ?_, ?_⟩
    · intro h
      rw [es, ← hlen]
      exact hF.blen (by intro h'; rw [h'] at hlen; simp at hlen; omega)
    · intro h
      rw [es]
      rcases hF.eb with ⟨_, e⟩ | ⟨_, _⟩
      · exact e
      · have hx : xs = [] := List.eq_nil_of_length_eq_zero (by omega)
        rw [hx] at hfe
        unfold fetch at hfe
        rw [if_neg (by omega), if_neg (by omega), held_free, if_neg (by omega)] at hfe
        dsimp only at hfe
        split at hfe
        · cases hfe
        · rename_i b' hp'
          injection hfe with e1 e2
          rw [e1] at hp'
          injection hp' with hp'
          rw [← e2, hp']

example : let s := run cfg init (three ++ [.tryReceive 2, .store])
    s.box = [1, 2] ∧ free cfg s = 1 ∧ (step cfg s (.tryReceive 2)).box = [2, 3] ∧
    (step cfg s (.tryReceive 2)).log = [.tried 2 (.ok 2), .tried 2 (.ok 1)] := by decide +kernel

/-- **Giving up.**  A receive future or a stream that is dropped between two polls leaves nothing
behind: the samples in it are given back, nothing else is lost, no result appears, and the
subscription can be used again: `try_receive` returns and a new receive or a new stream can begin. -/
theorem giving_up (cfg : Cfg) (ops : List Op) (hc : cfg.maxNum ≤ cfg.cap) (op : Op) :
    let s := run cfg init ops
    let s' := step cfg s op
    s.panic = false →
    (op = .dropFut ∧ ∃ f, s.fut = some f ∧ (f.pc = .fresh ∨ f.pc = .waiting)) ∨
      (op = .dropStream ∧ ∃ r, s.stream = some r ∧ (r.pc = .fresh ∨ r.pc = .waiting)) →
    s'.log = s.log ∧ s'.user = s.user ∧ s'.unread = s.unread ∧ inStream s' = [] ∧
      s'.box = (if op = .dropFut then [] else s.box) ∧ ¬ Waiting s' ∧
      free cfg s' = cfg.maxNum - (s'.box.length + s.user.length) ∧
      (∀ max, (step cfg s' (.tryReceive max)).panic = false ∧
        ∃ r, (step cfg s' (.tryReceive max)).log = s.log ++ [.tried max r]) ∧
      (∀ new max, ∃ f, (step cfg s' (.start new max)).fut = some f ∧ f.new = new ∧ f.max = max ∧ f.total = 0) ∧
      (step cfg s' (.toStream true)).stream ≠ none := by
  intro s s' hp h
  have w : WInv cfg s := reach_w cfg ops
  have key : s'.log = s.log ∧ s'.user = s.user ∧ s'.unread = s.unread ∧ s'.fut = none ∧ s'.stream = none ∧
      s'.box = (if op = .dropFut then [] else s.box) ∧ s'.panic = false := by
    show (step cfg s op).log = _ ∧ _
    rcases h with ⟨rfl, f, hf, hpc⟩ | ⟨rfl, r, hr, hpc⟩
    · have hs : s.stream = none := w.x.resolve_left (by rw [hf]; simp)
      rcases hpc with e | e <;> simp [s', step, hp, dropFut, hf, e, hs]
    · have hs : s.fut = none := w.x.resolve_right (by rw [hr]; simp)
      rcases hpc with e | e <;> simp [s', step, hp, dropStream, hr, e, hs]
  obtain ⟨h1, h2, h3, h4, h5, h6, h7⟩ := key
  refine ⟨h1, h2, h3, by simp [inStream, h5], h6, ?_, by simp [free, inStream, h5, h2], fun max => ?_, fun new max => ?_, ?_⟩
  · rintro (⟨f, a, _⟩ | ⟨r, a, _⟩)
    · rw [h4] at a; cases a
    · rw [h5] at a; cases a
  · have e : s' = run cfg init (ops ++ [op]) := by
      show step cfg (run cfg init ops) op = _
      simp [run, List.foldl_append]
    have hpan : (step cfg s' (.tryReceive max)).panic = false := by
      have hstep : step cfg s' (.tryReceive max) = tryReceive cfg s' max := by simp [step, h7]
      rw [hstep]
      unfold tryReceive
      rw [h4, h5]
      dsimp only
      cases hfe : fetch cfg s' cfg.cap max s'.box with
      | error e => exact h7
      | got xs b => exact h7
      | assertion =>
        exfalso
        unfold fetch at hfe
        split at hfe
        · cases hfe
        · rename_i a0
          split at hfe
          · cases hfe
          · rename_i a1
            split at hfe
            · cases hfe
            · rename_i a2
              rw [held_free] at a2
              obtain ⟨xs, b, hx⟩ := fetch_some (cfg := cfg) (s := s') (cap := cfg.cap) s'.box
                (Nat.pos_of_ne_zero a0) (by omega) (by omega) (by omega)
              unfold fetch at hx
              rw [held_free, if_neg a0, if_neg a1, if_neg a2] at hx
              rw [held_free] at hfe
              rw [hx] at hfe
              cases hfe
    refine ⟨hpan, ?_⟩
    have t := try_receive cfg (ops ++ [op]) max hc
    rw [← e] at t
    have t := t h7 h4 h5
    by_cases a : max = 0 ∨ cfg.maxNum < max ∨ free cfg s' = 0
    · obtain ⟨⟨er, b, _⟩, _⟩ := t.1 a
      exact ⟨_, by rw [b, h1]⟩
    · obtain ⟨xs, k, _, b, _⟩ := t.2 (by omega) (by omega) (by omega)
      exact ⟨_, by rw [b, h1]⟩
  · exact ⟨⟨new, max, 0, .fresh⟩, by simp [step, h7, start, h4, h5], rfl, rfl, rfl⟩
  · simp [step, h7, toStream, h4, h5]

/-- A future that waits with a sample in its container is dropped, and a stream with two samples. -/
example : let s := run cfg init ([.store, .start 2 2] ++ onePoll)
    let u := run cfg init (three ++ [.toStream true] ++ oneNext)
    (s.panic = false ∧ s.fut = some ⟨2, 2, 1, .waiting⟩ ∧ s.box = [0]) ∧
      u.panic = false ∧ u.stream = some ⟨[1, 2], .fresh⟩ := by decide +kernel

/-- **A receive that cannot be notified.**  If the receive handler cannot be set, a valid receive
returns an error when it is polled first, with the container as it was; nobody waits for a
notification that cannot come.  A handler that is set already is not set again. -/
theorem handler_refused (cfg : Cfg) (ops : List Op) (f : Fut) :
    let s := run cfg init ops
    let s' := step cfg s (.poll false)
    s.panic = false → s.fut = some f → f.pc = .fresh →
    (s.handler = false → 0 < f.new ∧ f.new ≤ f.max ∧ f.max ≤ cfg.maxNum →
      s'.fut = none ∧ s'.log = s.log ++ [.received f.new f.max (.err .failed) s.box] ∧ Untouched s s' ∧
        s'.handler = false) ∧
    (s.handler = true → s' = step cfg s (.poll true)) := by
  intro s s' hp hf hpc
  refine ⟨fun hh v => ?_, fun hh => ?_⟩
  · have e : s' = finish { s with woken := false } f (.err .failed) := by
      show step cfg s _ = _
      simp [step, hp, poll, hf, hpc, valid_iff.2 v, hh]
    rw [e]
    exact ⟨rfl, rfl, ⟨rfl, rfl, rfl, rfl⟩, hh⟩
  · show step cfg s _ = _
    simp [step, hp, poll, hf, hpc, hh]

/-- The first receive is refused its handler; the second gets it, and the third needs none. -/
example : (run cfg init [.start 1 2]).handler = false ∧
    (run cfg init [.start 1 2, .poll false]).log = [.received 1 2 (.err .failed) []] ∧
    (run cfg init ([.store, .start 1 2] ++ onePoll ++ [.start 1 2])).handler = true ∧
    (run cfg init ([.store, .start 1 2] ++ onePoll ++ [.start 1 2])).fut = some ⟨1, 2, 0, .fresh⟩ := by decide +kernel

/-- **The beginning of a stream.**  Without a receive under way and without a stream, `to_stream`
gives an empty stream that is polled at once, and touches no sample.  The receive handler is set if it
was not set before.  Only if this is needed and fails, the process ends. -/
theorem stream_begins (cfg : Cfg) (ops : List Op) (ok : Bool) :
    let s := run cfg init ops
    let s' := step cfg s (.toStream ok)
    s.panic = false → s.fut = none → s.stream = none →
    (s'.panic = true ↔ s.handler = false ∧ ok = false) ∧
    (s'.panic = false → s'.stream ≠ none ∧ inStream s' = [] ∧ s'.woken = true ∧ s'.handler = true ∧
      s'.log = s.log ∧ Untouched s s') := by
  intro s s' hp hf hs
  have e : s' = toStream s ok := by show step cfg s _ = _; simp [step, hp]
  rw [e]
  cases hh : s.handler <;> cases ok <;> simp [toStream, hf, hs, hh, hp, inStream, Untouched]

/-- The handler was set by a receive, so that the stream needs none. -/
example : let s := run cfg init ([.store, .start 1 2] ++ onePoll)
    s.panic = false ∧ s.fut = none ∧ s.stream = none ∧ s.handler = true ∧
      (step cfg s (.toStream false)).panic = false := by decide +kernel

/-- **Validation.**  A receive future with arguments that are not valid (none is asked for, more
than the maximum, or a maximum above the number subscribed for) returns an error when it is
polled first, with the container as it was, and only then does it return this error. -/
theorem validation (cfg : Cfg) (ops : List Op) (f : Fut) :
    let s := run cfg init ops
    let s' := run cfg s onePoll
    (s.panic = false → s.fut = some f → f.pc = .fresh → ¬ (0 < f.new ∧ f.new ≤ f.max ∧ f.max ≤ cfg.maxNum) →
      s'.fut = none ∧ s'.log = s.log ++ [.received f.new f.max (.err .bounds) s.box] ∧ Untouched s s') ∧
    (∀ new max b, .received new max (.err .bounds) b ∈ s.log → ¬ (0 < new ∧ new ≤ max ∧ max ≤ cfg.maxNum)) := by
  intro s s'
  constructor
  · intro hp hf hpc hv
    have hv' : valid cfg f.new f.max = false := by
      cases h : valid cfg f.new f.max with
      | false => rfl
      | true => exact absurd (valid_iff.1 h) hv
    have : s' = finish { s with woken := false } f (.err .bounds) := by
      show run cfg s onePoll = _
      simp [run, onePoll, step, poll, go, finish, hp, hf, hpc, hv']
    rw [this]
    exact ⟨rfl, rfl, rfl, rfl, rfl, rfl⟩
  · intro new max b hm
    exact log_run ops (winv_init cfg) (oinv_init cfg) (fun e he => by cases he) _ hm

example : (run cfg init ([.store, .start 2 1] ++ onePoll ++ [.start 1 4] ++ onePoll ++ [.start 0 1] ++ onePoll)).log =
    [.received 2 1 (.err .bounds) [], .received 1 4 (.err .bounds) [], .received 0 1 (.err .bounds) []] := by decide +kernel

/-- **Cancellation.**  A receive future that is under way returns with the next poll after its
cancellation, with the samples that it has got in the container, and nothing is handed over in
this poll.  It returns this error only if the user has cancelled. -/
theorem cancellation (cfg : Cfg) (ops : List Op) (f : Fut) :
    let s := run cfg init ops
    let s' := run cfg s onePoll
    (s.panic = false → s.fut = some f → f.pc = .waiting ∨ (f.pc = .fresh ∧ 0 < f.new ∧ f.new ≤ f.max ∧ f.max ≤ cfg.maxNum) →
      s.cancel = true → s'.fut = none ∧ s'.log = s.log ++ [.received f.new f.max (.err .cancelled) s.box] ∧ Untouched s s') ∧
    (∀ new max b, .received new max (.err .cancelled) b ∈ s.log → .cancel ∈ ops) := by
  intro s s'
  constructor
  · intro hp hf hpc hc
    have : ∃ hd, s' = finish { s with woken := false, handler := hd } { f with pc := .started } (.err .cancelled) := by
      rcases hpc with h | ⟨h, v⟩
      · refine ⟨s.handler, ?_⟩
        show run cfg s onePoll = _
        simp [run, onePoll, step, poll, go, finish, hp, hf, h, hc]
      · refine ⟨true, ?_⟩
        have := valid_iff.2 v
        show run cfg s onePoll = _
        simp [run, onePoll, step, poll, go, finish, hp, hf, h, hc, this]
    obtain ⟨hd, e⟩ := this
    rw [e]
    exact ⟨rfl, rfl, rfl, rfl, rfl, rfl⟩
  · intro new max b hm
    by_cases h : Op.cancel ∈ ops
    · exact h
    · exact absurd hm (cancelled_run ops (winv_init cfg) (oinv_init cfg) rfl (fun _ _ _ h => by cases h) h new max b)

example : (run cfg init ([.store, .start 2 2] ++ onePoll ++ [.store, .cancel] ++ onePoll)).log =
    [.received 2 2 (.err .cancelled) [0]] := by decide +kernel

/-- Cancelling wakes the task. -/
theorem cancel_wakes (cfg : Cfg) (s : St) (f : Fut) (hp : s.panic = false) (hf : s.fut = some f) :
    (step cfg s .cancel).woken = true ∧ (step cfg s .cancel).cancel = true := by
  simp [step, cancel, hp, hf]

example : (run cfg init ([.start 2 2] ++ onePoll)).fut = some ⟨2, 2, 0, .waiting⟩ := by decide +kernel

/-- **A stream yields every sample it has fetched.**  While a stream exists, the samples handed
over are exactly those it yields and those it will yield before it fetches again, in this
order. -/
theorem stream_complete (cfg : Cfg) (ops ops' : List Op) :
    let s := run cfg init ops
    let s' := run cfg s ops'
    s.stream ≠ none → .dropStream ∉ ops' → s'.panic = false →
    ∃ d, s'.got = s.got ++ d ∧ s'.out ++ inStream s' = s.out ++ inStream s ++ d := by
  intro s s' h1 h2 h3
  exact (stream_run ops' (reach_w cfg ops) h1 h2 h3).2

example : let s := run cfg init [.toStream true]
    let s' := run cfg s (three ++ oneNext ++ oneNext ++ [.store, .release 0, .release 1] ++ oneNext ++ oneNext)
    s.stream ≠ none ∧ s'.panic = false ∧ s'.got = [0, 1, 2, 3] ∧ s'.out = [0, 1, 2, 3] := by decide +kernel

/-- **A poll of a stream.**  A stream that has fetched samples yields the next one.  Otherwise it
yields an error if the user has no sample left to get, waits if there is no sample, and otherwise
fetches the newest samples, as many as there are and as the user may get, and yields the first
of them. -/
theorem next_item (cfg : Cfg) (ops : List Op) (r : Str) :
    let s := run cfg init ops
    let s' := run cfg s oneNext
    let n := min (free cfg s) s.unread.length
    s.panic = false → s.stream = some r → r.pc = .waiting ∨ r.pc = .fresh →
    (∀ x b, r.buf = x :: b → (step cfg s .next).log = s.log ++ [.item x] ∧ inStream (step cfg s .next) = b ∧
      (step cfg s .next).user = s.user ++ [x]) ∧
    (r.buf = [] → 0 < cfg.maxNum →
      (free cfg s = 0 → s'.log = s.log ++ [.itemErr] ∧ Untouched s s') ∧
      (0 < free cfg s → s.unread = [] → Waiting s' ∧ s'.log = s.log ∧ Untouched s s') ∧
      (0 < free cfg s → s.unread ≠ [] → ∃ x xs, TookNewest s s' n (x :: xs) ∧ s'.log = s.log ++ [.item x] ∧
        s'.user = s.user ++ [x] ∧ inStream s' = xs)) := by
  intro s s' n hp hr hpc
  refine ⟨?_, fun hb hmax => ?_⟩
  · intro x b hb
    rcases hpc with h | h <;> simp [step, nextItem, inStream, hp, hr, h, hb]
  · have e : s' = _ := wholeNext hp hr hb hpc
    generalize hm : ({ s with woken := false, waker := true, stream := some { r with pc := .polling } } : St) = m at e
    have mf : m.stream = some { r with pc := .polling } := by rw [← hm]
    have mb : m.box = s.box := by rw [← hm]
    have mu : m.unread = s.unread := by rw [← hm]
    have mg : m.got = s.got := by rw [← hm]
    have ml : m.log = s.log := by rw [← hm]
    have mus : m.user = s.user := by rw [← hm]
    have mfree : free cfg m = free cfg s := by rw [← hm]; simp [free, inStream, hr]
    unfold goStream at e
    rw [mf] at e
    dsimp only at e
    rw [hb] at e
    refine ⟨fun h0 => ?_, fun h0 hu => ?_, fun h0 hu => ?_⟩
    · rw [fetch_full [] (by omega) (Nat.le_refl _) (mfree.trans h0)] at e
      dsimp only at e
      rw [e]
      exact ⟨by simp [ml], mb, mg, mu, mus⟩
    · obtain ⟨xs, b, hfe⟩ := fetch_some (cfg := cfg) (s := m) (cap := cfg.maxNum) (limit := cfg.maxNum) [] (by omega) (Nat.le_refl _)
        (by omega) (Nat.le_refl _)
      have hF := fetch_got hfe
      have hbx := fill_eq hF
      have hx : xs = [] := List.eq_nil_of_length_eq_zero (by have := hF.len.2.2; rw [mu, hu] at this; simpa using this)
      rw [hfe, hbx, hx] at e
      dsimp only at e
      rw [e]
      exact ⟨.inr ⟨_, rfl, rfl⟩, ml, mb, by simp [mg], hu.symm, mus⟩
    · obtain ⟨xs, b, hfe⟩ := fetch_some (cfg := cfg) (s := m) (cap := cfg.maxNum) (limit := cfg.maxNum) [] (by omega) (Nat.le_refl _)
        (by omega) (Nat.le_refl _)
      have hF := fetch_got hfe
      have hbx := fill_eq hF
      subst hbx
      have htk := hF.took (s' := { m with got := m.got ++ b, unread := [] }) rfl rfl
      rw [mfree, mu] at htk
      have hfm : free cfg s ≤ cfg.maxNum := Nat.sub_le _ _
      have hn : min (min cfg.maxNum (free cfg s)) s.unread.length = n := by show _ = min (free cfg s) s.unread.length; omega
      rw [hn] at htk
      have hpos : 0 < n := by
        have : 0 < s.unread.length := List.length_pos_iff.2 hu
        show 0 < min (free cfg s) s.unread.length
        omega
      rw [hfe] at e
      cases b with
      | nil => have := htk.2.1; simp at this; omega
      | cons x xs =>
        dsimp only at e
        rw [e]
        obtain ⟨⟨older, ho⟩, hl, _, _⟩ := htk
        exact ⟨x, xs, ⟨⟨older, mu ▸ ho⟩, hl, by simp [mg], rfl⟩, by simp [ml], by simp [mus], rfl⟩

example : let s := run cfg init (three ++ [.toStream true])
    s.stream = some ⟨[], .fresh⟩ ∧ free cfg s = 3 ∧ (run cfg s oneNext).stream = some ⟨[1, 2], .fresh⟩ ∧
    (run cfg s (oneNext ++ oneNext)).log = [.item 0, .item 1] := by decide +kernel

/-- **The process does not end (partial).**  Holds if the container can hold as many samples as
the user subscribed for, `try_receive` is not called while a receive is under way, and the receive
handler can be set when a stream is made; see `small_container_fails`. -/
theorem no_panic_partial (cfg : Cfg) (ops : List Op) (hc : cfg.maxNum ≤ cfg.cap)
    (h : ∀ pre op post, ops = pre ++ op :: post →
      (∀ m, op = .tryReceive m → ¬ Busy (run cfg init pre)) ∧ op ≠ .toStream false) :
    (run cfg init ops).panic = false :=
  panic_run hc ops (winv_init cfg) rfl h

/-- The hypotheses for a `try_receive` after a receive that is finished. -/
example : ¬ Busy (run cfg init (three ++ [.start 1 3] ++ onePoll)) ∧
    (run cfg init (three ++ [.start 1 3] ++ onePoll ++ [.tryReceive 1])).panic = false := by
  refine ⟨?_, by decide +kernel⟩
  rintro ⟨f, hf, _⟩
  have : (run cfg init (three ++ [.start 1 3] ++ onePoll)).fut = none := by decide +kernel
  rw [this] at hf; cases hf

/-- **Violated.**  A receive that needs several polls returns a number of samples that the
container does not hold, although the container is large enough and was empty: the polls after the
first allow only as many samples in the container as are still missing, so that the samples that
were received before are dropped. -/
theorem several_polls_fails :
    ∃ cfg ops n b, cfg.maxNum ≤ cfg.cap ∧ (run cfg init ops).log = [.received n n (.ok n) b] ∧ b.length < n :=
  ⟨cfg, [.start 3 3, .store] ++ onePoll ++ [.store] ++ onePoll ++ [.store] ++ onePoll, 3, [2], by decide +kernel⟩

/-- **Violated.**  A container that is smaller than the maximum of the call ends the process. -/
theorem small_container_fails :
    ∃ cfg ops, 0 < cfg.cap ∧ (∀ op ∈ ops, op ≠ .toStream false) ∧ (run cfg init ops).fut = none ∧ (run cfg init ops).panic = true :=
  ⟨⟨2, 1⟩, [.store, .store, .tryReceive 2], by decide, by decide, by decide +kernel⟩

/-- **Violated.**  `try_receive` documents that the oldest samples in the container make room for
new ones.  It returns an error when the container holds as many samples as the user
subscribed for. -/
theorem full_window_fails :
    ∃ cfg ops, let s := run cfg init ops
      cfg.maxNum ≤ cfg.cap ∧ s.user = [] ∧ s.fut = none ∧ s.unread ≠ [] ∧ s.box.length = cfg.maxNum ∧
      (step cfg s (.tryReceive cfg.maxNum)).log = s.log ++ [.tried cfg.maxNum (.err .failed)] :=
  ⟨cfg, three ++ [.tryReceive 3, .store], by decide +kernel⟩

/-- **Violated.**  A container with more samples than the maximum of the call keeps them if there
is no new sample. -/
theorem not_shrunk_fails :
    ∃ cfg ops max, let s := step cfg (run cfg init ops) (.tryReceive max)
      cfg.maxNum ≤ cfg.cap ∧ s.log = [.tried 2 (.ok 2), .tried max (.ok 0)] ∧ max < s.box.length :=
  ⟨cfg, three ++ [.tryReceive 2], 1, by decide +kernel⟩

/-- **Violated.**  While the user holds all the samples they subscribed for, every poll of a stream
yields an error, although no sample is waiting: a task that goes on after errors never rests. -/
theorem full_stream_fails :
    ∃ cfg ops, let s := run cfg init ops
      s.unread = [] ∧ s.log = [.item 0] ∧ (run cfg s (oneNext ++ oneNext)).log = s.log ++ [.itemErr, .itemErr] ∧
      ¬ Waiting (run cfg s (oneNext ++ oneNext)) :=
  ⟨⟨1, 1⟩, [.store, .toStream true] ++ oneNext, by decide +kernel, by decide +kernel, by decide +kernel, by
    have hf : (run ⟨1, 1⟩ (run ⟨1, 1⟩ init ([.store, .toStream true] ++ oneNext)) (oneNext ++ oneNext)).fut = none := by decide +kernel
    have hs : (run ⟨1, 1⟩ (run ⟨1, 1⟩ init ([.store, .toStream true] ++ oneNext)) (oneNext ++ oneNext)).stream = some ⟨[], .fresh⟩ := by
      decide +kernel
    rintro (⟨f, h, _⟩ | ⟨r, h, hp⟩)
    · rw [hf] at h; cases h
    · rw [hs] at h; injection h with h; rw [← h] at hp; cases hp⟩

end Verif.Props.C119
