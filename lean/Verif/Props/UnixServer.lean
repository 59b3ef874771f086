import Verif.Proofs.UnixServerReady
/-! C95: the sessions of a server.  C96: a server stops. -/

namespace Verif.Demo.C95
open Verif.UnixServer

/-- Server 7 starts, process 42 connects with session 0; then everything is polled and the loop stands
before the descriptor of the session. -/
def connected : List Step :=
  [.start 7 5, .command 0 (fun _ => .done), .poll (fun _ => true), .turn {}, .turn { accept := some (11, 42) }, .turn {}, .turn {},
   .poll (fun i => i == 2), .turn {}, .turn {}]

theorem at_session : AtSession (run connected) 0 7 :=
  ⟨2, ⟨some 11, true, some (.conn 0 7)⟩, by decide +kernel, by decide +kernel, by decide +kernel, by decide +kernel⟩

theorem opened : OpenSession 7 0 42 (run connected).log := ⟨by decide +kernel, by decide +kernel, by decide +kernel⟩

end Verif.Demo.C95

namespace Verif.Props.C95
open Verif.UnixServer

/-- The callbacks of a session come in order, whatever clients send and callbacks do: first the connection
callback, nothing more if it refuses; otherwise messages, all from the process that the connection callback
was told, and at most one disconnection callback, after which nothing comes. -/
theorem session_is_orderly (l : List Step) (c : Nat) : Orderly c (run l).log := (top_run l).orderly c

example : calls 0 (run (Demo.C95.connected ++ [.turn { msg := some 9 }, .turn {}, .poll (fun _ => true), .turn {},
      .turn { accept := some (12, 43), does := .disconnect 0 .done .done }])).log =
    [.connect 7 0 42, .accepted 0, .message 0 42 9, .disconnect 0] := by decide +kernel

/-- Each open session has an open descriptor on which the process of that session is, and it is polled. -/
theorem open_is_polled (l : List Step) (s c p : Nat) (h : OpenSession s c p (run l).log) :
    ∃ fd, (fd, p) ∈ (run l).fds ∧
      ∃ (i : Nat) (x : Slot), (run l).slots[i]? = some x ∧ x.fd = some fd ∧ x.ep = some (.conn c s) := by
  obtain ⟨y, hy, rfl, rfl, hfd⟩ := (top_run l).live_of_open h
  obtain ⟨i, x, hx, hxe⟩ := (top_run l).inv.connSlot y hy ((top_run l).acc y hy)
  obtain ⟨z, hz, hzc, -, -, hzf⟩ := (top_run l).inv.slotConn i x _ _ hx hxe
  have := (top_run l).inv.idUniq z hz y hy hzc
  subst this
  exact ⟨z.fd, hfd, i, x, hx, hzf, hxe⟩

/-- Each open descriptor is that of an open session with the process on the other side, and of one only:
descriptors of sessions that have been refused or have ended are closed. -/
theorem descriptors_are_closed (l : List Step) (fd p : Nat) (h : (fd, p) ∈ (run l).fds) :
    (∃ s c, OpenSession s c p (run l).log) ∧ ∀ q, (fd, q) ∈ (run l).fds → q = p := by
  obtain ⟨y, hy, hyf⟩ := (top_run l).inv.fdsLive _ h
  obtain ⟨q, hq, ho⟩ := (top_run l).open_of_live hy
  have := (top_run l).inv.fdsUniq _ hq _ h hyf
  cases this
  refine ⟨⟨_, _, ho⟩, fun r hr => ?_⟩
  have := (top_run l).inv.fdsUniq _ hr _ h rfl
  injection this

example : OpenSession 7 0 42 (run Demo.C95.connected).log ∧ (run Demo.C95.connected).fds = [(11, 42)] :=
  ⟨Demo.C95.opened, by decide +kernel⟩

/-- Each server that listens is polled for requests, or its registration waits in the queue, or it is about to
have stopped. -/
theorem server_is_polled (l : List Step) (s fd : Nat) (h : (s, fd) ∈ (run l).listening) :
    s ∈ (run l).cleaned ∨ .listen s fd ∈ (run l).queue ∨
      ∃ (j : Nat) (x : Slot), (run l).slots[j]? = some x ∧ x.fd = some fd ∧ x.ep = some (.listener s) :=
  heard_run l s fd h

example : (7, 5) ∈ (run Demo.C95.connected).listening := by decide +kernel

/-- A client that connects is offered to the connection callback as a new session of the server to which it
has connected, and the callback decides. -/
theorem request_is_offered (l : List Step) (s fd p : Nat) (e : In) (hf : (run l).fault = none) (h : AtListener (run l) s)
    (ha : e.accept = some (fd, p)) (hfd : ∀ a ∈ (run l).fds, a.1 ≠ fd) (hid : e.identified = true) :
    ∃ c mid, (∀ x ∈ (run l).log, callOf c x = false) ∧
      (run (l ++ [.turn e])).log =
        (run l).log ++ .connect s c p :: (mid ++ [if e.success then .accepted c else .refused c]) := by
  obtain ⟨i, x, hi, hx, hr, hxe⟩ := h
  obtain ⟨mid, hl⟩ := connect_offers (top_run l) (s := s) ha hfd hid
  refine ⟨(run l).next, mid, ?_, ?_⟩
  · intro z hz
    cases hc : callOf (run l).next z with
    | false => rfl
    | true =>
      have : z ∈ calls (run l).next (run l).log := mem_calls.mpr ⟨hz, hc⟩
      rw [(top_run l).inv.fresh _ (Nat.le_refl _)] at this
      cases this
  · have hrun : run (l ++ [.turn e]) = step (run l) (.turn e) := by
      unfold run; rw [List.foldl_append]; rfl
    have hlt : i < (run l).slots.length := by
      rcases Nat.lt_or_ge i (run l).slots.length with h | h
      · exact h
      · rw [List.getElem?_eq_none h] at hx; cases hx
    rw [hrun, ← hl]
    unfold step
    rw [if_neg (by simp [hf])]
    dsimp only
    rw [hi]
    dsimp only
    rw [if_pos hlt]
    show (turn (run l) i e).log = _
    unfold turn
    rw [hx]
    dsimp only
    rw [if_neg (by simp [hr]), hxe]

example : AtListener (run (Demo.C95.connected.take 4)) 7 ∧ (run (Demo.C95.connected.take 4)).fault = none ∧
    ∀ a ∈ (run (Demo.C95.connected.take 4)).fds, a.1 ≠ 11 :=
  ⟨⟨1, ⟨some 5, true, some (.listener 7)⟩, by decide +kernel, by decide +kernel, by decide +kernel, by decide +kernel⟩,
    by decide +kernel, by decide +kernel⟩

/-- A message that is received is delivered once, with the session and the process it came from, before the callback
thread does anything else. -/
theorem received_is_delivered (l : List Step) (c s m : Nat) (e : In) (hf : (run l).fault = none)
    (h : AtSession (run l) c s) (hm : e.msg = some m) :
    ∃ p mid rest, (run (l ++ [.turn e])).log = (run l).log ++ .message c p m :: (mid ++ .returned c :: rest) ∧
      OpenSession s c p (run l).log ∧ (e.success = true → rest = []) := by
  obtain ⟨i, x, hi, hx, hr, hxe⟩ := h
  obtain ⟨p, mid, rest, hl, ho, -, hrest⟩ := input_delivers (top_run l) hx hxe e hm
  refine ⟨p, mid, rest, ?_, ho, hrest⟩
  have hrun : run (l ++ [.turn e]) = step (run l) (.turn e) := by
    unfold run; rw [List.foldl_append]; rfl
  have hlt : i < (run l).slots.length := by
    rcases Nat.lt_or_ge i (run l).slots.length with h | h
    · exact h
    · rw [List.getElem?_eq_none h] at hx; cases hx
  rw [hrun, ← hl]
  unfold step
  rw [if_neg (by simp [hf])]
  dsimp only
  rw [hi]
  dsimp only
  rw [if_pos hlt]
  show (turn (run l) i e).log = _
  unfold turn
  rw [hx]
  dsimp only
  rw [if_neg (by simp [hr]), hxe]

example : AtSession (run Demo.C95.connected) 0 7 ∧ (run Demo.C95.connected).fault = none :=
  ⟨Demo.C95.at_session, by decide +kernel⟩

/-- A session whose descriptor is ready when it is polled is served before the next poll: a message is delivered or
the session ends.  Sessions that other callbacks end or begin meanwhile, in slots that are used again, change nothing
about it. -/
theorem ready_is_served (l during : List Step) (f : Nat → Bool) (hcur : (run l).cursor = none)
    (hn : ∀ x ∈ during, ∀ g, x ≠ .poll g) (hend : (run (l ++ .poll f :: during)).cursor = none)
    (hok : (run (l ++ .poll f :: during)).fault = none) (s c p i : Nat) (x : Slot)
    (ho : OpenSession s c p (run l).log) (hx : (run l).slots[i]? = some x) (hxe : x.ep = some (.conn c s))
    (hr : f i = true) :
    ∃ new, (run (l ++ .poll f :: during)).log = (run l).log ++ new ∧
      ((∃ m, .message c p m ∈ new) ∨ .disconnect c ∈ new) := by
  have hrun : run (l ++ .poll f :: during) = during.foldl step (step (run l) (.poll f)) := by
    unfold run; rw [List.foldl_append]; rfl
  rw [hrun] at hend hok ⊢
  have hf : (run l).fault = none := by
    cases hf : (run l).fault with
    | none => rfl
    | some z =>
      rw [fault_step (by simp [hf]), fault_foldl _ _ (by simp [hf])] at hok
      rw [hf] at hok; cases hok
  have hs : step (run l) (.poll f) = { run l with
      cursor := some 0, slots := (run l).slots.mapIdx fun i x => { x with ready := x.fd.isSome && f i } } := by
    unfold step
    rw [if_neg (by simp [hf])]
    dsimp only
    rw [if_neg (by simp [hcur])]
  have hT := top_step (top_run l) (.poll f)
  obtain ⟨z, hz, hzc, -, -, hzf⟩ := (top_run l).inv.slotConn i x c s hx hxe
  have hlog : (step (run l) (.poll f)).log = (run l).log := by rw [hs]
  obtain ⟨new, hl, hc⟩ := foldl_waits during _ hT (fun y hy => by
      cases y with
      | poll g => exact absurd rfl (hn _ hy g)
      | _ => trivial) (i := i) (j := 0) (y := { x with ready := x.fd.isSome && f i }) (c := c) (s := s)
    (by rw [hs]) (Nat.zero_le _) (by rw [hs]; show (List.mapIdx _ _)[i]? = _; rw [List.getElem?_mapIdx, hx]; rfl)
    (by simp [hzf, hr]) hxe
  rw [hlog] at hl
  refine ⟨new, hl, ?_⟩
  rcases hc with hc | (⟨q, m, hm⟩ | hc) | hc
  · rw [hok] at hc; cases hc
  · left
    refine ⟨m, ?_⟩
    have hm2 : .message c q m ∈ calls c (during.foldl step (step (run l) (.poll f))).log :=
      mem_calls.mpr ⟨by rw [hl]; simp [hm], by simp [callOf]⟩
    have hc2 : .connect s c p ∈ calls c (during.foldl step (step (run l) (.poll f))).log :=
      mem_calls.mpr ⟨by rw [hl]; simp [ho.1], by simp [callOf]⟩
    have hord := (top_run (l ++ .poll f :: during)).orderly c
    rw [hrun] at hord
    have hq : q = p := by
      rcases hord with hord | ⟨s', p', hord | ⟨msgs, hmsgs, hord⟩⟩
      · rw [hord] at hm2; cases hm2
      · rw [hord] at hm2; simp at hm2
      · have e1 : q = p' := by
          rcases hord with hord | hord
          · rw [hord] at hm2
            simp only [List.mem_cons, reduceCtorEq, false_or] at hm2
            obtain ⟨m', e⟩ := hmsgs _ hm2
            injection e
          · rw [hord] at hm2
            simp only [List.mem_cons, List.mem_append, reduceCtorEq, false_or, List.not_mem_nil, or_false] at hm2
            obtain ⟨m', e⟩ := hmsgs _ hm2
            injection e
        have e2 : p = p' := by
          rcases hord with hord | hord
          · rw [hord] at hc2
            simp only [List.mem_cons, reduceCtorEq, false_or] at hc2
            rcases hc2 with e | hc2
            · injection e
            · obtain ⟨m', e⟩ := hmsgs _ hc2
              cases e
          · rw [hord] at hc2
            simp only [List.mem_cons, List.mem_append, reduceCtorEq, false_or, List.not_mem_nil, or_false] at hc2
            rcases hc2 with e | hc2
            · injection e
            · obtain ⟨m', e⟩ := hmsgs _ hc2
              cases e
        rw [e1, e2]
    rw [← hq]; exact hm
  · exact Or.inr hc
  · rw [hend] at hc; cases hc

example : (run (Demo.C95.connected.take 7)).cursor = none ∧
    (run (Demo.C95.connected ++ [.turn { msg := some 9 }, .turn {}])).cursor = none ∧
    (run (Demo.C95.connected ++ [.turn { msg := some 9 }, .turn {}])).fault = none ∧
    OpenSession 7 0 42 (run (Demo.C95.connected.take 7)).log ∧
    (run (Demo.C95.connected.take 7)).slots[2]? = some ⟨some 11, false, some (.conn 0 7)⟩ :=
  ⟨by decide +kernel, by decide +kernel, by decide +kernel, ⟨by decide +kernel, by decide +kernel, by decide +kernel⟩, by decide +kernel⟩

/-- The callback thread reads only from sessions, and accepts only for servers, whose descriptors the last poll has
found ready, so it does not block: descriptors that are registered after the poll, in whatever slot, wait for the next
one. -/
theorem only_ready_is_read (l during : List Step) (f : Nat → Bool) (hcur : (run l).cursor = none)
    (hn : ∀ x ∈ during, ∀ g, x ≠ .poll g) (hf : (run l).fault = none) :
    (∀ c s, AtSession (run (l ++ .poll f :: during)) c s →
      ∃ (i : Nat) (x : Slot), (run l).slots[i]? = some x ∧ x.ep = some (.conn c s) ∧ f i = true) ∧
    (∀ s, AtListener (run (l ++ .poll f :: during)) s →
      ∃ (i : Nat) (x : Slot), (run l).slots[i]? = some x ∧ x.ep = some (.listener s) ∧ f i = true) := by
  have hrun : run (l ++ .poll f :: during) = during.foldl step (step (run l) (.poll f)) := by
    unfold run; rw [List.foldl_append]; rfl
  have hs : step (run l) (.poll f) = { run l with
      cursor := some 0, slots := (run l).slots.mapIdx fun i x => { x with ready := x.fd.isSome && f i } } := by
    unfold step
    rw [if_neg (by simp [hf])]
    dsimp only
    rw [if_neg (by simp [hcur])]
  have ho := oldR_foldl during _ (top_step (top_run l) (.poll f)) (fun y hy => by
      cases y with
      | poll g => exact absurd rfl (hn _ hy g)
      | _ => trivial)
  have key : ∀ (i : Nat) (x : Slot) (e : Ep), (run (l ++ .poll f :: during)).slots[i]? = some x → x.ready = true →
      x.ep = some e → Ours e → ∃ (i : Nat) (x : Slot), (run l).slots[i]? = some x ∧ x.ep = some e ∧ f i = true := by
    intro i x e hx hr he hou
    rw [hrun] at hx
    have hx := ho i x e hx he hou hr
    rw [hs] at hx
    obtain ⟨y, hy, rfl⟩ := poll_get (run l) f i x hx
    refine ⟨i, y, hy, he, ?_⟩
    have hr : (y.fd.isSome && f i) = true := hr
    simp only [Bool.and_eq_true] at hr
    exact hr.2
  exact ⟨fun c s ⟨i, x, _, hx, hr, he⟩ => key i x _ hx hr he trivial,
    fun s ⟨i, x, _, hx, hr, he⟩ => key i x _ hx hr he trivial⟩

example : (run (Demo.C95.connected.take 7)).cursor = none ∧ (run (Demo.C95.connected.take 7)).fault = none ∧
    AtSession (run (Demo.C95.connected.take 7 ++ .poll (fun i => i == 2) :: [.turn {}, .turn {}])) 0 7 :=
  ⟨by decide +kernel, by decide +kernel, Demo.C95.at_session⟩

/-- A client whose identity cannot be found is not offered, and its descriptor is closed. -/
theorem unidentified_is_rejected (l : List Step) (s : Nat) (e : In) (h : AtListener (run l) s) (ha : e.accept ≠ none)
    (hid : e.identified = false) : (run (l ++ [.turn e])).log = (run l).log ∧ (run (l ++ [.turn e])).fds = (run l).fds := by
  obtain ⟨i, x, hi, hx, hr, hxe⟩ := h
  have hrun : run (l ++ [.turn e]) = step (run l) (.turn e) := by
    unfold run; rw [List.foldl_append]; rfl
  have hlt : i < (run l).slots.length := by
    rcases Nat.lt_or_ge i (run l).slots.length with h | h
    · exact h
    · rw [List.getElem?_eq_none h] at hx; cases hx
  have hp : processConnect (run l) s e = run l := by
    unfold processConnect
    split
    · rename_i hn; exact absurd hn ha
    · split
      · rfl
      · rw [if_pos (by simp [hid])]
  have ht : turn (run l) i e = run l := by
    unfold turn
    rw [hx]
    dsimp only
    rw [if_neg (by simp [hr]), hxe]
    exact hp
  rw [hrun]
  unfold step
  split
  · exact ⟨rfl, rfl⟩
  · dsimp only
    rw [hi]
    dsimp only
    rw [if_pos hlt, ht]
    exact ⟨rfl, rfl⟩

/-- A session ends for a reason: a callback asks for it, its own server stops, nothing can be read from its own
descriptor or its own message callback returns an error.  What happens to other sessions, and that other servers
start or stop, does not end it. -/
theorem session_lasts (l : List Step) (x : Step) (c : Nat) (hn : .disconnect c ∉ (run l).log)
    (hd : .disconnect c ∈ (run (l ++ [x])).log) : Reason (run l) c x := by
  have hrun : run (l ++ [x]) = step (run l) x := by
    unfold run; rw [List.foldl_append]; rfl
  rw [hrun] at hd
  exact reason (top_run l) x c hn hd

example : .disconnect 0 ∉ (run Demo.C95.connected).log ∧
    .disconnect 0 ∈ (run (Demo.C95.connected ++ [.turn {}])).log := ⟨by decide +kernel, by decide +kernel⟩

/-- A session from which nothing can be read, or whose message callback returns an error, has got its disconnection
callback before the callback thread does anything else. -/
theorem failure_ends_session (l : List Step) (c s : Nat) (e : In) (hf : (run l).fault = none)
    (h : AtSession (run l) c s) (he : e.msg = none ∨ e.success = false) :
    .disconnect c ∈ (run (l ++ [.turn e])).log := by
  obtain ⟨i, x, hi, hx, hr, hxe⟩ := h
  have hin := input_ends (top_run l) hx hxe e he
  have hrun : run (l ++ [.turn e]) = step (run l) (.turn e) := by
    unfold run; rw [List.foldl_append]; rfl
  have hlt : i < (run l).slots.length := by
    rcases Nat.lt_or_ge i (run l).slots.length with h | h
    · exact h
    · rw [List.getElem?_eq_none h] at hx; cases hx
  have ht : turn (run l) i e = processInput (run l) c s e := by
    unfold turn
    rw [hx]
    dsimp only
    rw [if_neg (by simp [hr]), hxe]
  rw [hrun]
  unfold step
  rw [if_neg (by simp [hf])]
  dsimp only
  rw [hi]
  dsimp only
  rw [if_pos hlt]
  show .disconnect c ∈ (turn (run l) i e).log
  rw [ht]
  exact hin

example : AtSession (run Demo.C95.connected) 0 7 ∧ (run Demo.C95.connected).fault = none ∧
    (run (Demo.C95.connected ++ [.turn { msg := some 9, success := false }])).log =
      [.started 7, .connect 7 0 42, .accepted 0, .message 0 42 9, .returned 0, .disconnect 0] :=
  ⟨Demo.C95.at_session, by decide +kernel, by decide +kernel⟩

/-- Callbacks of a session do not overlap if the message callback does not end its own session: between the call of
the message callback and its return no callback of the session is called.  Missing: see `callbacks_overlap`. -/
theorem one_at_a_time_partial (l : List Step) (c s m : Nat) (e : In) (hf : (run l).fault = none)
    (h : AtSession (run l) c s) (hm : e.msg = some m) (hs : Spares c e.does) :
    ∃ p mid rest, (run (l ++ [.turn e])).log = (run l).log ++ .message c p m :: (mid ++ .returned c :: rest) ∧
      calls c mid = [] := by
  obtain ⟨i, x, hi, hx, hr, hxe⟩ := h
  obtain ⟨p, mid, rest, hl, -, hc, -⟩ := input_delivers (top_run l) hx hxe e hm
  refine ⟨p, mid, rest, ?_, hc hs⟩
  have hrun : run (l ++ [.turn e]) = step (run l) (.turn e) := by
    unfold run; rw [List.foldl_append]; rfl
  have hlt : i < (run l).slots.length := by
    rcases Nat.lt_or_ge i (run l).slots.length with h | h
    · exact h
    · rw [List.getElem?_eq_none h] at hx; cases hx
  rw [hrun, ← hl]
  unfold step
  rw [if_neg (by simp [hf])]
  dsimp only
  rw [hi]
  dsimp only
  rw [if_pos hlt]
  show (turn (run l) i e).log = _
  unfold turn
  rw [hx]
  dsimp only
  rw [if_neg (by simp [hr]), hxe]

example : Spares 0 (.disconnect 3 .done .done) := ⟨by decide, trivial, trivial⟩

/-- The documentation says that callbacks of a session are serialized.  A message callback that calls
`RequestDisconnect` for its own session is still running when the disconnection callback is called. -/
theorem callbacks_overlap : ∃ l c p m a b d, (run l).log = a ++ .message c p m :: b ++ .disconnect c :: d ∧
    .returned c ∉ b ∧ (run l).fault = none :=
  ⟨Demo.C95.connected ++ [.turn { msg := some 9, does := .disconnect 0 .done .done }], 0, 42, 9,
    [.started 7, .connect 7 0 42, .accepted 0], [], [.returned 0], by decide +kernel, by decide +kernel, by decide +kernel⟩

/-- The program does not fail if `accept` does not fail, `RequestDisconnect` is called on the callback thread only, and
a message callback that returns an error has not ended its own session.  Missing: the three findings below. -/
theorem no_fault_partial (l : List Step) (h : ∀ a x b, l = a ++ x :: b → Careful (run a) x) :
    (run l).fault = none := by
  generalize hn : l.length = n
  induction n generalizing l with
  | zero => rw [List.eq_nil_of_length_eq_zero hn]; rfl
  | succ n ih =>
    rcases List.eq_nil_or_concat l with rfl | ⟨l', x, rfl⟩
    · cases hn
    · rw [List.concat_eq_append] at h hn ⊢
      have hrun : run (l' ++ [x]) = step (run l') x := by
        unfold run; rw [List.foldl_append]; rfl
      rw [hrun]
      have hf := ih l' (fun a y b hab => h a y (b ++ [x]) (by rw [hab]; simp)) (by simpa using hn)
      exact step_fault (top_run l') hf x (h l' x [] rfl)

example : Careful (run Demo.C95.connected) (.turn { msg := some 9, does := .disconnect 3 .done .done, success := false }) := by
  refine ⟨fun s hs => ?_, fun c s hs _ => ?_⟩
  · obtain ⟨i, x, hi, hx, -, he⟩ := hs
    have e1 : (run Demo.C95.connected).cursor = some 2 := by decide +kernel
    rw [e1] at hi; cases hi
    have e2 : (run Demo.C95.connected).slots[2]? = some ⟨some 11, true, some (.conn 0 7)⟩ := by decide +kernel
    rw [e2] at hx; cases hx; cases he
  · obtain ⟨i, x, hi, hx, -, he⟩ := hs
    have e1 : (run Demo.C95.connected).cursor = some 2 := by decide +kernel
    rw [e1] at hi; cases hi
    have e2 : (run Demo.C95.connected).slots[2]? = some ⟨some 11, true, some (.conn 0 7)⟩ := by decide +kernel
    rw [e2] at hx; cases hx; cases he
    exact ⟨by decide, trivial, trivial⟩

/-- A message callback that ends its own session and then returns an error makes the callback thread use the
destroyed session. -/
theorem error_after_disconnect_fails : ∃ l e, (run l).fault = none ∧ AtSession (run l) 0 7 ∧
    e.msg = some 9 ∧ e.success = false ∧ (run (l ++ [.turn e])).fault = some .destroyed :=
  ⟨Demo.C95.connected, { msg := some 9, does := .disconnect 0 .done .done, success := false }, by decide +kernel,
    Demo.C95.at_session, rfl, rfl, by decide +kernel⟩

/-- An `accept` that fails, as when the client has gone or descriptors are exhausted, terminates the process. -/
theorem failed_accept_terminates (l : List Step) (s : Nat) (e : In) (hf : (run l).fault = none)
    (h : AtListener (run l) s) (ha : e.accept = none) : (run (l ++ [.turn e])).fault = some .terminated := by
  obtain ⟨i, x, hi, hx, hr, hxe⟩ := h
  have hrun : run (l ++ [.turn e]) = step (run l) (.turn e) := by
    unfold run; rw [List.foldl_append]; rfl
  have hlt : i < (run l).slots.length := by
    rcases Nat.lt_or_ge i (run l).slots.length with h | h
    · exact h
    · rw [List.getElem?_eq_none h] at hx; cases hx
  rw [hrun]
  unfold step
  rw [if_neg (by simp [hf])]
  dsimp only
  rw [hi]
  dsimp only
  rw [if_pos hlt]
  show (turn (run l) i e).fault = _
  unfold turn
  rw [hx]
  dsimp only
  rw [if_neg (by simp [hr]), hxe]
  dsimp only
  unfold processConnect
  rw [ha]

/-- `RequestDisconnect` from another thread terminates the process; the documentation says that it is thread-safe. -/
theorem disconnect_outside_terminates (l : List Step) (c : Nat) (hf : (run l).fault = none) :
    (run (l ++ [.outside c])).fault = some .terminated := by
  have hrun : run (l ++ [.outside c]) = step (run l) (.outside c) := by
    unfold run; rw [List.foldl_append]; rfl
  rw [hrun]
  unfold step
  rw [if_neg (by simp [hf])]

example : (run Demo.C95.connected).fault = none := by decide +kernel

end Verif.Props.C95

namespace Verif.Demo.C96
open Verif.UnixServer

/-- A session of server 7 and a server 8; 7 is stopped. -/
def stopped : List Step :=
  Demo.C95.connected ++ [.turn { msg := some 9 }, .start 8 6, .turn {}, .stop 7, .command 1 (fun _ => .done), .stopReturn 7]

end Verif.Demo.C96

namespace Verif.Props.C96
open Verif.UnixServer

/-- When `StopListening` has returned, each session of the server has been refused or ended, with its
disconnection callback, and no callback of it is called any more. -/
theorem stop_ends_sessions (l : List Step) (s c p : Nat) (a b : List Ev) (h : (run l).log = a ++ .stopped s :: b)
    (hc : .connect s c p ∈ a) : (.refused c ∈ a ∨ .disconnect c ∈ a) ∧ calls c b = [] := stop_ends h hc

example : (run Demo.C96.stopped).log = [.started 7, .connect 7 0 42, .accepted 0, .message 0 42 9, .returned 0, .started 8,
    .disconnect 0] ++ .stopped 7 :: [] := by decide +kernel

/-- After `StopListening` has returned, no client is offered to the connection callback unless the server has been
started again. -/
theorem stop_is_quiet (l : List Step) (s c p : Nat) (a b d : List Ev)
    (h : (run l).log = a ++ .stopped s :: (b ++ .connect s c p :: d)) : .started s ∈ b := by
  have := (top_run l).srv.good (a ++ .stopped s :: b) (.connect s c p) d (by rw [h]; simp)
  exact listens_after this

example : ∃ a b d, (run (Demo.C96.stopped ++ [.start 7 9, .command 0 (fun _ => .done), .command 0 (fun _ => .done), .poll (fun i => i == 2), .turn {}, .turn {},
    .turn { accept := some (11, 42) }])).log = a ++ .stopped 7 :: (b ++ .connect 7 1 42 :: d) :=
  ⟨[.started 7, .connect 7 0 42, .accepted 0, .message 0 42 9, .returned 0, .started 8, .disconnect 0], [.started 7],
    [.accepted 1], by decide +kernel⟩

/-- Before the first start no client is offered either. -/
theorem offered_only_when_started (l : List Step) (s c p : Nat) (a d : List Ev)
    (h : (run l).log = a ++ .connect s c p :: d) : .started s ∈ a := by
  obtain ⟨u, v, he, -⟩ := (top_run l).srv.good a (.connect s c p) d h
  rw [he]; simp

/-- `StopListening` returns: whenever it waits and the callback thread comes to the queue, there is a command whose
processing, whatever the disconnection callbacks do, lets it return. -/
theorem stop_returns (l : List Step) (s : Nat) (hf : (run l).fault = none) (hs : s ∈ (run l).stopping)
    (hc : (run l).cursor = none) : ∃ i, ∀ bye, ∃ new,
      (run (l ++ [.command i bye, .stopReturn s])).log = (run l).log ++ new ++ [.stopped s] := by
  obtain ⟨i, hi⟩ := UnixServer.stop_returns (top_run l) hs hc hf
  refine ⟨i, fun bye => ?_⟩
  have hrun : run (l ++ [.command i bye, .stopReturn s]) = step (step (run l) (.command i bye)) (.stopReturn s) := by
    unfold run; rw [List.foldl_append]; rfl
  rw [hrun]
  exact hi bye

example : (run (Demo.C96.stopped.take 14)).fault = none ∧ 7 ∈ (run (Demo.C96.stopped.take 14)).stopping ∧
    (run (Demo.C96.stopped.take 14)).cursor = none := ⟨by decide +kernel, by decide +kernel, by decide +kernel⟩

/-- Sessions of other servers go on: processing the cleanup of a server ends only sessions of that server, unless
disconnection callbacks end others. -/
theorem others_go_on (l : List Step) (s t c p i : Nat) (bye : Nat → Do) (hq : (run l).queue[i]? = some (.cleanup s))
    (ho : OpenSession t c p (run l).log) (hts : t ≠ s) (hb : ∀ d, Spares c (bye d)) :
    OpenSession t c p (run (l ++ [.command i bye])).log := by
  have hrun : run (l ++ [.command i bye]) = step (run l) (.command i bye) := by
    unfold run; rw [List.foldl_append]; rfl
  obtain ⟨new, hl⟩ := step_log _ (top_run l) (.command i bye)
  refine ⟨?_, ?_, fun hd => ?_⟩
  · rw [hrun, hl]; simp [ho.1]
  · rw [hrun, hl]; simp [ho.2.1]
  · rw [hrun] at hd
    rcases reason (top_run l) _ c ho.2.2 hd with ⟨d, hd⟩ | ⟨s', p', hq', hc'⟩
    · exact hd (hb d)
    · rw [hq] at hq'
      cases hq'
      obtain ⟨y, hy, rfl, rfl, -⟩ := (top_run l).live_of_open ho
      exact hts ((top_run l).inv.srv_of hy hc').symm

example : (run (Demo.C95.connected ++ [.turn { msg := some 9 }, .start 8 6, .turn {}, .stop 8])).queue[1]? = some (.cleanup 8) ∧
    OpenSession 7 0 42 (run (Demo.C95.connected ++ [.turn { msg := some 9 }, .start 8 6, .turn {}, .stop 8])).log :=
  ⟨by decide +kernel, by decide +kernel, by decide +kernel, by decide +kernel⟩

end Verif.Props.C96
