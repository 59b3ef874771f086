import Verif.Proofs.UnixServerStep
/-!
# Sessions of a server: runs
-/
namespace Verif.UnixServer

/-! ### The log -/

/-- The server has been started and not stopped since. -/
def Listens (s : Nat) (log : List Ev) : Prop := ∃ a b, log = a ++ .started s :: b ∧ .stopped s ∉ b

/-- What must have happened before an event. -/
def Just (log : List Ev) : Ev → Prop
  | .stopped s => ∀ c p, .connect s c p ∈ log → .refused c ∈ log ∨ .disconnect c ∈ log
  | .connect s _ _ => Listens s log
  | _ => True

def Good (log : List Ev) : Prop := ∀ a e b, log = a ++ e :: b → Just a e

theorem good_snoc {l : List Ev} {e : Ev} (h : Good l) (he : Just l e) : Good (l ++ [e]) := by
  intro a e' b hab
  rcases List.eq_nil_or_concat b with rfl | ⟨b', z, rfl⟩
  · obtain ⟨h1, h2⟩ := List.append_inj' hab rfl
    injection h2 with h2 _
    rw [← h1, ← h2]; exact he
  · have : l ++ [e] = (a ++ e' :: b') ++ [z] := by rw [hab]; simp
    obtain ⟨h1, -⟩ := List.append_inj' this rfl
    exact h a e' b' h1

/-- Events that need no justification and stop no server. -/
def Plain (e : Ev) : Prop := (∀ s, e ≠ .stopped s) ∧ ∀ s c p, e ≠ .connect s c p

theorem Plain.just {e : Ev} (h : Plain e) (l : List Ev) : Just l e := by
  cases e with
  | stopped s => exact absurd rfl (h.1 s)
  | connect s c p => exact absurd rfl (h.2 s c p)
  | _ => trivial

theorem good_append {l : List Ev} (new : List Ev) : Good l → (∀ e ∈ new, Plain e) → Good (l ++ new) := by
  induction new generalizing l with
  | nil => intro h _; simpa using h
  | cons e new ih =>
    intro h hp
    have := ih (good_snoc h ((hp e (by simp)).just l)) (fun e' he' => hp e' (by simp [he']))
    simpa using this

theorem Listens.append {s : Nat} {l new : List Ev} (h : Listens s l) (hn : .stopped s ∉ new) :
    Listens s (l ++ new) := by
  obtain ⟨a, b, rfl, hb⟩ := h
  refine ⟨a, b ++ new, by simp, ?_⟩
  intro hm
  rcases List.mem_append.mp hm with hm | hm
  · exact hb hm
  · exact hn hm

/-! ### The servers -/

def Lst (s : Nat) (w : World) : Prop := ∃ fd, (s, fd) ∈ w.listening

structure Srv (w : World) : Prop where
  lis : ∀ (j : Nat) (x : Slot) (s : Nat), w.slots[j]? = some x → x.ep = some (.listener s) → Lst s w ∧ s ∉ w.cleaned
  srv : ∀ y ∈ w.live, Lst y.srv w ∧ y.srv ∉ w.cleaned
  q1 : ∀ s fd, .listen s fd ∈ w.queue → Lst s w ∧ s ∉ w.cleaned
  q2 : ∀ s, .cleanup s ∈ w.queue → s ∈ w.stopping ∧ s ∉ w.cleaned
  st : ∀ s ∈ w.stopping, Lst s w
  cl : ∀ s ∈ w.cleaned, s ∈ w.stopping
  pr : ∀ s ∈ w.stopping, .cleanup s ∈ w.queue ∨ s ∈ w.cleaned
  lg : ∀ s, Lst s w → Listens s w.log
  good : Good w.log

/-- Between the steps. -/
structure Top (w : World) : Prop where
  inv : Inv w
  acc : ∀ y ∈ w.live, y.stage = .accepted
  srv : Srv w

/-- Callbacks have been called, but no server was started or stopped and no session created. -/
structure Quietly (w v : World) : Prop where
  same : v.listening = w.listening ∧ v.queue = w.queue ∧ v.stopping = w.stopping ∧ v.cleaned = w.cleaned
  log : ∃ new, v.log = w.log ++ new ∧ ∀ e ∈ new, Plain e
  old : ∀ (j : Nat) (x : Slot) (s : Nat), v.slots[j]? = some x → x.ep = some (.listener s) →
    ∃ x', w.slots[j]? = some x' ∧ x'.ep = some (.listener s)
  live : ∀ y ∈ v.live, ∃ y' ∈ w.live, y'.srv = y.srv

theorem Srv.quietly {w v : World} (h : Srv w) (q : Quietly w v) : Srv v := by
  obtain ⟨e1, e2, e3, e4⟩ := q.same
  obtain ⟨new, hl, hp⟩ := q.log
  have hL : ∀ s, Lst s v ↔ Lst s w := by intro s; simp only [Lst, e1]
  constructor
  · intro j x s hx hs
    obtain ⟨x', hx', hs'⟩ := q.old j x s hx hs
    rw [hL, e4]
    exact h.lis j x' s hx' hs'
  · intro y hy
    obtain ⟨y', hy', he⟩ := q.live y hy
    rw [hL, e4, ← he]
    exact h.srv y' hy'
  · intro s fd hq
    rw [e2] at hq
    rw [hL, e4]
    exact h.q1 s fd hq
  · intro s hq
    rw [e2] at hq
    rw [e3, e4]
    exact h.q2 s hq
  · intro s hs
    rw [e3] at hs
    rw [hL]
    exact h.st s hs
  · intro s hs
    rw [e4] at hs
    rw [e3]
    exact h.cl s hs
  · intro s hs
    rw [e3] at hs
    rw [e2, e4]
    exact h.pr s hs
  · intro s hs
    rw [hl]
    exact (h.lg s ((hL s).mp hs)).append (fun hm => (hp _ hm).1 s rfl)
  · rw [hl]
    exact good_append new h.good hp

theorem plain_disconnect (c : Nat) : Plain (.disconnect c) := ⟨fun _ => by simp, fun _ _ _ => by simp⟩

theorem Less.quietly {w v : World} (l : Less w v) : Quietly w v := by
  obtain ⟨a1, a2, a3, a4, a5, a6, a7⟩ := l.same
  refine ⟨⟨a2, a3, a4, a5⟩, ?_, ?_, fun y hy => ⟨y, l.liveOld y hy, rfl⟩⟩
  · obtain ⟨new, hl, -⟩ := l.later
    refine ⟨new, hl, ?_⟩
    intro e he
    obtain ⟨c, rfl⟩ := l.evs new hl e he
    exact plain_disconnect c
  · intro j x s hx hs
    exact ⟨x, l.old j x _ hx hs trivial, hs⟩

theorem quietly_note (w : World) {e : Ev} (h : Plain e) : Quietly w (w.note e) :=
  ⟨⟨rfl, rfl, rfl, rfl⟩, ⟨[e], rfl, by simpa using h⟩, fun _ x _ hx hs => ⟨x, hx, hs⟩, fun y hy => ⟨y, hy, rfl⟩⟩

theorem Quietly.trans {u v w : World} (h : Quietly u v) (k : Quietly v w) : Quietly u w := by
  obtain ⟨a1, a2, a3, a4⟩ := h.same
  obtain ⟨b1, b2, b3, b4⟩ := k.same
  obtain ⟨n1, l1, p1⟩ := h.log
  obtain ⟨n2, l2, p2⟩ := k.log
  refine ⟨⟨b1.trans a1, b2.trans a2, b3.trans a3, b4.trans a4⟩, ⟨n1 ++ n2, by rw [l2, l1, List.append_assoc], ?_⟩, ?_, ?_⟩
  · intro e he
    rcases List.mem_append.mp he with he | he
    · exact p1 e he
    · exact p2 e he
  · intro j x s hx hs
    obtain ⟨x', hx', hs'⟩ := k.old j x s hx hs
    exact h.old j x' s hx' hs'
  · intro y hy
    obtain ⟨y', hy', e⟩ := k.live y hy
    obtain ⟨y'', hy'', e'⟩ := h.live y' hy'
    exact ⟨y'', hy'', e'.trans e⟩

/-- What a step keeps that involves only sessions. -/
structure Fine (w v : World) : Prop where
  top : Top v
  later : Later w v

theorem Fine.of_fault {w : World} (h : Top w) (f : Option Fault) : Fine w { w with fault := f } :=
  ⟨⟨h.inv.congr rfl rfl rfl rfl rfl, h.acc,
    h.srv.quietly ⟨⟨rfl, rfl, rfl, rfl⟩, ⟨[], by simp, by simp⟩, fun _ x _ hx hs => ⟨x, hx, hs⟩, fun y hy => ⟨y, hy, rfl⟩⟩⟩,
    Later.of_slots (new := []) (by simp) rfl⟩

theorem Fine.refl {w : World} (h : Top w) : Fine w w := ⟨h, Later.refl w⟩

theorem Less.fine {w v : World} (h : Top w) (l : Less w v) : Fine w v :=
  ⟨⟨l.inv, fun y hy => h.acc y (l.liveOld y hy), h.srv.quietly l.quietly⟩, l.later⟩

theorem Fine.trans {u v w : World} (h : Fine u v) (k : Fine v w) : Fine u w := ⟨k.top, h.later.trans k.later⟩

theorem fine_doAll {w : World} (h : Top w) (d : Do) : Fine w (doAll d w) :=
  Less.fine h ((doAll_ok d w h.inv).2.less (doAll_ok d w h.inv).1)

theorem fine_drop {w : World} (h : Top w) (c s : Nat) (bye : Do) : Fine w (dropSession w c s bye) := by
  unfold dropSession
  split
  · exact Fine.of_fault h _
  · split
    · exact Fine.refl h
    · rename_i i hi
      obtain ⟨x, hx, hxe⟩ := slotOf_some hi
      exact Less.fine h (unpollWith_ok h.inv hx hxe bye).1

theorem peerOf_some {w : World} {fd p : Nat} (h : peerOf w fd = some p) : (fd, p) ∈ w.fds := by
  rw [peerOf, Option.map_eq_some_iff] at h
  obtain ⟨a, ha, rfl⟩ := h
  have h1 := List.mem_of_find?_eq_some ha
  have h2 : a.1 = fd := by simpa using List.find?_some ha
  rw [← h2]; exact h1

theorem peerOf_mem {w : World} (h : Inv w) {fd p : Nat} (hm : (fd, p) ∈ w.fds) : peerOf w fd = some p := by
  cases hp : peerOf w fd with
  | none =>
    rw [peerOf, Option.map_eq_none_iff, List.find?_eq_none] at hp
    exact absurd (by simp) (hp _ hm)
  | some q =>
    have := h.fdsUniq _ (peerOf_some hp) _ hm rfl
    injection this with _ this
    rw [this]

theorem fine_message {w : World} (h : Top w) {y : Conn} (hy : y ∈ w.live) {p : Nat} (hp : (y.fd, p) ∈ w.fds) (m : Nat) :
    Fine w (w.note (.message y.id p m)) :=
  ⟨⟨h.inv.message hy (h.acc y hy) hp m, h.acc, h.srv.quietly (quietly_note w ⟨fun _ => by simp, fun _ _ _ => by simp⟩)⟩,
    Later.of_slots (new := [_]) rfl rfl⟩

theorem fine_returned {w : World} (h : Top w) (c : Nat) : Fine w (w.note (.returned c)) :=
  ⟨⟨h.inv.note_quiet (fun _ => rfl), h.acc, h.srv.quietly (quietly_note w ⟨fun _ => by simp, fun _ _ _ => by simp⟩)⟩,
    Later.of_slots (new := [_]) rfl rfl⟩

theorem fine_input {w : World} (h : Top w) (c s : Nat) (e : In) : Fine w (processInput w c s e) := by
  unfold processInput
  split
  · exact Fine.of_fault h _
  · rename_i y hy
    obtain ⟨hyl, hyc⟩ := conn?_some hy
    split
    · rename_i m p _ hp
      dsimp only
      have f1 := fine_message h hyl (peerOf_some hp) m
      rw [hyc] at f1
      have f2 := fine_doAll f1.top e.does
      have f3 := fine_returned f2.top c
      split
      · exact f1.trans (f2.trans f3)
      · exact f1.trans (f2.trans (f3.trans (fine_drop f3.top c s e.bye)))
    · exact fine_drop h c s e.bye

theorem fine_connect {w : World} (h : Top w) {s : Nat} (hs : Lst s w ∧ s ∉ w.cleaned) (e : In) :
    Fine w (processConnect w s e) := by
  unfold processConnect
  split
  · exact Fine.of_fault h _
  · rename_i fd peer _
    split
    · exact Fine.refl h
    · rename_i hany
      have hfd : ∀ a ∈ w.fds, a.1 ≠ fd := by
        intro a ha he
        apply hany
        rw [List.any_eq_true]
        exact ⟨a, ha, by simp [he]⟩
      split
      · exact Fine.refl h
      · dsimp only
        have hI := h.inv.connect (s := s) (peer := peer) hfd
        have hS : Srv (World.note { w with
            next := w.next + 1
            fds := w.fds ++ [(fd, peer)]
            live := w.live ++ [{ id := w.next, srv := s, fd, stage := .provisional }] } (.connect s w.next peer)) := by
          constructor
          · exact h.srv.lis
          · intro y hy
            rcases List.mem_append.mp (show y ∈ w.live ++ [_] from hy) with hy | hy
            · exact h.srv.srv y hy
            · rw [List.mem_singleton.mp hy]; exact hs
          · exact h.srv.q1
          · exact h.srv.q2
          · exact h.srv.st
          · exact h.srv.cl
          · exact h.srv.pr
          · intro t ht
            exact (h.srv.lg t ht).append (by simp)
          · exact good_snoc h.srv.good (h.srv.lg s hs.1)
        have hA : ∀ y ∈ w.live ++ [{ id := w.next, srv := s, fd, stage := .provisional }],
            y.stage = .accepted ∨ y.id = w.next := by
          intro y hy
          rcases List.mem_append.mp hy with hy | hy
          · exact Or.inl (h.acc y hy)
          · rw [List.mem_singleton.mp hy]; exact Or.inr rfl
        have hL : Later w (World.note { w with
            next := w.next + 1
            fds := w.fds ++ [(fd, peer)]
            live := w.live ++ [{ id := w.next, srv := s, fd, stage := .provisional }] } (.connect s w.next peer)) :=
          Later.of_slots (new := [_]) rfl rfl
        have hmem : ({ id := w.next, srv := s, fd, stage := .provisional } : Conn) ∈
            (World.note { w with
              next := w.next + 1
              fds := w.fds ++ [(fd, peer)]
              live := w.live ++ [{ id := w.next, srv := s, fd, stage := .provisional }] } (.connect s w.next peer)).live := by
          show _ ∈ w.live ++ [_]
          simp
        generalize hu : (World.note { w with
              next := w.next + 1
              fds := w.fds ++ [(fd, peer)]
              live := w.live ++ [{ id := w.next, srv := s, fd, stage := .provisional }] } (.connect s w.next peer)) = u at hI hS hL hmem
        have hA : ∀ y ∈ u.live, y.stage = .accepted ∨ y.id = w.next := by rw [← hu]; exact hA
        obtain ⟨hI2, g2⟩ := doAll_ok e.does u hI
        have l2 := g2.less hI2
        have hS2 := hS.quietly l2.quietly
        have hm2 := g2.liveKeep _ hmem (by simp)
        have hA2 : ∀ y ∈ (doAll e.does u).live, y.stage = .accepted ∨ y.id = w.next := fun y hy => hA y (g2.liveOld y hy)
        have hL2 := hL.trans g2.later
        generalize doAll e.does u = v at hI2 hS2 hm2 hA2 hL2 g2 l2
        split
        · have hI3 := hI2.accept hm2 rfl
          have hr := register_slots (setStage (v.note (.accepted w.next)) w.next .accepted) (.conn w.next s) fd
          have hsame := register_same (setStage (v.note (.accepted w.next)) w.next .accepted) (.conn w.next s) fd
          have hlr := later_register (w := setStage (v.note (.accepted w.next)) w.next .accepted)
            (fun i x hx hn => ((hI2.slotFd i x hx).1 hn).1) (.conn w.next s) fd
          have hl1 : Later v (setStage (v.note (.accepted w.next)) w.next .accepted) :=
            Later.of_slots (new := [_]) rfl rfl
          have hlive : ∀ y ∈ (setStage (v.note (.accepted w.next)) w.next .accepted).live,
              y.stage = .accepted ∧ ∃ y' ∈ v.live, y'.srv = y.srv := by
            intro y hy
            obtain ⟨y0, h0, rfl⟩ := List.mem_map.mp (show y ∈ v.live.map _ from hy)
            by_cases hid : y0.id = w.next
            · rw [if_pos (by simp [hid])]
              exact ⟨rfl, y0, h0, rfl⟩
            · rw [if_neg (by simp [hid])]
              exact ⟨(hA2 y0 h0).resolve_right hid, y0, h0, rfl⟩
          obtain ⟨i, hi, -, hj, -⟩ := hr
          obtain ⟨b1, b2, b3, b4, b5, b6, b7, b8, -⟩ := hsame
          refine ⟨⟨hI3, ?_, hS2.quietly ⟨⟨b6, b5, b7, b8⟩, ⟨[.accepted w.next], b4, ?_⟩, ?_, ?_⟩⟩, hL2.trans (hl1.trans hlr)⟩
          · intro y hy
            rw [b1] at hy
            exact (hlive y hy).1
          · intro e he
            rw [List.mem_singleton.mp he]
            exact ⟨fun _ => by simp, fun _ _ _ => by simp⟩
          · intro j x t hx ht
            by_cases hji : j = i
            · rw [hji, hi] at hx; cases hx; cases ht
            · rw [hj j hji] at hx
              exact ⟨x, hx, ht⟩
          · intro y hy
            rw [b1] at hy
            exact (hlive y hy).2
        · have hov : Over w.next (v.note (.refused w.next)).log := by
            obtain ⟨p, -, hn⟩ := hI2.now _ hm2
            have hn : calls w.next v.log = [.connect s w.next p] := hn
            refine ⟨s, p, Or.inl ?_⟩
            show calls w.next (v.log ++ [.refused w.next]) = _
            rw [calls_append, hn, calls_one_yes (by simp [callOf])]
            rfl
          have hI3 := hI2.destroy (w := v.note (.refused w.next)) hm2 rfl (by simp) rfl rfl rfl rfl
            (fun d hd => by
              show calls d (v.log ++ [.refused w.next]) = _
              rw [calls_append, calls_one_no (by simp [callOf, Ne.symm hd]), List.append_nil]) hov
          obtain ⟨d1, d2, d3, d4, d5, d6, d7, d8, d9⟩ := destroy_same (v.note (.refused w.next)) w.next
          refine ⟨⟨hI3, ?_, hS2.quietly ⟨⟨d4, d5, d6, d7⟩, ⟨[.refused w.next], d3, ?_⟩, ?_, ?_⟩⟩, hL2.trans ?_⟩
          · intro y hy
            obtain ⟨h1, h2⟩ := (destroy_live y).mp hy
            exact (hA2 y h1).resolve_right h2
          · intro e he
            rw [List.mem_singleton.mp he]
            exact ⟨fun _ => by simp, fun _ _ _ => by simp⟩
          · intro j x t hx ht
            rw [d1] at hx
            exact ⟨x, hx, ht⟩
          · intro y hy
            exact ⟨y, ((destroy_live y).mp hy).1, rfl⟩
          · exact Later.of_slots (new := [.refused w.next]) d3 d1

theorem fine_turn {w : World} (h : Top w) (i : Nat) (e : In) : Fine w (turn w i e) := by
  unfold turn
  split
  · exact Fine.refl h
  · rename_i x hx
    split
    · exact Fine.refl h
    · split
      · exact Fine.of_fault h _
      · exact Fine.refl h
      · rename_i s hs
        exact fine_connect h (h.srv.lis i x s hx hs) e
      · exact fine_input h _ _ e
      · exact fine_doAll h e.does

/-! ### Steps -/

theorem mem_eraseIdx {α : Type} {l : List α} {i : Nat} {x : α} (h : x ∈ l.eraseIdx i) : x ∈ l :=
  (List.eraseIdx_sublist l i).subset h

theorem mem_of_eraseIdx {α : Type} {l : List α} {i : Nat} {x y : α} (hy : l[i]? = some y) (hx : x ∈ l) :
    x = y ∨ x ∈ l.eraseIdx i := by
  rw [List.mem_eraseIdx_iff_getElem?]
  obtain ⟨j, hj⟩ := List.getElem?_of_mem hx
  by_cases hij : j = i
  · rw [hij, hy] at hj; injection hj with hj; exact Or.inl hj.symm
  · exact Or.inr ⟨j, hij, hj⟩

theorem fine_listen {w : World} (h : Top w) {i s fd : Nat} (hq : w.queue[i]? = some (.listen s fd)) :
    Fine w (register { w with queue := w.queue.eraseIdx i } (.listener s) fd) := by
  have hI : Inv { w with queue := w.queue.eraseIdx i } := h.inv.congr rfl rfl rfl rfl rfl
  have hI2 := hI.register_other (e := .listener s) (fd := fd) (by intro c s; simp)
  have hl := later_register (w := { w with queue := w.queue.eraseIdx i })
    (fun i x hx hn => ((h.inv.slotFd i x hx).1 hn).1) (.listener s) fd
  obtain ⟨k, hk, -, hj, -⟩ := register_slots { w with queue := w.queue.eraseIdx i } (.listener s) fd
  obtain ⟨b1, b2, b3, b4, b5, b6, b7, b8, -⟩ := register_same { w with queue := w.queue.eraseIdx i } (.listener s) fd
  generalize register { w with queue := w.queue.eraseIdx i } (.listener s) fd = v at *
  have b1 : v.live = w.live := b1
  have b4 : v.log = w.log := b4
  have b5 : v.queue = w.queue.eraseIdx i := b5
  have b6 : v.listening = w.listening := b6
  have b7 : v.stopping = w.stopping := b7
  have b8 : v.cleaned = w.cleaned := b8
  have hL : ∀ t, Lst t v ↔ Lst t w := by intro t; simp only [Lst, b6]
  have hs := h.srv.q1 s fd (List.mem_of_getElem? hq)
  refine ⟨⟨hI2, by rw [b1]; exact h.acc, ?_⟩, ?_⟩
  · constructor
    · intro j x t hx ht
      rw [hL, b8]
      by_cases hjk : j = k
      · rw [hjk, hk] at hx; cases hx; cases ht
        exact hs
      · rw [hj j hjk] at hx
        exact h.srv.lis j x t hx ht
    · intro y hy
      rw [b1] at hy
      rw [hL, b8]
      exact h.srv.srv y hy
    · intro t f ht
      rw [b5] at ht
      rw [hL, b8]
      exact h.srv.q1 t f (mem_eraseIdx ht)
    · intro t ht
      rw [b5] at ht
      rw [b7, b8]
      exact h.srv.q2 t (mem_eraseIdx ht)
    · intro t ht
      rw [b7] at ht
      rw [hL]
      exact h.srv.st t ht
    · intro t ht
      rw [b8] at ht
      rw [b7]
      exact h.srv.cl t ht
    · intro t ht
      rw [b7] at ht
      rw [b5, b8]
      rcases h.srv.pr t ht with hp | hp
      · rcases mem_of_eraseIdx hq hp with e | e
        · cases e
        · exact Or.inl e
      · exact Or.inr hp
    · intro t ht
      rw [b4]
      exact h.srv.lg t ((hL t).mp ht)
    · rw [b4]; exact h.srv.good
  · obtain ⟨new, l1, c1⟩ := hl
    exact ⟨new, by rw [l1], c1⟩

/-- After the cleanup for a server nothing of it is left. -/
theorem cleanup_ok {w : World} (h : Top w) {i s : Nat} (hq : w.queue[i]? = some (.cleanup s)) (bye : Nat → Do) :
    Fine w (cleanup { w with queue := w.queue.eraseIdx i } s bye) := by
  have hI : Inv { w with queue := w.queue.eraseIdx i } := h.inv.congr rfl rfl rfl rfl rfl
  unfold cleanup
  dsimp only
  obtain ⟨l, hgone⟩ := cleanupFrom_ok w.slots.length { w with queue := w.queue.eraseIdx i } s 0 w.slots.length bye hI
    (fun k x hk => absurd hk (Nat.not_lt_zero k))
    (fun k x hx _ => by
      rcases Nat.lt_or_ge k w.slots.length with hk | hk
      · exact hk
      · have hx : w.slots[k]? = some x := hx
        rw [List.getElem?_eq_none hk] at hx; cases hx)
    (by omega)
  generalize cleanupFrom w.slots.length { w with queue := w.queue.eraseIdx i } s 0 bye = v at l hgone
  obtain ⟨a1, a2, a3, a4, a5, a6, a7⟩ := l.same
  have a2 : v.listening = w.listening := a2
  have a3 : v.queue = w.queue.eraseIdx i := a3
  have a4 : v.stopping = w.stopping := a4
  have a5 : v.cleaned = w.cleaned := a5
  obtain ⟨new, hl, hc⟩ := l.later
  have hl : v.log = w.log ++ new := hl
  have hplain : ∀ e ∈ new, Plain e := by
    intro e he
    obtain ⟨c, rfl⟩ := l.evs new hl e he
    exact plain_disconnect c
  have hlo : ∀ y ∈ v.live, y ∈ w.live := l.liveOld
  have hacc : ∀ y ∈ v.live, y.stage = .accepted := fun y hy => h.acc y (hlo y hy)
  have hnos : ∀ y ∈ v.live, y.srv ≠ s := by
    intro y hy he
    obtain ⟨j, x, hx, hxe⟩ := l.inv.connSlot y hy (hacc y hy)
    have := hgone j x hx
    rw [hxe, he] at this
    simp [ownedBy] at this
  have hs := h.srv.q2 s (List.mem_of_getElem? hq)
  refine ⟨⟨l.inv.congr rfl rfl rfl rfl rfl, hacc, ?_⟩, ⟨new, hl, hc⟩⟩
  have hmq : ∀ q, q ∈ v.queue.filter (!·.of s) → q ∈ w.queue ∧ q.of s = false := by
    intro q hq
    rw [List.mem_filter, a3] at hq
    exact ⟨mem_eraseIdx hq.1, by simpa using hq.2⟩
  have hL : ∀ t, (∃ fd, (t, fd) ∈ v.listening) ↔ Lst t w := by intro t; simp only [Lst, a2]
  constructor <;> dsimp only
  · intro j x t hx ht
    have hw := l.old j x _ hx ht trivial
    obtain ⟨h1, h2⟩ := h.srv.lis j x t hw ht
    refine ⟨(hL t).mpr h1, ?_⟩
    rw [a5]
    intro hm
    rcases List.mem_cons.mp hm with hm | hm
    · have := hgone j x hx
      rw [ht, hm] at this
      simp [ownedBy] at this
    · exact h2 hm
  · intro y hy
    obtain ⟨h1, h2⟩ := h.srv.srv y (hlo y hy)
    refine ⟨(hL _).mpr h1, ?_⟩
    rw [a5]
    intro hm
    rcases List.mem_cons.mp hm with hm | hm
    · exact hnos y hy hm
    · exact h2 hm
  · intro t f ht
    obtain ⟨h1, h2⟩ := hmq _ ht
    obtain ⟨h3, h4⟩ := h.srv.q1 t f h1
    refine ⟨(hL t).mpr h3, ?_⟩
    rw [a5]
    intro hm
    rcases List.mem_cons.mp hm with hm | hm
    · simp [Cmd.of, hm] at h2
    · exact h4 hm
  · intro t ht
    obtain ⟨h1, h2⟩ := hmq _ ht
    obtain ⟨h3, h4⟩ := h.srv.q2 t h1
    rw [a4, a5]
    refine ⟨h3, ?_⟩
    intro hm
    rcases List.mem_cons.mp hm with hm | hm
    · simp [Cmd.of, hm] at h2
    · exact h4 hm
  · intro t ht
    rw [a4] at ht
    exact (hL t).mpr (h.srv.st t ht)
  · intro t ht
    rw [a5] at ht
    rw [a4]
    rcases List.mem_cons.mp ht with ht | ht
    · rw [ht]; exact hs.1
    · exact h.srv.cl t ht
  · intro t ht
    rw [a4] at ht
    rw [a5]
    by_cases hts : t = s
    · right; simp [hts]
    · rcases h.srv.pr t ht with hp | hp
      · rcases mem_of_eraseIdx hq hp with e | e
        · injection e with e; exact absurd e hts
        · left
          rw [List.mem_filter, a3]
          exact ⟨e, by simp [Cmd.of, hts]⟩
      · right; simp [hp]
  · intro t ht
    rw [hl]
    exact (h.srv.lg t ((hL t).mp ht)).append (fun hm => (hplain _ hm).1 t rfl)
  · rw [hl]
    exact good_append new h.srv.good hplain

theorem poll_get (w : World) (f : Nat → Bool) (i : Nat) (y : Slot)
    (h : (w.slots.mapIdx fun i x => { x with ready := x.fd.isSome && f i })[i]? = some y) :
    ∃ x, w.slots[i]? = some x ∧ y = { x with ready := x.fd.isSome && f i } := by
  rw [List.getElem?_mapIdx, Option.map_eq_some_iff] at h
  obtain ⟨x, hx, rfl⟩ := h
  exact ⟨x, hx, rfl⟩

theorem top_poll {w : World} (h : Top w) (f : Nat → Bool) (c : Option Nat) :
    Top { w with cursor := c, slots := w.slots.mapIdx fun i x => { x with ready := x.fd.isSome && f i } } := by
  refine ⟨h.inv.slots rfl rfl rfl rfl ?_ ?_ ?_, h.acc, h.srv.quietly ⟨⟨rfl, rfl, rfl, rfl⟩, ⟨[], by simp, by simp⟩, ?_,
    fun y hy => ⟨y, hy, rfl⟩⟩⟩
  · intro i y hy
    obtain ⟨x, hx, rfl⟩ := poll_get w f i y hy
    obtain ⟨h1, h2⟩ := h.inv.slotFd i x hx
    exact ⟨fun hn => ⟨(h1 hn).1, by simp [show x.fd = none from hn]⟩, h2⟩
  · intro i y c s hy hc
    obtain ⟨x, hx, rfl⟩ := poll_get w f i y hy
    exact ⟨x, hx, rfl, rfl⟩
  · intro i x c s hx hc
    refine ⟨{ x with ready := x.fd.isSome && f i }, ?_, rfl⟩
    show (w.slots.mapIdx _)[i]? = _
    rw [List.getElem?_mapIdx, hx]; rfl
  · intro j y s hy hs
    obtain ⟨x, hx, rfl⟩ := poll_get w f j y hy
    exact ⟨x, hx, hs⟩

theorem top_start {w : World} (h : Top w) {s fd : Nat} (hs : ¬ Lst s w) :
    Top (World.note { w with listening := (s, fd) :: w.listening, queue := w.queue ++ [.listen s fd] } (.started s)) := by
  have hL : ∀ t, Lst t (World.note { w with listening := (s, fd) :: w.listening, queue := w.queue ++ [.listen s fd] } (.started s)) ↔
      t = s ∨ Lst t w := by
    intro t
    show (∃ f, (t, f) ∈ (s, fd) :: w.listening) ↔ _
    constructor
    · rintro ⟨f, hf⟩
      rcases List.mem_cons.mp hf with hf | hf
      · injection hf with hf _; exact Or.inl hf
      · exact Or.inr ⟨f, hf⟩
    · rintro (rfl | ⟨f, hf⟩)
      · exact ⟨fd, by simp⟩
      · exact ⟨f, by simp [hf]⟩
  refine ⟨?_, h.acc, ?_⟩
  · exact (h.inv.note_quiet (e := .started s) (fun _ => rfl)).congr rfl rfl rfl rfl rfl
  constructor
  · intro j x t hx ht
    obtain ⟨h1, h2⟩ := h.srv.lis j x t hx ht
    exact ⟨(hL t).mpr (Or.inr h1), h2⟩
  · intro y hy
    obtain ⟨h1, h2⟩ := h.srv.srv y hy
    exact ⟨(hL _).mpr (Or.inr h1), h2⟩
  · intro t f ht
    rcases List.mem_append.mp (show _ ∈ w.queue ++ [_] from ht) with ht | ht
    · obtain ⟨h1, h2⟩ := h.srv.q1 t f ht
      exact ⟨(hL t).mpr (Or.inr h1), h2⟩
    · have := List.mem_singleton.mp ht
      injection this with e _
      subst e
      exact ⟨(hL _).mpr (Or.inl rfl), fun hm => hs (h.srv.st _ (h.srv.cl _ hm))⟩
  · intro t ht
    rcases List.mem_append.mp (show _ ∈ w.queue ++ [_] from ht) with ht | ht
    · exact h.srv.q2 t ht
    · have := List.mem_singleton.mp ht
      cases this
  · intro t ht
    exact (hL t).mpr (Or.inr (h.srv.st t ht))
  · exact h.srv.cl
  · intro t ht
    rcases h.srv.pr t ht with hp | hp
    · left
      show _ ∈ w.queue ++ [_]
      simp [hp]
    · exact Or.inr hp
  · intro t ht
    show Listens t (w.log ++ [.started s])
    by_cases hts : t = s
    · subst hts
      exact ⟨w.log, [], rfl, by simp⟩
    · exact (h.srv.lg t (((hL t).mp ht).resolve_left hts)).append (by simp)
  · exact good_snoc h.srv.good trivial

theorem top_stop {w : World} (h : Top w) {s : Nat} (hs : Lst s w) (hn : s ∉ w.stopping) :
    Top { w with stopping := s :: w.stopping, queue := w.queue ++ [.cleanup s] } := by
  refine ⟨h.inv.congr rfl rfl rfl rfl rfl, h.acc, ?_⟩
  constructor
  · exact h.srv.lis
  · exact h.srv.srv
  · intro t f ht
    rcases List.mem_append.mp (show _ ∈ w.queue ++ [_] from ht) with ht | ht
    · exact h.srv.q1 t f ht
    · have := List.mem_singleton.mp ht
      cases this
  · intro t ht
    rcases List.mem_append.mp (show _ ∈ w.queue ++ [_] from ht) with ht | ht
    · obtain ⟨h1, h2⟩ := h.srv.q2 t ht
      exact ⟨by simp [h1], h2⟩
    · have := List.mem_singleton.mp ht
      injection this with e
      subst e
      exact ⟨by simp, fun hm => hn (h.srv.cl _ hm)⟩
  · intro t ht
    rcases List.mem_cons.mp (show t ∈ s :: w.stopping from ht) with rfl | ht
    · exact hs
    · exact h.srv.st t ht
  · intro t ht
    show t ∈ s :: w.stopping
    simp [h.srv.cl t ht]
  · intro t ht
    rcases List.mem_cons.mp (show t ∈ s :: w.stopping from ht) with rfl | ht
    · left
      show _ ∈ w.queue ++ [_]
      simp
    · rcases h.srv.pr t ht with hp | hp
      · left
        show _ ∈ w.queue ++ [_]
        simp [hp]
      · exact Or.inr hp
  · exact h.srv.lg
  · exact h.srv.good

theorem mem_calls {c : Nat} {e : Ev} {log : List Ev} : e ∈ calls c log ↔ e ∈ log ∧ callOf c e = true := by
  rw [calls, List.mem_filter]

theorem Over.ended {c : Nat} {log : List Ev} (h : Over c log) : .refused c ∈ log ∨ .disconnect c ∈ log := by
  obtain ⟨s, p, h | ⟨msgs, -, h⟩⟩ := h
  · left
    exact (mem_calls.mp (show _ ∈ calls c log by rw [h]; simp)).1
  · right
    exact (mem_calls.mp (show .disconnect c ∈ calls c log by rw [h]; simp)).1

/-- The server of a session is that of its connection callback. -/
theorem Inv.srv_of {w : World} (h : Inv w) {y : Conn} (hy : y ∈ w.live) {s p : Nat} (hm : .connect s y.id p ∈ w.log) :
    s = y.srv := by
  have hc : .connect s y.id p ∈ calls y.id w.log := mem_calls.mpr ⟨hm, by simp [callOf]⟩
  obtain ⟨q, -, hn⟩ := h.now y hy
  have key : ∀ msgs, Messages y.id q msgs → .connect s y.id p ∉ msgs := by
    intro msgs hms hmm
    obtain ⟨m, e⟩ := hms _ hmm
    cases e
  cases hs : y.stage <;> rw [hs] at hn
  · have hn : calls y.id w.log = [.connect y.srv y.id q] := hn
    rw [hn] at hc
    have := List.mem_singleton.mp hc
    injection this
  · obtain ⟨msgs, hms, hcalls⟩ := hn
    rw [hcalls] at hc
    rcases List.mem_cons.mp hc with e | hc
    · injection e
    · rcases List.mem_cons.mp hc with e | hc
      · cases e
      · exact absurd hc (key msgs hms)
  · obtain ⟨msgs, hms, hcalls⟩ := hn
    rw [hcalls] at hc
    rcases List.mem_cons.mp hc with e | hc
    · injection e
    · rcases List.mem_cons.mp hc with e | hc
      · cases e
      · rcases List.mem_append.mp hc with hc | hc
        · exact absurd hc (key msgs hms)
        · have := List.mem_singleton.mp hc
          cases this

theorem top_stopReturn {w : World} (h : Top w) {s : Nat} (hs : s ∈ w.cleaned) :
    Top (World.note { w with
        cleaned := w.cleaned.filter (· != s)
        stopping := w.stopping.filter (· != s)
        listening := w.listening.filter (·.1 != s) } (.stopped s)) := by
  have hL : ∀ t, Lst t (World.note { w with
        cleaned := w.cleaned.filter (· != s)
        stopping := w.stopping.filter (· != s)
        listening := w.listening.filter (·.1 != s) } (.stopped s)) ↔ t ≠ s ∧ Lst t w := by
    intro t
    show (∃ f, (t, f) ∈ w.listening.filter (·.1 != s)) ↔ _
    simp only [List.mem_filter, Lst]
    constructor
    · rintro ⟨f, h1, h2⟩; exact ⟨by simpa using h2, f, h1⟩
    · rintro ⟨h1, f, h2⟩; exact ⟨f, h2, by simpa using h1⟩
  have hcl : ∀ t, t ∉ w.cleaned → t ≠ s ∧ t ∉ w.cleaned.filter (· != s) := by
    intro t ht
    exact ⟨fun e => ht (e ▸ hs), fun hm => ht (List.mem_filter.mp hm).1⟩
  refine ⟨(h.inv.note_quiet (e := .stopped s) (fun _ => rfl)).congr rfl rfl rfl rfl rfl, h.acc, ?_⟩
  constructor
  · intro j x t hx ht
    obtain ⟨h1, h2⟩ := h.srv.lis j x t hx ht
    exact ⟨(hL t).mpr ⟨(hcl t h2).1, h1⟩, (hcl t h2).2⟩
  · intro y hy
    obtain ⟨h1, h2⟩ := h.srv.srv y hy
    exact ⟨(hL _).mpr ⟨(hcl _ h2).1, h1⟩, (hcl _ h2).2⟩
  · intro t f ht
    obtain ⟨h1, h2⟩ := h.srv.q1 t f ht
    exact ⟨(hL _).mpr ⟨(hcl _ h2).1, h1⟩, (hcl _ h2).2⟩
  · intro t ht
    obtain ⟨h1, h2⟩ := h.srv.q2 t ht
    exact ⟨List.mem_filter.mpr ⟨h1, by simpa using (hcl _ h2).1⟩, (hcl _ h2).2⟩
  · intro t ht
    obtain ⟨h1, h2⟩ := List.mem_filter.mp (show t ∈ w.stopping.filter (· != s) from ht)
    exact (hL t).mpr ⟨by simpa using h2, h.srv.st t h1⟩
  · intro t ht
    obtain ⟨h1, h2⟩ := List.mem_filter.mp (show t ∈ w.cleaned.filter (· != s) from ht)
    exact List.mem_filter.mpr ⟨h.srv.cl t h1, h2⟩
  · intro t ht
    obtain ⟨h1, h2⟩ := List.mem_filter.mp (show t ∈ w.stopping.filter (· != s) from ht)
    rcases h.srv.pr t h1 with hp | hp
    · exact Or.inl hp
    · exact Or.inr (List.mem_filter.mpr ⟨hp, h2⟩)
  · intro t ht
    obtain ⟨h1, h2⟩ := (hL t).mp ht
    exact (h.srv.lg t h2).append (by simpa using fun e => h1 e)
  · refine good_snoc h.srv.good ?_
    intro c p hc
    have hlt : c < w.next := by
      rcases Nat.lt_or_ge c w.next with hlt | hge
      · exact hlt
      · have : .connect s c p ∈ calls c w.log := mem_calls.mpr ⟨hc, by simp [callOf]⟩
        rw [h.inv.fresh c hge] at this
        cases this
    refine (h.inv.gone c hlt ?_).ended
    intro y hy hyc
    subst hyc
    have := h.inv.srv_of hy hc
    exact (h.srv.srv y hy).2 (this ▸ hs)

theorem Fine.cursor {w v : World} (f : Fine w v) (c : Option Nat) : Fine w { v with cursor := c } := by
  refine ⟨⟨f.top.inv.congr rfl rfl rfl rfl rfl, f.top.acc, ?_⟩, f.later⟩
  exact f.top.srv.quietly ⟨⟨rfl, rfl, rfl, rfl⟩, ⟨[], by simp, by simp⟩, fun _ x _ hx hs => ⟨x, hx, hs⟩, fun y hy => ⟨y, hy, rfl⟩⟩

theorem not_any_lst {w : World} {s : Nat} (h : ¬ w.listening.any (·.1 == s) = true) : ¬ Lst s w := by
  rintro ⟨fd, hf⟩
  apply h
  rw [List.any_eq_true]
  exact ⟨_, hf, by simp⟩

theorem any_lst {w : World} {s : Nat} (h : w.listening.any (·.1 == s) = true) : Lst s w := by
  rw [List.any_eq_true] at h
  obtain ⟨⟨t, fd⟩, hf, ht⟩ := h
  have : t = s := by simpa using ht
  exact ⟨fd, this ▸ hf⟩

theorem top_step {w : World} (h : Top w) (x : Step) : Top (step w x) := by
  unfold step
  split
  · exact h
  · cases x with
    | start s fd =>
      dsimp only
      split
      · exact h
      · rename_i hs
        exact top_start h (not_any_lst hs)
    | stop s =>
      dsimp only
      split
      · rename_i hs
        rw [Bool.and_eq_true] at hs
        exact top_stop h (any_lst hs.1) (by simpa using hs.2)
      · exact h
    | stopReturn s =>
      dsimp only
      split
      · rename_i hs
        exact top_stopReturn h (by simpa using hs)
      · exact h
    | command i bye =>
      dsimp only
      split
      · exact h
      · split
        · exact h
        · rename_i s fd hq
          exact (fine_listen h hq).top
        · rename_i s hq
          exact (cleanup_ok h hq bye).top
    | poll f =>
      dsimp only
      split
      · exact h
      · exact top_poll h f _
    | turn e =>
      dsimp only
      split
      · exact h
      · split
        · exact ((fine_turn h _ e).cursor _).top
        · exact ((Fine.refl h).cursor none).top
    | outside c => exact (Fine.of_fault h _).top

theorem top_init : Top {} := by
  refine ⟨inv_init, by simp, ?_⟩
  constructor
  case lis =>
    intro j x s hx hs
    match j, hx with
    | 0, hx => cases hx; cases hs
  case lg => rintro s ⟨fd, hf⟩; cases hf
  case good => intro a e b h; simp at h
  all_goals simp

theorem top_foldl (l : List Step) : ∀ w, Top w → Top (l.foldl step w) := by
  induction l with
  | nil => intro w h; exact h
  | cons x l ih => intro w h; exact ih _ (top_step h x)

theorem top_run (l : List Step) : Top (run l) := top_foldl l _ top_init

end Verif.UnixServer
