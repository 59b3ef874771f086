import Verif.Proofs.UnixServerServe
/-!
# Sessions of a server: requests are listened to, and servers stop
-/
namespace Verif.UnixServer

/-- Listeners other than `s` keep their slots. -/
def KeepL (s : Option Nat) (w v : World) : Prop := ∀ (j : Nat) (x : Slot) (t : Nat),
  w.slots[j]? = some x → x.ep = some (.listener t) → s ≠ some t → v.slots[j]? = some x

theorem KeepL.of_slots {s : Option Nat} {w v : World} (h : v.slots = w.slots) : KeepL s w v := by
  intro j x t hx _ _; rw [h]; exact hx

theorem KeepL.trans {s : Option Nat} {u v w : World} (h : KeepL s u v) (k : KeepL s v w) : KeepL s u w :=
  fun j x t hx ht hs => k j x t (h j x t hx ht hs) ht hs

theorem Grow.keepL {w v : World} (g : Grow w v) (s : Option Nat) : KeepL s w v :=
  fun j x t hx ht _ => g.keep j x _ hx ht trivial (fun _ _ => by simp)

theorem keepL_doAll {w : World} (h : Inv w) (d : Do) (s : Option Nat) : KeepL s w (doAll d w) :=
  (doAll_ok d w h).2.keepL s

theorem keepL_register {w : World} (h : ∀ (i : Nat) (x : Slot), w.slots[i]? = some x → x.fd = none → x.ep = none)
    (e : Ep) (fd : Nat) (s : Option Nat) : KeepL s w (register w e fd) := by
  intro j x t hx ht _
  obtain ⟨i, -, hfree, hj, -⟩ := register_slots w e fd
  by_cases hji : j = i
  · subst hji
    rw [h j x hx (hfree x hx)] at ht; cases ht
  · rw [hj j hji]; exact hx

theorem keepL_unpoll {w : World} {i : Nat} {x : Slot} {e : Ep} (hx : w.slots[i]? = some x) (he : x.ep = some e)
    {s : Option Nat} (hs : ∀ t, e = .listener t → s = some t) : KeepL s w (unpoll w i) := by
  intro j y t hy ht hst
  by_cases hij : i = j
  · subst hij
    rw [hx] at hy; cases hy
    rw [he] at ht; injection ht with ht
    exact absurd (hs t ht) hst
  · rw [unpoll_ne hij]; exact hy

theorem keepL_unpollWith {w : World} (h : Inv w) {i : Nat} {x : Slot} {e : Ep} (hx : w.slots[i]? = some x)
    (he : x.ep = some e) {s : Option Nat} (hs : ∀ t, e = .listener t → s = some t) (bye : Do) :
    KeepL s w (unpollWith w i e bye) := by
  have h0 := keepL_unpoll hx he hs
  cases e with
  | command => exact h0
  | listener t => exact h0
  | other k => exact h0.trans (keepL_doAll (h.unpoll_other hx (by intro c s; rw [he]; simp)) bye s)
  | conn c t =>
    refine h0.trans ((KeepL.of_slots rfl).trans ((keepL_doAll (h.beginEnd hx he) bye s).trans ?_))
    exact KeepL.of_slots (destroy_same _ _).1

theorem keepL_drop {w : World} (h : Inv w) (c t : Nat) (bye : Do) (s : Option Nat) :
    KeepL s w (dropSession w c t bye) := by
  unfold dropSession
  split
  · exact KeepL.of_slots rfl
  · split
    · exact KeepL.of_slots rfl
    · rename_i i hi
      obtain ⟨x, hx, hxe⟩ := slotOf_some hi
      exact keepL_unpollWith h hx hxe (by intro t ht; cases ht) bye

theorem keepL_input {w : World} (h : Top w) (c t : Nat) (e : In) (s : Option Nat) :
    KeepL s w (processInput w c t e) := by
  unfold processInput
  split
  · exact KeepL.of_slots rfl
  · rename_i z hz
    obtain ⟨hzl, hzc⟩ := conn?_some hz
    split
    · rename_i m p _ hp
      dsimp only
      have f1 := fine_message h hzl (peerOf_some hp) m
      rw [hzc] at f1
      have k1 : KeepL s w (w.note (.message c p m)) := KeepL.of_slots rfl
      have k2 := keepL_doAll f1.top.inv e.does s
      have f2 := fine_doAll f1.top e.does
      have f3 := fine_returned f2.top c
      have k3 : KeepL s (doAll e.does (w.note (.message c p m))) ((doAll e.does (w.note (.message c p m))).note (.returned c)) :=
        KeepL.of_slots rfl
      split
      · exact k1.trans (k2.trans k3)
      · exact k1.trans (k2.trans (k3.trans (keepL_drop f3.top.inv c t e.bye s)))
    · exact keepL_drop h.inv c t e.bye s

theorem keepL_connect {w : World} (h : Top w) (t : Nat) (e : In) (s : Option Nat) :
    KeepL s w (processConnect w t e) := by
  unfold processConnect
  split
  · exact KeepL.of_slots rfl
  · rename_i fd peer _
    split
    · exact KeepL.of_slots rfl
    · rename_i hany
      have hfd : ∀ a ∈ w.fds, a.1 ≠ fd := by
        intro a ha he
        apply hany
        rw [List.any_eq_true]
        exact ⟨a, ha, by simp [he]⟩
      split
      · exact KeepL.of_slots rfl
      · dsimp only
        have hI := h.inv.connect (s := t) (peer := peer) hfd
        have k2 := keepL_doAll hI e.does s
        have hI2 := (doAll_ok e.does _ hI).1
        split
        · have k3 := keepL_register (w := setStage ((doAll e.does _).note (.accepted w.next)) w.next .accepted)
            (fun i x hx hn => ((hI2.slotFd i x hx).1 hn).1) (.conn w.next t) fd s
          exact (KeepL.of_slots rfl).trans (k2.trans k3)
        · exact (KeepL.of_slots rfl).trans (k2.trans (KeepL.of_slots (destroy_same _ _).1))

theorem keepL_turn {w : World} (h : Top w) (i : Nat) (e : In) (s : Option Nat) : KeepL s w (turn w i e) := by
  unfold turn
  split
  · exact KeepL.of_slots rfl
  · split
    · exact KeepL.of_slots rfl
    · split
      · exact KeepL.of_slots rfl
      · exact KeepL.of_slots rfl
      · exact keepL_connect h _ e s
      · exact keepL_input h _ _ e s
      · exact keepL_doAll h.inv e.does s

theorem keepL_cleanup (n : Nat) : ∀ (w : World) (s i : Nat) (bye : Nat → Do), Inv w →
    KeepL (some s) w (cleanupFrom n w s i bye) := by
  induction n with
  | zero => intro w s i bye _; exact KeepL.of_slots rfl
  | succ n ih =>
    intro w s i bye h
    rw [cleanupFrom]
    split
    · exact KeepL.of_slots rfl
    · rename_i j hj
      obtain ⟨-, x, hx, hox, -⟩ := nextOwned_some hj
      obtain ⟨e, he, ho⟩ := ownedBy_ours hox
      rw [hx, Option.bind_some, he]
      dsimp only
      obtain ⟨l, -⟩ := unpollWith_ok h hx he (bye e.session)
      refine (keepL_unpollWith h hx he ?_ _).trans (ih _ s _ bye l.inv)
      intro t ht
      subst ht
      rw [he] at hox
      have : t = s := by simpa [ownedBy] using hox
      rw [this]

/-- Each server that listens is registered, or will be. -/
def Heard (w : World) : Prop := ∀ s fd, (s, fd) ∈ w.listening →
  s ∈ w.cleaned ∨ .listen s fd ∈ w.queue ∨
    ∃ (j : Nat) (x : Slot), w.slots[j]? = some x ∧ x.fd = some fd ∧ x.ep = some (.listener s)

theorem Heard.keep {w v : World} (h : Heard w) (k : KeepL none w v)
    (e : v.listening = w.listening ∧ v.queue = w.queue ∧ v.cleaned = w.cleaned) : Heard v := by
  obtain ⟨e1, e2, e3⟩ := e
  intro s fd hs
  rw [e1] at hs
  rcases h s fd hs with h | h | ⟨j, x, hx, hf, hl⟩
  · exact Or.inl (by rw [e3]; exact h)
  · exact Or.inr (Or.inl (by rw [e2]; exact h))
  · exact Or.inr (Or.inr ⟨j, x, k j x s hx hl (by simp), hf, hl⟩)

theorem drop_same {w : World} (h : Inv w) (c s : Nat) (bye : Do) :
    (dropSession w c s bye).listening = w.listening ∧ (dropSession w c s bye).queue = w.queue ∧
      (dropSession w c s bye).cleaned = w.cleaned := by
  unfold dropSession
  split
  · exact ⟨rfl, rfl, rfl⟩
  · split
    · exact ⟨rfl, rfl, rfl⟩
    · rename_i i hi
      obtain ⟨x, hx, hxe⟩ := slotOf_some hi
      have := (unpollWith_ok h hx hxe bye).1.same
      exact ⟨this.2.1, this.2.2.1, this.2.2.2.2.1⟩

theorem doAll_same {w : World} (h : Inv w) (d : Do) :
    (doAll d w).listening = w.listening ∧ (doAll d w).queue = w.queue ∧ (doAll d w).cleaned = w.cleaned := by
  have := (doAll_ok d w h).2.same
  exact ⟨this.2.1, this.2.2.1, this.2.2.2.2.1⟩

/-- The registered servers and the queue are the same. -/
def SameQ (w v : World) : Prop := v.listening = w.listening ∧ v.queue = w.queue ∧ v.cleaned = w.cleaned

theorem input_same {w : World} (h : Top w) (c s : Nat) (e : In) : SameQ w (processInput w c s e) := by
  unfold processInput
  split
  · exact ⟨rfl, rfl, rfl⟩
  · rename_i z hz
    obtain ⟨hzl, hzc⟩ := conn?_some hz
    split
    · rename_i m p _ hp
      dsimp only
      have f1 := fine_message h hzl (peerOf_some hp) m
      rw [hzc] at f1
      have hd := doAll_same f1.top.inv e.does
      have f3 := fine_returned (fine_doAll f1.top e.does).top c
      split
      · exact hd
      · obtain ⟨h1, h2, h3⟩ := drop_same f3.top.inv c s e.bye
        exact ⟨h1.trans hd.1, h2.trans hd.2.1, h3.trans hd.2.2⟩
    · exact drop_same h.inv c s e.bye

theorem connect_same {w : World} (h : Top w) (t : Nat) (e : In) : SameQ w (processConnect w t e) := by
  unfold processConnect
  split
  · exact ⟨rfl, rfl, rfl⟩
  · rename_i fd peer _
    split
    · exact ⟨rfl, rfl, rfl⟩
    · rename_i hany
      have hfd : ∀ a ∈ w.fds, a.1 ≠ fd := by
        intro a ha he
        apply hany
        rw [List.any_eq_true]
        exact ⟨a, ha, by simp [he]⟩
      split
      · exact ⟨rfl, rfl, rfl⟩
      · dsimp only
        have hI := h.inv.connect (s := t) (peer := peer) hfd
        obtain ⟨d1, d2, d3⟩ := doAll_same hI e.does
        split
        · obtain ⟨-, -, -, -, b5, b6, -, b8, -⟩ := register_same
            (setStage ((doAll e.does _).note (.accepted w.next)) w.next .accepted) (.conn w.next t) fd
          exact ⟨b6.trans d1, b5.trans d2, b8.trans d3⟩
        · obtain ⟨-, -, -, b4, b5, -, b7, -⟩ := destroy_same ((doAll e.does _).note (.refused w.next)) w.next
          exact ⟨b4.trans d1, b5.trans d2, b7.trans d3⟩

theorem turn_same {w : World} (h : Top w) (i : Nat) (e : In) : SameQ w (turn w i e) := by
  unfold turn
  split
  · exact ⟨rfl, rfl, rfl⟩
  · split
    · exact ⟨rfl, rfl, rfl⟩
    · split
      · exact ⟨rfl, rfl, rfl⟩
      · exact ⟨rfl, rfl, rfl⟩
      · exact connect_same h _ e
      · exact input_same h _ _ e
      · exact doAll_same h.inv e.does

theorem heard_step {w : World} (t : Top w) (h : Heard w) (x : Step) : Heard (step w x) := by
  unfold step
  split
  · exact h
  · cases x with
    | start s fd =>
      dsimp only
      split
      · exact h
      · intro r f hr
        rcases List.mem_cons.mp (show (r, f) ∈ (s, fd) :: w.listening from hr) with hr | hr
        · cases hr
          refine Or.inr (Or.inl ?_)
          show _ ∈ w.queue ++ [_]
          simp
        · rcases h r f hr with h | h | h
          · exact Or.inl h
          · refine Or.inr (Or.inl ?_)
            show _ ∈ w.queue ++ [_]
            simp [h]
          · exact Or.inr (Or.inr h)
    | stop s =>
      dsimp only
      split
      · intro r f hr
        rcases h r f hr with h | h | h
        · exact Or.inl h
        · refine Or.inr (Or.inl ?_)
          show _ ∈ w.queue ++ [_]
          simp [h]
        · exact Or.inr (Or.inr h)
      · exact h
    | stopReturn s =>
      dsimp only
      split
      · intro r f hr
        obtain ⟨hr, hne⟩ := List.mem_filter.mp (show (r, f) ∈ w.listening.filter _ from hr)
        rcases h r f hr with h | h | h
        · left
          show r ∈ w.cleaned.filter _
          exact List.mem_filter.mpr ⟨h, hne⟩
        · exact Or.inr (Or.inl h)
        · exact Or.inr (Or.inr h)
      · exact h
    | command i bye =>
      dsimp only
      split
      · exact h
      · split
        · exact h
        · rename_i s fd hq
          intro r f hr
          obtain ⟨k, hk, hfree, hj, -⟩ := register_slots { w with queue := w.queue.eraseIdx i } (.listener s) fd
          obtain ⟨-, -, -, -, b5, b6, -, b8, -⟩ := register_same { w with queue := w.queue.eraseIdx i } (.listener s) fd
          rw [b6] at hr
          rw [b5, b8]
          have hr : (r, f) ∈ w.listening := hr
          rcases h r f hr with h | h | ⟨j, x, hx, hf, hl⟩
          · exact Or.inl h
          · rcases mem_of_eraseIdx hq h with h | h
            rotate_left
            · exact Or.inr (Or.inl h)
            · cases h
              exact Or.inr (Or.inr ⟨k, _, hk, rfl, rfl⟩)
          · refine Or.inr (Or.inr ⟨j, x, ?_, hf, hl⟩)
            by_cases hjk : j = k
            · subst hjk
              rw [hfree x hx] at hf; cases hf
            · rw [hj j hjk]; exact hx
        · rename_i s hq
          have hI : Inv { w with queue := w.queue.eraseIdx i } := t.inv.congr rfl rfl rfl rfl rfl
          unfold cleanup
          dsimp only
          obtain ⟨l, -⟩ := cleanupFrom_ok w.slots.length { w with queue := w.queue.eraseIdx i } s 0 w.slots.length bye hI
            (fun k x hk => absurd hk (Nat.not_lt_zero k))
            (fun k x hx _ => by
              rcases Nat.lt_or_ge k w.slots.length with hk | hk
              · exact hk
              · have hx : w.slots[k]? = some x := hx
                rw [List.getElem?_eq_none hk] at hx; cases hx)
            (by omega)
          have k := keepL_cleanup w.slots.length { w with queue := w.queue.eraseIdx i } s 0 bye hI
          generalize cleanupFrom w.slots.length { w with queue := w.queue.eraseIdx i } s 0 bye = v at l k
          obtain ⟨-, a2, a3, -, a5, -⟩ := l.same
          have a3 : v.queue = w.queue.eraseIdx i := a3
          intro r f hr
          have hr : (r, f) ∈ w.listening := by
            have : (r, f) ∈ v.listening := hr
            rwa [a2] at this
          by_cases hrs : r = s
          · left
            show r ∈ s :: v.cleaned
            simp [hrs]
          · rcases h r f hr with h | h | ⟨j, x, hx, hf, hl⟩
            · left
              show r ∈ s :: v.cleaned
              rw [a5]
              exact List.mem_cons_of_mem _ h
            · refine Or.inr (Or.inl ?_)
              show _ ∈ v.queue.filter _
              refine List.mem_filter.mpr ⟨?_, by simp [Cmd.of, hrs]⟩
              rw [a3]
              rcases mem_of_eraseIdx hq h with h | h
              · cases h
              · exact h
            · exact Or.inr (Or.inr ⟨j, x, k j x r hx hl (fun hh => hrs (by injection hh with hh; exact hh.symm)), hf, hl⟩)
    | poll f =>
      dsimp only
      split
      · exact h
      · intro r fd hr
        rcases h r fd hr with h | h | ⟨j, x, hx, hf, hl⟩
        · exact Or.inl h
        · exact Or.inr (Or.inl h)
        · refine Or.inr (Or.inr ⟨j, { x with ready := x.fd.isSome && f j }, ?_, hf, hl⟩)
          show (w.slots.mapIdx _)[j]? = _
          rw [List.getElem?_mapIdx, hx]; rfl
    | turn e =>
      dsimp only
      split
      · exact h
      · rename_i i _
        split
        · have := h.keep (keepL_turn t i e none) (turn_same t i e)
          exact this
        · exact h
    | outside d => exact h

theorem heard_foldl (l : List Step) : ∀ w, Top w → Heard w → Heard (l.foldl step w) := by
  induction l with
  | nil => intro w _ h; exact h
  | cons x l ih => intro w t h; exact ih _ (top_step t x) (heard_step t h x)

theorem heard_run (l : List Step) : Heard (run l) :=
  heard_foldl l _ top_init (by intro s fd hs; cases hs)

/-! ### Requests are offered to the connection callback -/

theorem connect_offers {w : World} (h : Top w) {s : Nat} {e : In} {fd p : Nat} (ha : e.accept = some (fd, p))
    (hfd : ∀ a ∈ w.fds, a.1 ≠ fd) (hid : e.identified = true) :
    ∃ mid, (processConnect w s e).log =
      w.log ++ .connect s w.next p :: (mid ++ [if e.success then .accepted w.next else .refused w.next]) := by
  unfold processConnect
  rw [ha]
  dsimp only
  rw [if_neg (by
    intro hany
    rw [List.any_eq_true] at hany
    obtain ⟨a, ha, he⟩ := hany
    exact hfd a ha (by simpa using he)), if_neg (by simp [hid])]
  have hI := h.inv.connect (s := s) (peer := p) hfd
  obtain ⟨mid, hl, -⟩ := (doAll_ok e.does _ hI).2.log
  refine ⟨mid, ?_⟩
  cases hs : e.success with
  | true =>
    rw [if_pos rfl, (register_same _ _ _).2.2.2.1]
    show (doAll e.does _).log ++ [.accepted w.next] = _
    rw [hl]
    show (w.log ++ [.connect s w.next p]) ++ mid ++ [.accepted w.next] = _
    simp
  | false =>
    rw [if_neg (by simp), (destroy_same _ _).2.2.1]
    show (doAll e.does _).log ++ [.refused w.next] = _
    rw [hl]
    show (w.log ++ [.connect s w.next p]) ++ mid ++ [.refused w.next] = _
    simp

/-! ### Servers stop -/

theorem Orderly.last {c : Nat} {log u v : List Ev} (h : Orderly c log) (hc : calls c log = u ++ v)
    (ht : .refused c ∈ u ∨ .disconnect c ∈ u) : v = [] := by
  rcases List.eq_nil_or_concat v with rfl | ⟨v', z, rfl⟩
  · rfl
  · exfalso
    have hd : (calls c log).dropLast = u ++ v' := by rw [hc, List.concat_eq_append, ← List.append_assoc, List.dropLast_concat]
    have ht : .refused c ∈ (calls c log).dropLast ∨ .disconnect c ∈ (calls c log).dropLast := by
      rw [hd]
      rcases ht with ht | ht
      · exact Or.inl (List.mem_append.mpr (Or.inl ht))
      · exact Or.inr (List.mem_append.mpr (Or.inl ht))
    have nomsg : ∀ s p msgs, Messages c p msgs → ∀ e ∈ (.connect s c p :: .accepted c :: msgs : List Ev),
        e ≠ .refused c ∧ e ≠ .disconnect c := by
      intro s p msgs hm e he
      rcases List.mem_cons.mp he with rfl | he
      · simp
      · rcases List.mem_cons.mp he with rfl | he
        · simp
        · obtain ⟨m, rfl⟩ := hm e he
          simp
    rcases h with h | ⟨s, p, h | ⟨msgs, hm, h | h⟩⟩
    · rw [h] at ht; simp at ht
    · rw [h] at ht; simp at ht
    · rw [h] at ht
      rcases ht with ht | ht
      · exact (nomsg s p msgs hm _ (List.dropLast_subset _ ht)).1 rfl
      · exact (nomsg s p msgs hm _ (List.dropLast_subset _ ht)).2 rfl
    · rw [h, show (.connect s c p :: .accepted c :: (msgs ++ [.disconnect c]) : List Ev) =
        (.connect s c p :: .accepted c :: msgs) ++ [.disconnect c] from by simp, List.dropLast_concat] at ht
      rcases ht with ht | ht
      · exact (nomsg s p msgs hm _ ht).1 rfl
      · exact (nomsg s p msgs hm _ ht).2 rfl

theorem stop_ends {l : List Step} {s c p : Nat} {a b : List Ev} (h : (run l).log = a ++ .stopped s :: b)
    (hc : .connect s c p ∈ a) : (.refused c ∈ a ∨ .disconnect c ∈ a) ∧ calls c b = [] := by
  have hj := (top_run l).srv.good a _ b h c p hc
  refine ⟨hj, ?_⟩
  have ho := (top_run l).orderly c
  have hcalls : calls c (run l).log = calls c a ++ calls c b := by
    rw [h, calls_append, show (.stopped s :: b) = [.stopped s] ++ b from rfl, calls_append, calls_one_no (by simp [callOf])]
    simp
  refine ho.last hcalls ?_
  rcases hj with hj | hj
  · exact Or.inl (mem_calls.mpr ⟨hj, by simp [callOf]⟩)
  · exact Or.inr (mem_calls.mpr ⟨hj, by simp [callOf]⟩)

theorem listens_after {a b : List Ev} {s : Nat} (h : Listens s (a ++ .stopped s :: b)) : .started s ∈ b := by
  obtain ⟨a', b', he, hb⟩ := h
  rcases List.append_eq_append_iff.mp he with ⟨u, hu1, hu2⟩ | ⟨u, hu1, hu2⟩
  · cases u with
    | nil => simp at hu2
    | cons z u =>
      rw [List.cons_append] at hu2
      injection hu2 with _ hu2
      rw [hu2]; simp
  · cases u with
    | nil => simp at hu2
    | cons z u =>
      rw [List.cons_append] at hu2
      injection hu2 with _ hu2
      exact absurd (show .stopped s ∈ b' by rw [hu2]; simp) hb

theorem stop_returns {w : World} (t : Top w) {s : Nat} (hs : s ∈ w.stopping) (hc : w.cursor = none)
    (hf : w.fault = none) : ∃ i, ∀ bye, ∃ new,
      (step (step w (.command i bye)) (.stopReturn s)).log = w.log ++ new ++ [.stopped s] := by
  have fin : ∀ v : World, v.fault = none → s ∈ v.cleaned → (step v (.stopReturn s)).log = v.log ++ [.stopped s] := by
    intro v hv hm
    unfold step
    rw [if_neg (by simp [hv])]
    dsimp only
    rw [if_pos (by simpa using hm)]
    rfl
  rcases t.srv.pr s hs with hq | hq
  · obtain ⟨i, hi⟩ := List.getElem?_of_mem hq
    refine ⟨i, fun bye => ?_⟩
    obtain ⟨new, hl⟩ := step_log w t (.command i bye)
    have hf2 := step_fault t hf (.command i bye) trivial
    refine ⟨new, ?_⟩
    rw [fin _ hf2 ?_, hl]
    unfold step
    rw [if_neg (by simp [hf])]
    dsimp only
    rw [if_neg (by simp [hc]), hi]
    show s ∈ s :: _
    simp
  · refine ⟨w.queue.length, fun bye => ⟨[], ?_⟩⟩
    have : step w (.command w.queue.length bye) = w := by
      unfold step
      rw [if_neg (by simp [hf])]
      dsimp only
      rw [if_neg (by simp [hc]), List.getElem?_eq_none (Nat.le_refl _)]
    rw [this, fin w hf hq]; simp

end Verif.UnixServer
