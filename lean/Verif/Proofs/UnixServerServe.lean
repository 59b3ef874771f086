import Verif.Proofs.UnixServerRun
/-!
# Sessions of a server: service, reasons to end, absence of faults
-/
namespace Verif.UnixServer

/-! ### Order -/

theorem Top.orderly {w : World} (h : Top w) (c : Nat) : Orderly c w.log := by
  rcases Nat.lt_or_ge c w.next with hc | hc
  · by_cases hl : ∃ y ∈ w.live, y.id = c
    · obtain ⟨y, hy, rfl⟩ := hl
      obtain ⟨p, -, hn⟩ := h.inv.now y hy
      rw [h.acc y hy] at hn
      obtain ⟨msgs, hm, hcalls⟩ := hn
      exact Or.inr ⟨y.srv, p, Or.inr ⟨msgs, hm, Or.inl hcalls⟩⟩
    · obtain ⟨s, p, ho⟩ := h.inv.gone c hc (fun y hy he => hl ⟨y, hy, he⟩)
      rcases ho with ho | ⟨msgs, hm, ho⟩
      · exact Or.inr ⟨s, p, Or.inl ho⟩
      · exact Or.inr ⟨s, p, Or.inr ⟨msgs, hm, Or.inr ho⟩⟩
  · exact Or.inl (h.inv.fresh c hc)

/-- The session of a live object is open. -/
theorem Top.open_of_live {w : World} (h : Top w) {y : Conn} (hy : y ∈ w.live) :
    ∃ p, (y.fd, p) ∈ w.fds ∧ OpenSession y.srv y.id p w.log := by
  obtain ⟨p, hp, hn⟩ := h.inv.now y hy
  rw [h.acc y hy] at hn
  obtain ⟨msgs, hm, hcalls⟩ := hn
  refine ⟨p, hp, (mem_calls.mp (show _ ∈ calls y.id w.log by rw [hcalls]; simp)).1,
    (mem_calls.mp (show _ ∈ calls y.id w.log by rw [hcalls]; simp)).1, ?_⟩
  intro hd
  have : .disconnect y.id ∈ calls y.id w.log := mem_calls.mpr ⟨hd, by simp [callOf]⟩
  rw [hcalls] at this
  rcases List.mem_cons.mp this with e | this
  · cases e
  · rcases List.mem_cons.mp this with e | this
    · cases e
    · obtain ⟨m, e⟩ := hm _ this
      cases e

theorem Top.live_of_open {w : World} (h : Top w) {s c p : Nat} (ho : OpenSession s c p w.log) :
    ∃ y ∈ w.live, y.id = c ∧ y.srv = s ∧ (y.fd, p) ∈ w.fds := by
  obtain ⟨h1, h2, h3⟩ := ho
  have c1 : .connect s c p ∈ calls c w.log := mem_calls.mpr ⟨h1, by simp [callOf]⟩
  have c2 : .accepted c ∈ calls c w.log := mem_calls.mpr ⟨h2, by simp [callOf]⟩
  have hlt : c < w.next := by
    rcases Nat.lt_or_ge c w.next with hlt | hge
    · exact hlt
    · rw [h.inv.fresh c hge] at c1; cases c1
  by_cases hl : ∃ y ∈ w.live, y.id = c
  · obtain ⟨y, hy, rfl⟩ := hl
    have hs := h.inv.srv_of hy h1
    obtain ⟨q, hq, hn⟩ := h.inv.now y hy
    rw [h.acc y hy] at hn
    obtain ⟨msgs, hm, hcalls⟩ := hn
    refine ⟨y, hy, rfl, hs.symm, ?_⟩
    rw [hcalls] at c1
    rcases List.mem_cons.mp c1 with e | c1
    · injection e with _ _ e; rw [e]; exact hq
    · rcases List.mem_cons.mp c1 with e | c1
      · cases e
      · obtain ⟨m, e⟩ := hm _ c1
        cases e
  · obtain ⟨s', p', hov⟩ := h.inv.gone c hlt (fun y hy he => hl ⟨y, hy, he⟩)
    rcases hov with hov | ⟨msgs, -, hov⟩
    · rw [hov] at c2
      simp at c2
    · exact absurd (mem_calls.mp (show .disconnect c ∈ calls c w.log by rw [hov]; simp)).1 h3

/-! ### Sessions are not ended by what spares them -/

theorem doAll_spares {c : Nat} (d : Do) : ∀ w, Spares c d → calls c (doAll d w).log = calls c w.log := by
  induction d with
  | done => intro w _; rfl
  | disconnect k inner next ih1 ih2 =>
    intro w hs
    obtain ⟨h1, h2, h3⟩ := hs
    rw [doAll]
    split
    · exact ih2 w h3
    · split
      · exact ih2 w h3
      · rename_i i _
        rw [ih2 _ h3, (destroy_same _ _).2.2.1, ih1 _ h2]
        show calls c (w.log ++ [.disconnect k]) = _
        rw [calls_append, calls_one_no (by simp [callOf, h1]), List.append_nil]
  | register k fd next ih =>
    intro w hs
    rw [doAll]
    split
    · exact ih w hs
    · rw [ih _ hs, (register_same _ _ _).2.2.2.1]
  | unregister k inner next ih1 ih2 =>
    intro w hs
    rw [doAll]
    split
    · exact ih2 w hs.2
    · rw [ih2 _ hs.2, ih1 _ hs.1]; rfl

/-- The session has not been ended from `w` to `v`. -/
def NoEnd (c : Nat) (w v : World) : Prop := .disconnect c ∈ v.log → .disconnect c ∈ w.log

theorem NoEnd.of_calls {c : Nat} {w v : World} (h : calls c v.log = calls c w.log) : NoEnd c w v := by
  intro hm
  have : .disconnect c ∈ calls c v.log := mem_calls.mpr ⟨hm, by simp [callOf]⟩
  rw [h] at this
  exact (mem_calls.mp this).1

theorem NoEnd.trans {c : Nat} {u v w : World} (h : NoEnd c u v) (k : NoEnd c v w) : NoEnd c u w := fun hm => h (k hm)

theorem NoEnd.note {c : Nat} (w : World) {e : Ev} (h : e ≠ .disconnect c) : NoEnd c w (w.note e) := by
  intro hm
  rcases List.mem_append.mp (show _ ∈ w.log ++ [e] from hm) with hm | hm
  · exact hm
  · exact absurd (List.mem_singleton.mp hm).symm h

theorem noEnd_doAll {c : Nat} {d : Do} (w : World) (h : Spares c d) : NoEnd c w (doAll d w) :=
  NoEnd.of_calls (doAll_spares d w h)

theorem noEnd_log {c : Nat} {w v : World} (h : v.log = w.log) : NoEnd c w v := by
  intro hm; rwa [h] at hm

theorem noEnd_unpollWith {c : Nat} (w : World) (i : Nat) (e : Ep) {bye : Do} (hs : Spares c bye)
    (he : ∀ s, e ≠ .conn c s) : NoEnd c w (unpollWith w i e bye) := by
  cases e with
  | command => exact noEnd_log rfl
  | listener t => exact noEnd_log rfl
  | other k => exact (noEnd_log (v := unpoll w i) rfl).trans (noEnd_doAll _ hs)
  | conn d s =>
    have hdc : d ≠ c := fun e => he s (by rw [e])
    have h1 : NoEnd c w (beginEnd (unpoll w i) d) := by
      intro hm
      rcases List.mem_append.mp (show _ ∈ w.log ++ [.disconnect d] from hm) with hm | hm
      · exact hm
      · have := List.mem_singleton.mp hm
        injection this with this
        exact absurd this.symm hdc
    exact h1.trans ((noEnd_doAll _ hs).trans (noEnd_log (destroy_same _ _).2.2.1))

theorem noEnd_cleanup {c : Nat} (n : Nat) : ∀ (w : World) (s i : Nat) (bye : Nat → Do), Inv w →
    (∀ d, Spares c (bye d)) → (∀ (j : Nat) (x : Slot), w.slots[j]? = some x → x.ep ≠ some (.conn c s)) →
    NoEnd c w (cleanupFrom n w s i bye) := by
  induction n with
  | zero => intro w s i bye _ _ _; exact noEnd_log rfl
  | succ n ih =>
    intro w s i bye h hs hno
    rw [cleanupFrom]
    split
    · exact noEnd_log rfl
    · rename_i j hj
      obtain ⟨-, x, hx, hox, -⟩ := nextOwned_some hj
      obtain ⟨e, he, ho⟩ := ownedBy_ours hox
      rw [hx, Option.bind_some, he]
      dsimp only
      obtain ⟨l, -⟩ := unpollWith_ok h hx he (bye e.session)
      refine (noEnd_unpollWith w j e (hs _) ?_).trans (ih _ s _ bye l.inv hs ?_)
      · intro t het
        subst het
        rw [he] at hox
        have : t = s := by simpa [ownedBy] using hox
        subst this
        exact hno j x hx he
      · intro k y hy hye
        exact hno k y (l.old k y _ hy hye trivial) hye

theorem noEnd_drop {c : Nat} {w : World} {d s : Nat} {bye : Do} (hs : Spares c bye) (hd : d ≠ c) :
    NoEnd c w (dropSession w d s bye) := by
  unfold dropSession
  split
  · exact noEnd_log rfl
  · split
    · exact noEnd_log rfl
    · exact noEnd_unpollWith w _ _ hs (by intro t e; injection e with e _; exact hd e)

theorem noEnd_input {c : Nat} {w : World} {d s : Nat} {e : In} (h1 : Spares c e.does) (h2 : Spares c e.bye)
    (hI : Inv w) (h : d = c → e.msg ≠ none ∧ e.success = true) : NoEnd c w (processInput w d s e) := by
  unfold processInput
  split
  · exact noEnd_log rfl
  · rename_i y hy
    obtain ⟨hyl, hyd⟩ := conn?_some hy
    split
    · rename_i m p _ _
      dsimp only
      have a1 : NoEnd c w (w.note (.message d p m)) := NoEnd.note w (by simp)
      have a2 := noEnd_doAll (w.note (.message d p m)) h1
      have a3 : NoEnd c (doAll e.does (w.note (.message d p m))) ((doAll e.does (w.note (.message d p m))).note (.returned d)) :=
        NoEnd.note _ (by simp)
      split
      · exact a1.trans (a2.trans a3)
      · rename_i hsuc
        have hd : d ≠ c := fun hd => hsuc (h hd).2
        exact a1.trans (a2.trans (a3.trans (noEnd_drop h2 hd)))
    · rename_i hno
      have hd : d ≠ c := by
        intro hd
        obtain ⟨p, hp, -⟩ := hI.now y hyl
        cases hm : e.msg with
        | none => exact (h hd).1 hm
        | some m => exact hno m p hm (peerOf_mem hI hp)
      exact noEnd_drop h2 hd

theorem noEnd_connect {c : Nat} (w : World) (s : Nat) {e : In} (h1 : Spares c e.does) :
    NoEnd c w (processConnect w s e) := by
  unfold processConnect
  split
  · exact noEnd_log rfl
  · rename_i fd peer _
    split
    · exact noEnd_log rfl
    · split
      · exact noEnd_log rfl
      · dsimp only
        generalize hu : (World.note { w with
              next := w.next + 1
              fds := w.fds ++ [(fd, peer)]
              live := w.live ++ [{ id := w.next, srv := s, fd, stage := .provisional }] } (.connect s w.next peer)) = u
        have a1 : NoEnd c w u := by
          rw [← hu]
          intro hm
          rcases List.mem_append.mp (show _ ∈ w.log ++ [_] from hm) with hm | hm
          · exact hm
          · have := List.mem_singleton.mp hm
            cases this
        have a2 := noEnd_doAll u h1
        split
        · refine a1.trans (a2.trans ?_)
          have a3 : NoEnd c (doAll e.does u) ((doAll e.does u).note (.accepted w.next)) := NoEnd.note _ (by simp)
          exact a3.trans (noEnd_log (register_same _ _ _).2.2.2.1)
        · refine a1.trans (a2.trans ?_)
          have a3 : NoEnd c (doAll e.does u) ((doAll e.does u).note (.refused w.next)) := NoEnd.note _ (by simp)
          exact a3.trans (noEnd_log (destroy_same _ _).2.2.1)

/-- A session ends for a reason. -/
theorem reason {w : World} (h : Top w) (x : Step) (c : Nat) (hn : .disconnect c ∉ w.log)
    (hd : .disconnect c ∈ (step w x).log) : Reason w c x := by
  have stay : ∀ v : World, NoEnd c w v → .disconnect c ∈ v.log → False := fun v h1 h2 => hn (h1 h2)
  unfold step at hd
  split at hd
  · exact absurd hd hn
  · cases x with
    | start s fd =>
      dsimp only at hd
      split at hd
      · exact absurd hd hn
      · rcases List.mem_append.mp (show _ ∈ w.log ++ [_] from hd) with hd | hd
        · exact absurd hd hn
        · have := List.mem_singleton.mp hd; cases this
    | stop s =>
      dsimp only at hd
      split at hd
      · exact absurd hd hn
      · exact absurd hd hn
    | stopReturn s =>
      dsimp only at hd
      split at hd
      · rcases List.mem_append.mp (show _ ∈ w.log ++ [_] from hd) with hd | hd
        · exact absurd hd hn
        · have := List.mem_singleton.mp hd; cases this
      · exact absurd hd hn
    | command i bye =>
      dsimp only at hd
      split at hd
      · exact absurd hd hn
      · split at hd
        · exact absurd hd hn
        · rw [(register_same _ _ _).2.2.2.1] at hd
          exact absurd hd hn
        · rename_i s hq
          by_cases hsp : ∃ d, ¬ Spares c (bye d)
          · exact Or.inl hsp
          · right
            have hsp : ∀ d, Spares c (bye d) := fun d => Classical.byContradiction fun hh => hsp ⟨d, hh⟩
            by_cases hslot : ∃ (j : Nat) (x : Slot), w.slots[j]? = some x ∧ x.ep = some (.conn c s)
            · obtain ⟨j, x, hx, hxe⟩ := hslot
              obtain ⟨y, hy, hyc, hys, -, -⟩ := h.inv.slotConn j x c s hx hxe
              obtain ⟨p, -, ho⟩ := h.open_of_live hy
              rw [hyc, hys] at ho
              exact ⟨s, p, hq, ho.1⟩
            · exfalso
              have hI : Inv { w with queue := w.queue.eraseIdx i } := h.inv.congr rfl rfl rfl rfl rfl
              exact hn (noEnd_cleanup w.slots.length { w with queue := w.queue.eraseIdx i } s 0 bye hI hsp
                (fun j x hx hxe => hslot ⟨j, x, hx, hxe⟩) hd)
    | poll f =>
      dsimp only at hd
      split at hd
      · exact absurd hd hn
      · exact absurd hd hn
    | turn e =>
      by_cases h1 : Spares c e.does
      · by_cases h2 : Spares c e.bye
        · refine Or.inr (Or.inr ?_)
          dsimp only at hd
          split at hd
          · exact absurd hd hn
          · rename_i i hi
            split at hd
            · have hd : .disconnect c ∈ (turn w i e).log := hd
              unfold turn at hd
              split at hd
              · exact absurd hd hn
              · rename_i x hx
                split at hd
                · exact absurd hd hn
                · rename_i hr
                  split at hd
                  · exact absurd hd hn
                  · exact absurd hd hn
                  · exact absurd hd (fun hd => hn (noEnd_connect w _ h1 hd))
                  · rename_i d s hds
                    by_cases hdc : d = c
                    · subst hdc
                      refine ⟨s, ⟨i, x, hi, hx, by simpa using hr, hds⟩, ?_⟩
                      cases hm : e.msg with
                      | none => exact Or.inl rfl
                      | some m =>
                        right
                        cases hsu : e.success with
                        | false => rfl
                        | true =>
                          exact absurd (noEnd_input h1 h2 h.inv (fun _ => ⟨by simp [hm], hsu⟩) hd) hn
                    · exact absurd (noEnd_input h1 h2 h.inv (fun hh => absurd hh hdc) hd) hn
                  · exact absurd (noEnd_doAll w h1 hd) hn
            · exact absurd hd hn
        · exact Or.inr (Or.inl h2)
      · exact Or.inl h1
    | outside d => exact absurd hd hn

/-! ### Faults -/

theorem doAll_fault {w : World} (h : Inv w) (d : Do) : (doAll d w).fault = w.fault :=
  (doAll_ok d w h).2.same.2.2.2.2.2.2

theorem doAll_live {w : World} (h : Inv w) {d : Do} {y : Conn} (hy : y ∈ w.live) (hs : Spares y.id d) :
    y ∈ (doAll d w).live := by
  obtain ⟨new, hl, -, -, hk⟩ := (doAll_ok d w h).2.log
  rcases hk y hy with hk | hk
  · exact hk
  · have hc := doAll_spares d w hs
    rw [hl, calls_append] at hc
    have hn : calls y.id new = [] := by
      have := congrArg List.length hc
      rw [List.length_append] at this
      exact List.eq_nil_of_length_eq_zero (by omega)
    have : .disconnect y.id ∈ calls y.id new := mem_calls.mpr ⟨hk, by simp [callOf]⟩
    rw [hn] at this; cases this

theorem drop_fault {w : World} (h : Top w) {c s : Nat} (bye : Do) (hc : ∃ y ∈ w.live, y.id = c) :
    (dropSession w c s bye).fault = w.fault := by
  unfold dropSession
  split
  · rename_i hn
    obtain ⟨y, hy, hyc⟩ := hc
    exact absurd hyc (conn?_none hn y hy)
  · split
    · rfl
    · rename_i i hi
      obtain ⟨x, hx, hxe⟩ := slotOf_some hi
      exact (unpollWith_ok h.inv hx hxe bye).1.same.2.2.2.2.2.2

theorem input_fault {w : World} (h : Top w) {c s : Nat} {e : In} (hc : ∃ y ∈ w.live, y.id = c)
    (hs : e.success = false → Spares c e.does) : (processInput w c s e).fault = w.fault := by
  obtain ⟨y, hy, hyc⟩ := hc
  unfold processInput
  split
  · rename_i hn
    exact absurd hyc (conn?_none hn y hy)
  · rename_i z hz
    obtain ⟨hzl, hzc⟩ := conn?_some hz
    split
    · rename_i m p _ hp
      dsimp only
      have f1 := fine_message h hzl (peerOf_some hp) m
      rw [hzc] at f1
      have f2 := fine_doAll f1.top e.does
      have f3 := fine_returned f2.top c
      have hf : (doAll e.does (w.note (.message c p m))).fault = w.fault := doAll_fault f1.top.inv e.does
      split
      · exact hf
      · rename_i hsu
        rw [drop_fault f3.top]
        · exact hf
        · have := doAll_live f1.top.inv (d := e.does) (y := y) hy (by rw [hyc]; exact hs (by simpa using hsu))
          exact ⟨y, this, hyc⟩
    · exact drop_fault h e.bye ⟨y, hy, hyc⟩

theorem connect_fault {w : World} (h : Top w) {s : Nat} {e : In} (ha : e.accept ≠ none) :
    (processConnect w s e).fault = w.fault := by
  unfold processConnect
  split
  · rename_i hn
    exact absurd hn ha
  · rename_i fd peer _
    split
    · rfl
    · rename_i hany
      have hfd : ∀ a ∈ w.fds, a.1 ≠ fd := by
        intro a ha he
        apply hany
        rw [List.any_eq_true]
        exact ⟨a, ha, by simp [he]⟩
      split
      · rfl
      · dsimp only
        have hI := h.inv.connect (s := s) (peer := peer) hfd
        split
        · rw [(register_same _ _ _).2.2.2.2.2.2.2.2.2]
          exact doAll_fault hI e.does
        · rw [(destroy_same _ _).2.2.2.2.2.2.2.2]
          exact doAll_fault hI e.does

theorem step_fault {w : World} (h : Top w) (hf : w.fault = none) (x : Step) (hc : Careful w x) :
    (step w x).fault = none := by
  unfold step
  rw [if_neg (by simp [hf])]
  cases x with
  | start s fd => dsimp only; split <;> exact hf
  | stop s => dsimp only; split <;> exact hf
  | stopReturn s => dsimp only; split <;> exact hf
  | command i bye =>
    dsimp only
    split
    · exact hf
    · split
      · exact hf
      · rw [(register_same _ _ _).2.2.2.2.2.2.2.2.2]; exact hf
      · rename_i s hq
        have hI : Inv { w with queue := w.queue.eraseIdx i } := h.inv.congr rfl rfl rfl rfl rfl
        obtain ⟨l, -⟩ := cleanupFrom_ok w.slots.length { w with queue := w.queue.eraseIdx i } s 0 w.slots.length bye hI
          (fun k x hk => absurd hk (Nat.not_lt_zero k))
          (fun k x hx _ => by
            rcases Nat.lt_or_ge k w.slots.length with hk | hk
            · exact hk
            · have hx : w.slots[k]? = some x := hx
              rw [List.getElem?_eq_none hk] at hx; cases hx)
          (by omega)
        exact l.same.2.2.2.2.2.2.trans hf
  | poll f => dsimp only; split <;> exact hf
  | turn e =>
    dsimp only
    split
    · exact hf
    · rename_i i hi
      split
      · show (turn w i e).fault = none
        unfold turn
        split
        · exact hf
        · rename_i x hx
          split
          · exact hf
          · rename_i hr
            have hr : x.ready = true := by simpa using hr
            split
            · rename_i hn
              obtain ⟨h1, h2⟩ := h.inv.slotFd i x hx
              rw [(h1 (h2 hn)).2] at hr; cases hr
            · exact hf
            · rename_i s hs
              rw [connect_fault h (hc.1 s ⟨i, x, hi, hx, hr, hs⟩)]; exact hf
            · rename_i c s hs
              obtain ⟨y, hy, hyc, -⟩ := h.inv.slotConn i x c s hx hs
              rw [input_fault h ⟨y, hy, hyc⟩ (hc.2 c s ⟨i, x, hi, hx, hr, hs⟩)]; exact hf
            · rw [doAll_fault h.inv]; exact hf
      · exact hf
  | outside c => exact absurd hc id

/-! ### Service -/

theorem drop_log {w : World} (h : Inv w) {i : Nat} {x : Slot} {c s : Nat} (hx : w.slots[i]? = some x)
    (hxe : x.ep = some (.conn c s)) (bye : Do) : ∃ new, (dropSession w c s bye).log = w.log ++ .disconnect c :: new := by
  unfold dropSession
  obtain ⟨y, hy, hyc, -⟩ := h.slotConn i x c s hx hxe
  split
  · rename_i hn
    exact absurd hyc (conn?_none hn y hy)
  · split
    · rename_i hn
      exact absurd hxe (slotOf_none hn i x hx)
    · rename_i j hj
      obtain ⟨x', hx', hxe'⟩ := slotOf_some hj
      have hb := h.beginEnd hx' hxe'
      obtain ⟨new, hl, -⟩ := (doAll_ok bye _ hb).2.log
      refine ⟨new, ?_⟩
      show (destroy (doAll bye (beginEnd (unpoll w j) c)) c).log = _
      rw [(destroy_same _ _).2.2.1, hl]
      show (w.log ++ [.disconnect c]) ++ new = _
      simp

/-- The input callback of a session delivers the message that is received. -/
theorem input_delivers {w : World} (h : Top w) {i : Nat} {x : Slot} {c s : Nat} (hx : w.slots[i]? = some x)
    (hxe : x.ep = some (.conn c s)) (e : In) {m : Nat} (hm : e.msg = some m) :
    ∃ p mid rest, (processInput w c s e).log = w.log ++ .message c p m :: (mid ++ .returned c :: rest) ∧
      OpenSession s c p w.log ∧ (Spares c e.does → calls c mid = []) ∧ (e.success = true → rest = []) := by
  obtain ⟨y, hy, hyc, hys, -⟩ := h.inv.slotConn i x c s hx hxe
  obtain ⟨p, hp, ho⟩ := h.open_of_live hy
  rw [hyc, hys] at ho
  unfold processInput
  split
  · rename_i hn
    exact absurd hyc (conn?_none hn y hy)
  · rename_i z hz
    obtain ⟨hzl, hzc⟩ := conn?_some hz
    have hzy : z = y := h.inv.idUniq z hzl y hy (hzc.trans hyc.symm)
    subst hzy
    rw [hm, peerOf_mem h.inv hp]
    dsimp only
    have f1 := fine_message h hzl hp m
    rw [hzc] at f1
    obtain ⟨mid, hl, -⟩ := (doAll_ok e.does _ f1.top.inv).2.log
    have hl : (doAll e.does (w.note (.message c p m))).log = w.log ++ .message c p m :: mid := by
      rw [hl]
      show (w.log ++ [.message c p m]) ++ mid = _
      simp
    have f2 := fine_doAll f1.top e.does
    have f3 := fine_returned f2.top c
    have hsp : Spares c e.does → calls c mid = [] := by
      intro hs
      have hc := doAll_spares e.does (w.note (.message c p m)) hs
      rw [hl] at hc
      have hc : calls c (w.log ++ .message c p m :: mid) = calls c (w.log ++ [.message c p m]) := hc
      rw [show w.log ++ .message c p m :: mid = (w.log ++ [.message c p m]) ++ mid from by simp, calls_append] at hc
      have := congrArg List.length hc
      rw [List.length_append] at this
      exact List.eq_nil_of_length_eq_zero (by omega)
    split
    · refine ⟨p, mid, [], ?_, ho, hsp, fun _ => rfl⟩
      show (doAll e.does (w.note (.message c p m))).log ++ [.returned c] = _
      rw [hl]; simp
    · rename_i hsu
      obtain ⟨rest, hr, -⟩ := (fine_drop f3.top c s e.bye).later
      refine ⟨p, mid, rest, ?_, ho, hsp, fun hh => absurd hh hsu⟩
      rw [hr]
      show ((doAll e.does (w.note (.message c p m))).log ++ [.returned c]) ++ rest = _
      rw [hl]; simp

theorem turn_serves {w : World} (h : Top w) {i : Nat} {x : Slot} {c s : Nat} (hx : w.slots[i]? = some x)
    (hr : x.ready = true) (hxe : x.ep = some (.conn c s)) (e : In) :
    ∃ new, (turn w i e).log = w.log ++ new ∧ ((∃ p m, .message c p m ∈ new) ∨ .disconnect c ∈ new) := by
  have ht : turn w i e = processInput w c s e := by
    unfold turn
    rw [hx]
    dsimp only
    rw [if_neg (by simp [hr]), hxe]
  rw [ht]
  cases hm : e.msg with
  | some m =>
    obtain ⟨p, mid, rest, hl, -⟩ := input_delivers h hx hxe e hm
    exact ⟨_, hl, Or.inl ⟨p, m, by simp⟩⟩
  | none =>
    obtain ⟨y, hy, hyc, -⟩ := h.inv.slotConn i x c s hx hxe
    unfold processInput
    split
    · rename_i hn
      exact absurd hyc (conn?_none hn y hy)
    · split
      · rename_i m p hmm _
        rw [hm] at hmm; cases hmm
      · obtain ⟨new, hl⟩ := drop_log h.inv hx hxe e.bye
        exact ⟨_, hl, Or.inr (by simp)⟩

/-- The input callback of a session ends it if nothing can be read or the message callback returns an error. -/
theorem input_ends {w : World} (h : Top w) {i : Nat} {x : Slot} {c s : Nat} (hx : w.slots[i]? = some x)
    (hxe : x.ep = some (.conn c s)) (e : In) (he : e.msg = none ∨ e.success = false) :
    .disconnect c ∈ (processInput w c s e).log := by
  obtain ⟨y, hy, hyc, -⟩ := h.inv.slotConn i x c s hx hxe
  unfold processInput
  split
  · rename_i hn
    exact absurd hyc (conn?_none hn y hy)
  · rename_i z hz
    obtain ⟨hzl, hzc⟩ := conn?_some hz
    split
    · rename_i m p hm hp
      dsimp only
      have hs : e.success = false := by
        rcases he with he | he
        · rw [he] at hm; cases hm
        · exact he
      rw [if_neg (by simp [hs])]
      have f1 := fine_message h hzl (peerOf_some hp) m
      rw [hzc] at f1
      have f2 := fine_doAll f1.top e.does
      have f3 := fine_returned f2.top c
      obtain ⟨n2, l2, c2⟩ := f2.later
      obtain ⟨n4, l4, -⟩ := (fine_drop f3.top c s e.bye).later
      rcases c2 i x c s hx hxe with h2 | h2
      · obtain ⟨new, hl⟩ := drop_log f3.top.inv (i := i) (x := x) h2 hxe e.bye
        rw [hl]; simp
      · rw [l4]
        refine List.mem_append.mpr (Or.inl ?_)
        show _ ∈ (doAll e.does (w.note (.message c p m))).log ++ [.returned c]
        rw [l2]
        exact List.mem_append.mpr (Or.inl (List.mem_append.mpr (Or.inr h2)))
    · obtain ⟨new, hl⟩ := drop_log h.inv hx hxe e.bye
      rw [hl]; simp

/-- No `poll`. -/
def Step.noPoll : Step → Prop
  | .poll _ => False
  | _ => True

/-- What a step does to a session that is ready and whose turn is still to come. -/
theorem step_waits {w : World} (h : Top w) (x : Step) (hx : x.noPoll) {i j : Nat} {y : Slot} {c s : Nat}
    (hcur : w.cursor = some j) (hji : j ≤ i) (hy : w.slots[i]? = some y) (hr : y.ready = true)
    (hye : y.ep = some (.conn c s)) :
    ∃ new, (step w x).log = w.log ++ new ∧
      ((step w x).fault.isSome = true ∨ ((∃ p m, .message c p m ∈ new) ∨ .disconnect c ∈ new) ∨
        ((step w x).slots[i]? = some y ∧ ∃ k, (step w x).cursor = some k ∧ k ≤ i)) := by
  have same : ∃ new, w.log = w.log ++ new ∧
      (w.fault.isSome = true ∨ ((∃ p m, .message c p m ∈ new) ∨ .disconnect c ∈ new) ∨
        (w.slots[i]? = some y ∧ ∃ k, w.cursor = some k ∧ k ≤ i)) :=
    ⟨[], by simp, Or.inr (Or.inr ⟨hy, j, hcur, hji⟩)⟩
  unfold step
  split
  · exact same
  · cases x with
    | start t fd =>
      dsimp only
      split
      · exact same
      · exact ⟨[.started t], rfl, Or.inr (Or.inr ⟨hy, j, hcur, hji⟩)⟩
    | stop t =>
      dsimp only
      split
      · exact ⟨[], by simp, Or.inr (Or.inr ⟨hy, j, hcur, hji⟩)⟩
      · exact same
    | stopReturn t =>
      dsimp only
      split
      · exact ⟨[.stopped t], rfl, Or.inr (Or.inr ⟨hy, j, hcur, hji⟩)⟩
      · exact same
    | command k bye =>
      dsimp only
      rw [if_pos (by simp [hcur])]
      exact same
    | poll f => exact absurd hx id
    | turn e =>
      dsimp only
      rw [hcur]
      dsimp only
      have hlt : i < w.slots.length := by
        rcases Nat.lt_or_ge i w.slots.length with hlt | hge
        · exact hlt
        · rw [List.getElem?_eq_none hge] at hy; cases hy
      rw [if_pos (by omega)]
      by_cases hij : j = i
      · subst hij
        obtain ⟨new, hl, hserved⟩ := turn_serves h hy hr hye e
        exact ⟨new, hl, Or.inr (Or.inl hserved)⟩
      · obtain ⟨new, hl, hk⟩ := (fine_turn h j e).later
        refine ⟨new, hl, ?_⟩
        rcases hk i y c s hy hye with hk | hk
        · exact Or.inr (Or.inr ⟨hk, j + 1, rfl, by omega⟩)
        · exact Or.inr (Or.inl (Or.inr hk))
    | outside d => exact ⟨[], by simp, Or.inl rfl⟩

theorem step_log (w : World) (h : Top w) (x : Step) : ∃ new, (step w x).log = w.log ++ new := by
  unfold step
  split
  · exact ⟨[], by simp⟩
  · cases x with
    | start t fd =>
      dsimp only
      split
      · exact ⟨[], by simp⟩
      · exact ⟨[.started t], rfl⟩
    | stop t =>
      dsimp only
      split
      · exact ⟨[], by simp⟩
      · exact ⟨[], by simp⟩
    | stopReturn t =>
      dsimp only
      split
      · exact ⟨[.stopped t], rfl⟩
      · exact ⟨[], by simp⟩
    | command k bye =>
      dsimp only
      split
      · exact ⟨[], by simp⟩
      · split
        · exact ⟨[], by simp⟩
        · rename_i hq
          obtain ⟨new, hl, -⟩ := (fine_listen h hq).later
          exact ⟨new, hl⟩
        · rename_i hq
          obtain ⟨new, hl, -⟩ := (cleanup_ok h hq bye).later
          exact ⟨new, hl⟩
    | poll f =>
      dsimp only
      split
      · exact ⟨[], by simp⟩
      · exact ⟨[], by simp⟩
    | turn e =>
      dsimp only
      split
      · exact ⟨[], by simp⟩
      · split
        · obtain ⟨new, hl, -⟩ := (fine_turn h _ e).later
          exact ⟨new, hl⟩
        · exact ⟨[], by simp⟩
    | outside d => exact ⟨[], by simp⟩

theorem foldl_log (l : List Step) : ∀ w, Top w → ∃ new, (l.foldl step w).log = w.log ++ new := by
  induction l with
  | nil => intro w _; exact ⟨[], by simp⟩
  | cons x l ih =>
    intro w h
    obtain ⟨n1, h1⟩ := step_log w h x
    obtain ⟨n2, h2⟩ := ih _ (top_step h x)
    exact ⟨n1 ++ n2, by rw [List.foldl_cons, h2, h1, List.append_assoc]⟩

theorem fault_step {w : World} (h : w.fault.isSome = true) (x : Step) : step w x = w := by
  unfold step; rw [if_pos h]

theorem fault_foldl (l : List Step) : ∀ w : World, w.fault.isSome = true → l.foldl step w = w := by
  induction l with
  | nil => intro w _; rfl
  | cons x l ih => intro w h; rw [List.foldl_cons, fault_step h]; exact ih w h

theorem foldl_waits (l : List Step) : ∀ w, Top w → (∀ x ∈ l, x.noPoll) → ∀ {i j : Nat} {y : Slot} {c s : Nat},
    w.cursor = some j → j ≤ i → w.slots[i]? = some y → y.ready = true → y.ep = some (.conn c s) →
    ∃ new, (l.foldl step w).log = w.log ++ new ∧
      ((l.foldl step w).fault.isSome = true ∨ ((∃ p m, .message c p m ∈ new) ∨ .disconnect c ∈ new) ∨
        (l.foldl step w).cursor.isSome = true) := by
  induction l with
  | nil =>
    intro w _ _ i j y c s hcur _ _ _ _
    exact ⟨[], by simp, Or.inr (Or.inr (by simp [hcur]))⟩
  | cons x l ih =>
    intro w h hn i j y c s hcur hji hy hr hye
    obtain ⟨n1, h1, hcase⟩ := step_waits h x (hn x (by simp)) hcur hji hy hr hye
    rw [List.foldl_cons]
    rcases hcase with hf | hs | ⟨hs, k, hk, hki⟩
    · rw [fault_foldl l _ hf]
      exact ⟨n1, h1, Or.inl hf⟩
    · obtain ⟨n2, h2⟩ := foldl_log l _ (top_step h x)
      refine ⟨n1 ++ n2, by rw [h2, h1, List.append_assoc], Or.inr (Or.inl ?_)⟩
      rcases hs with ⟨p, m, hm⟩ | hm
      · exact Or.inl ⟨p, m, List.mem_append.mpr (Or.inl hm)⟩
      · exact Or.inr (List.mem_append.mpr (Or.inl hm))
    · obtain ⟨n2, h2, hc2⟩ := ih _ (top_step h x) (fun z hz => hn z (by simp [hz])) hk hki hs hr hye
      refine ⟨n1 ++ n2, by rw [h2, h1, List.append_assoc], ?_⟩
      rcases hc2 with hc2 | hc2 | hc2
      · exact Or.inl hc2
      · refine Or.inr (Or.inl ?_)
        rcases hc2 with ⟨p, m, hm⟩ | hm
        · exact Or.inl ⟨p, m, List.mem_append.mpr (Or.inr hm)⟩
        · exact Or.inr (List.mem_append.mpr (Or.inr hm))
      · exact Or.inr (Or.inr hc2)

end Verif.UnixServer
