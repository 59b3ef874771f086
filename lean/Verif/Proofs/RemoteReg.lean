import Verif.Proofs.EventNotif
namespace Verif.EventNotif

/-! ### Conversations -/

theorem talk_start (msgs : List Msg) (e n e' n' : Nat) :
    talk (.start e n :: msgs) e' n' = if e = e' ∧ n = n' then true :: talk msgs e' n' else talk msgs e' n' := by
  unfold talk
  rw [List.filterMap_cons]
  by_cases h : e = e' ∧ n = n' <;> simp [h]

theorem talk_stop (msgs : List Msg) (e n e' n' : Nat) (b : Bool) :
    talk (.stop e n b :: msgs) e' n' = if e = e' ∧ n = n' then false :: talk msgs e' n' else talk msgs e' n' := by
  unfold talk
  rw [List.filterMap_cons]
  by_cases h : e = e' ∧ n = n' <;> simp [h]

theorem alternates_start {l : List Bool} (h : Alternates l) (hn : l.head? ≠ some true) : Alternates (true :: l) := by
  cases l with
  | nil => rfl
  | cons b l =>
    refine ⟨?_, h⟩
    intro hb
    exact hn (by rw [List.head?_cons, ← hb])

theorem alternates_stop {l : List Bool} (h : Alternates l) (hn : l.head? = some true) : Alternates (false :: l) := by
  cases l with
  | nil => simp at hn
  | cons b l =>
    rw [List.head?_cons] at hn
    cases hn
    exact ⟨by decide, h⟩

/-! ### The invariant -/

/-- Number of proxies with a handler for the event that know this provider process. -/
def cnt (ev : Nat → Nat) (mgr : Nat → Mgr) (e n : Nat) : Nat :=
  count (fun p => decide (ev p = e ∧ (mgr p).reg ≠ none ∧ (mgr p).pid = n)) 65535

structure WInv (me : Nat) (ev : Nat → Nat) (w : World) : Prop where
  alive : w.inst.aborted = false
  sorted : ∀ e, Sorted ((w.inst.handlers e).getD [])
  below : ∀ e, Below ((w.inst.handlers e).getD []) w.inst.nextNo
  valid : ∀ p no, (w.mgr p).reg = some no → ∃ r ∈ (w.inst.handlers (ev p)).getD [], r.no = no
  dist : ∀ p q no, (w.mgr p).reg = some no → (w.mgr q).reg = some no → p = q
  far : ∀ p, 65535 ≤ p → (w.mgr p).reg = none
  noSelf : ∀ e, me ∉ w.used e
  curUsed : ∀ e, w.cur e ∈ w.used e
  pidUsed : ∀ p, (w.mgr p).pid ∈ w.used (ev p)
  remUsed : ∀ e m c, w.inst.remote e = some (m, c) → m ∈ w.used e
  talkUsed : ∀ e n, talk w.inst.msgs e n ≠ [] → n ∈ w.used e
  rem : ∀ e m c, w.inst.remote e = some (m, c) → 0 < c ∧ c = cnt ev w.mgr e m ∧ Told w.inst.msgs e m
  atCur : ∀ p, (w.mgr p).reg ≠ none → (w.mgr p).pid = w.cur (ev p) → ∃ c, w.inst.remote (ev p) = some (w.cur (ev p), c)
  notTold : ∀ e, (∀ c, w.inst.remote e ≠ some (w.cur e, c)) → ¬ Told w.inst.msgs e (w.cur e)
  alt : ∀ e n, Alternates (talk w.inst.msgs e n)

/-- If some proxy has a handler, the event is registered at some node. -/
def Strong (ev : Nat → Nat) (w : World) : Prop := ∀ p, (w.mgr p).reg ≠ none → w.inst.remote (ev p) ≠ none

theorem cnt_upd {ev : Nat → Nat} {mgr : Nat → Mgr} {p : Nat} (hp : p < 65535) (m : Mgr) (e n : Nat) :
    cnt ev (upd mgr p m) e n + (if ev p = e ∧ (mgr p).reg ≠ none ∧ (mgr p).pid = n then 1 else 0) =
      cnt ev mgr e n + (if ev p = e ∧ m.reg ≠ none ∧ m.pid = n then 1 else 0) := by
  have h := count_upd (p := fun q => decide (ev q = e ∧ (mgr q).reg ≠ none ∧ (mgr q).pid = n))
    (q := fun q => decide (ev q = e ∧ (upd mgr p m q).reg ≠ none ∧ (upd mgr p m q).pid = n)) hp
    (by intro j hj; simp only [upd_ne _ _ hj])
  simp only [upd_self, decide_eq_true_eq] at h
  exact h

theorem cnt_upd_other {ev : Nat → Nat} {mgr : Nat → Mgr} {p : Nat} (m : Mgr) {e n : Nat} (he : ev p ≠ e) :
    cnt ev (upd mgr p m) e n = cnt ev mgr e n := by
  refine count_congr (fun q _ => ?_)
  by_cases hq : q = p
  · subst hq; simp [he]
  · simp only [upd_ne _ _ hq]

theorem cnt_zero {self : Nat} {ev : Nat → Nat} {w : World} (h : WInv self ev w) {e : Nat}
    (hn : ∀ c, w.inst.remote e ≠ some (w.cur e, c)) : cnt ev w.mgr e (w.cur e) = 0 := by
  refine count_eq_zero.mpr (fun q _ => ?_)
  rw [decide_eq_false_iff_not]
  rintro ⟨rfl, h1, h2⟩
  obtain ⟨c, hc⟩ := h.atCur q h1 h2
  exact hn c hc

/-- A proxy registers (or re-registers) at the present provider. -/
theorem winv_attach {self : Nat} {ev : Nat → Nat} {w w' : World} {p no : Nat} (h : WInv self ev w) (hp : p < 65535)
    (hnc : ¬ ((w.mgr p).reg ≠ none ∧ (w.mgr p).pid = w.cur (ev p)))
    (hmgr : w'.mgr = upd w.mgr p { pid := w.cur (ev p), reg := some no }) (hcur : w'.cur = w.cur) (hused : w'.used = w.used)
    (hrem : (∃ c, w.inst.remote (ev p) = some (w.cur (ev p), c) ∧
          w'.inst.remote = upd w.inst.remote (ev p) (some (w.cur (ev p), (c + 1) % cntMod)) ∧ w'.inst.msgs = w.inst.msgs) ∨
      ((∀ c, w.inst.remote (ev p) ≠ some (w.cur (ev p), c)) ∧
          w'.inst.remote = upd w.inst.remote (ev p) (some (w.cur (ev p), 1)) ∧
          w'.inst.msgs = .start (ev p) (w.cur (ev p)) :: w.inst.msgs))
    (halive : w'.inst.aborted = false) (hsorted : ∀ e, Sorted ((w'.inst.handlers e).getD []))
    (hbelow : ∀ e, Below ((w'.inst.handlers e).getD []) w'.inst.nextNo)
    (hvalid : ∀ q k, (w'.mgr q).reg = some k → ∃ r ∈ (w'.inst.handlers (ev q)).getD [], r.no = k)
    (hdist : ∀ q q' k, (w'.mgr q).reg = some k → (w'.mgr q').reg = some k → q = q') :
    WInv self ev w' ∧ ∃ c, w'.inst.remote (ev p) = some (w.cur (ev p), c) := by
  have hmain : ∃ c, w'.inst.remote = upd w.inst.remote (ev p) (some (w.cur (ev p), c)) ∧ 0 < c ∧
      c = cnt ev w'.mgr (ev p) (w.cur (ev p)) ∧ Told w'.inst.msgs (ev p) (w.cur (ev p)) ∧
      (w'.inst.msgs = w.inst.msgs ∨
        (w'.inst.msgs = .start (ev p) (w.cur (ev p)) :: w.inst.msgs ∧ ¬ Told w.inst.msgs (ev p) (w.cur (ev p)))) := by
    have hc := cnt_upd (ev := ev) (mgr := w.mgr) hp { pid := w.cur (ev p), reg := some no } (ev p) (w.cur (ev p))
    rw [if_neg (by rintro ⟨_, h1⟩; exact hnc h1), if_pos ⟨rfl, by simp, rfl⟩] at hc
    rw [← hmgr] at hc
    rcases hrem with ⟨c, h1, h2, h3⟩ | ⟨h1, h2, h3⟩
    · obtain ⟨k1, k2, k3⟩ := h.rem _ _ _ h1
      have hle : cnt ev w'.mgr (ev p) (w.cur (ev p)) ≤ 65535 := count_le _ _
      have hmod : (c + 1) % cntMod = c + 1 := Nat.mod_eq_of_lt (by have : cntMod = 65536 := by decide
                                                                   omega)
      rw [hmod] at h2
      refine ⟨c + 1, h2, by omega, by omega, by rw [h3]; exact k3, .inl h3⟩
    · have hz := cnt_zero h h1
      refine ⟨1, h2, by omega, by omega, ?_, .inr ⟨h3, h.notTold _ h1⟩⟩
      unfold Told
      rw [h3, talk_start, if_pos ⟨rfl, rfl⟩]
      rfl
  obtain ⟨c, m1, m2, m3, m4, m5⟩ := hmain
  have htalk : ∀ e n, ¬ (ev p = e ∧ w.cur (ev p) = n) → talk w'.inst.msgs e n = talk w.inst.msgs e n := by
    intro e n hne
    rcases m5 with m5 | ⟨m5, _⟩
    · rw [m5]
    · rw [m5, talk_start, if_neg hne]
  refine ⟨⟨halive, hsorted, hbelow, hvalid, hdist, ?_, ?_, ?_, ?_, ?_, ?_, ?_, ?_, ?_, ?_⟩, c, by rw [m1, upd_self]⟩
  · intro q hq
    rw [hmgr, upd_ne _ _ (by omega)]
    exact h.far q hq
  · rw [hused]; exact h.noSelf
  · rw [hused, hcur]; exact h.curUsed
  · intro q
    rw [hused, hmgr, upd_apply]
    split
    · rename_i hq; subst hq; exact h.curUsed _
    · exact h.pidUsed q
  · intro e m k hk
    rw [hused]
    rw [m1, upd_apply] at hk
    split at hk
    · rename_i he; subst he; cases hk; exact h.curUsed _
    · exact h.remUsed e m k hk
  · intro e n hne
    rw [hused]
    by_cases hcase : ev p = e ∧ w.cur (ev p) = n
    · obtain ⟨rfl, rfl⟩ := hcase; exact h.curUsed _
    · rw [htalk e n hcase] at hne; exact h.talkUsed e n hne
  · intro e m k hk
    rw [m1, upd_apply] at hk
    split at hk
    · rename_i he; subst he; cases hk; exact ⟨m2, m3, m4⟩
    · rename_i he
      obtain ⟨k1, k2, k3⟩ := h.rem e m k hk
      refine ⟨k1, ?_, ?_⟩
      · rw [hmgr, cnt_upd_other _ (Ne.symm he)]; exact k2
      · unfold Told
        rw [htalk e m (fun hh => he hh.1.symm)]
        exact k3
  · intro q hq1 hq2
    rw [hcur] at hq2 ⊢
    rw [m1, upd_apply]
    split
    · rename_i he; rw [he]; exact ⟨c, rfl⟩
    · rename_i he
      have hqp : q ≠ p := by rintro rfl; exact he rfl
      rw [hmgr, upd_ne _ _ hqp] at hq1 hq2
      exact h.atCur q hq1 hq2
  · intro e he
    rw [hcur] at he ⊢
    by_cases hep : e = ev p
    · subst hep
      exact absurd (by rw [m1, upd_self]) (he c)
    · unfold Told
      rw [htalk e _ (fun hh => hep hh.1.symm)]
      refine h.notTold e (fun k => ?_)
      have := he k
      rwa [m1, upd_ne _ _ hep] at this
  · intro e n
    by_cases hcase : ev p = e ∧ w.cur (ev p) = n
    · obtain ⟨rfl, rfl⟩ := hcase
      rcases m5 with m5 | ⟨m5, m6⟩
      · rw [m5]; exact h.alt _ _
      · rw [m5, talk_start, if_pos ⟨rfl, rfl⟩]
        exact alternates_start (h.alt _ _) m6
    · rw [htalk e n hcase]; exact h.alt e n

/-- A proxy that has a handler unregisters it. -/
theorem winv_detach {self : Nat} {ev : Nat → Nat} {w : World} {p : Nat} {ready : Bool} (h : WInv self ev w)
    (hreg : (w.mgr p).reg ≠ none) :
    WInv self ev (mgrUnregister self ev w p ready) ∧
    (((mgrUnregister self ev w p ready).inst.remote = upd w.inst.remote (ev p) none ∧
        cnt ev w.mgr (ev p) (w.mgr p).pid = 1) ∨
      (w.inst.remote (ev p) ≠ none → (mgrUnregister self ev w p ready).inst.remote (ev p) ≠ none)) ∧
    (∀ e, e ≠ ev p → (mgrUnregister self ev w p ready).inst.remote e = w.inst.remote e) ∧
    (mgrUnregister self ev w p ready).mgr = upd w.mgr p { w.mgr p with reg := none } ∧
    (mgrUnregister self ev w p ready).cur = w.cur ∧
    (mgrUnregister self ev w p ready).inst.nextNo = w.inst.nextNo := by
  have hp : p < 65535 := by
    rcases Nat.lt_or_ge p 65535 with h1 | h1
    · exact h1
    · exact absurd (h.far p h1) hreg
  obtain ⟨no, hno⟩ := Option.ne_none_iff_exists'.mp hreg
  have hself : (w.mgr p).pid ≠ self := by
    intro hc; exact h.noSelf (ev p) (hc ▸ h.pidUsed p)
  obtain ⟨r, hr, hrno⟩ := h.valid p no hno
  -- the handler is found
  obtain ⟨l, hl⟩ : ∃ l, w.inst.handlers (ev p) = some l := by
    cases hh : w.inst.handlers (ev p) with
    | none => rw [hh] at hr; simp at hr
    | some l => exact ⟨l, rfl⟩
  have hsl := h.sorted (ev p)
  rw [hl, Option.getD_some] at hsl hr
  have her : eraseNo l no = some (l.filter (·.no != no)) := (eraseNo_spec hsl).1 ⟨r, hr, hrno⟩
  have hw' : mgrUnregister self ev w p ready =
      { w with
        inst := unregisterRemote { w.inst with handlers := upd w.inst.handlers (ev p) (some (l.filter (·.no != no))) }
          (ev p) (w.mgr p).pid ready
        mgr := upd w.mgr p { w.mgr p with reg := none } } := by
    unfold mgrUnregister
    rw [hno]
    simp only [unregister, hl, her, if_pos hself]
  have hh' : ∀ s : St, s.handlers = upd w.inst.handlers (ev p) (some (l.filter (·.no != no))) → s.nextNo = w.inst.nextNo →
      (∀ e, Sorted ((s.handlers e).getD [])) ∧ (∀ e, Below ((s.handlers e).getD []) s.nextNo) ∧
      (∀ q k, (upd w.mgr p { w.mgr p with reg := none } q).reg = some k → ∃ r ∈ (s.handlers (ev q)).getD [], r.no = k) := by
    intro s hs hn
    refine ⟨?_, ?_, ?_⟩
    · intro e
      rw [hs, upd_apply]
      split
      · exact sorted_filter hsl _
      · exact h.sorted e
    · intro e
      rw [hs, upd_apply, hn]
      split
      · intro x hx
        have := h.below (ev p) x (by rw [hl]; exact (List.mem_filter.mp hx).1)
        exact this
      · exact h.below e
    · intro q k hk
      rw [upd_apply] at hk
      split at hk
      · cases hk
      · rename_i hqp
        obtain ⟨x, hx, hxk⟩ := h.valid q k hk
        rw [hs, upd_apply]
        split
        · rename_i he
          refine ⟨x, ?_, hxk⟩
          rw [he, hl, Option.getD_some] at hx
          rw [Option.getD_some, List.mem_filter]
          refine ⟨hx, ?_⟩
          have : k ≠ no := by
            rintro rfl
            exact hqp (h.dist q p k hk hno)
          simpa [hxk] using this
        · exact ⟨x, hx, hxk⟩
  have hdist : ∀ q q' k, (upd w.mgr p { w.mgr p with reg := none } q).reg = some k →
      (upd w.mgr p { w.mgr p with reg := none } q').reg = some k → q = q' := by
    intro q q' k h1 h2
    rw [upd_apply] at h1 h2
    split at h1
    · cases h1
    · split at h2
      · cases h2
      · exact h.dist q q' k h1 h2
  have hfar : ∀ q, 65535 ≤ q → (upd w.mgr p { w.mgr p with reg := none } q).reg = none := by
    intro q hq; rw [upd_ne _ _ (by omega)]; exact h.far q hq
  have hpid : ∀ q, (upd w.mgr p { w.mgr p with reg := none } q).pid = (w.mgr q).pid := by
    intro q; rw [upd_apply]; split
    · rename_i hq; rw [hq]
    · rfl
  have hregSub : ∀ q, (upd w.mgr p { w.mgr p with reg := none } q).reg ≠ none → q ≠ p ∧ (w.mgr q).reg ≠ none := by
    intro q hq
    rw [upd_apply] at hq
    split at hq
    · exact absurd rfl hq
    · rename_i hqp; exact ⟨hqp, hq⟩
  have hcnt := fun e n => cnt_upd (ev := ev) (mgr := w.mgr) hp { w.mgr p with reg := none } e n
  have hcnt0 : ∀ e n, n ≠ (w.mgr p).pid → cnt ev (upd w.mgr p { w.mgr p with reg := none }) e n = cnt ev w.mgr e n := by
    intro e n hn
    have := hcnt e n
    rw [if_neg (fun hc => hn hc.2.2.symm), if_neg (fun hc => hc.2.1 rfl)] at this
    omega
  have hcnt1 : cnt ev (upd w.mgr p { w.mgr p with reg := none }) (ev p) (w.mgr p).pid + 1 = cnt ev w.mgr (ev p) (w.mgr p).pid := by
    have := hcnt (ev p) (w.mgr p).pid
    rw [if_pos ⟨rfl, hreg, rfl⟩, if_neg (fun hc => hc.2.1 rfl)] at this
    omega
  rw [hw']
  by_cases hcase : ∃ c, w.inst.remote (ev p) = some ((w.mgr p).pid, c)
  · obtain ⟨c, hc⟩ := hcase
    obtain ⟨k1, k2, k3⟩ := h.rem _ _ _ hc
    by_cases hc1 : c = 1
    · -- the last one
      subst hc1
      have hun : unregisterRemote { w.inst with handlers := upd w.inst.handlers (ev p) (some (l.filter (·.no != no))) }
          (ev p) (w.mgr p).pid ready =
          { w.inst with
            handlers := upd w.inst.handlers (ev p) (some (l.filter (·.no != no)))
            remote := upd w.inst.remote (ev p) none
            msgs := .stop (ev p) (w.mgr p).pid ready :: w.inst.msgs } := by
        simp [unregisterRemote, unregCount, hc]
      rw [hun]
      obtain ⟨g1, g2, g3⟩ := hh' { w.inst with
            handlers := upd w.inst.handlers (ev p) (some (l.filter (·.no != no)))
            remote := upd w.inst.remote (ev p) none
            msgs := .stop (ev p) (w.mgr p).pid ready :: w.inst.msgs } rfl rfl
      refine ⟨⟨h.alive, g1, g2, g3, hdist, hfar, h.noSelf, h.curUsed, ?_, ?_, ?_, ?_, ?_, ?_, ?_⟩, .inl ⟨rfl, by omega⟩, ?_, rfl, rfl, rfl⟩
      · intro q; dsimp only; rw [hpid]; exact h.pidUsed q
      · intro e m k hk
        dsimp only at hk
        rw [upd_apply] at hk
        split at hk
        · cases hk
        · exact h.remUsed e m k hk
      · intro e n hne
        dsimp only at hne
        rw [talk_stop] at hne
        split at hne
        · rename_i hh; obtain ⟨rfl, rfl⟩ := hh; exact h.pidUsed p
        · exact h.talkUsed e n hne
      · intro e m k hk
        dsimp only at hk ⊢
        rw [upd_apply] at hk
        split at hk
        · cases hk
        · rename_i he
          obtain ⟨j1, j2, j3⟩ := h.rem e m k hk
          refine ⟨j1, ?_, ?_⟩
          · rw [cnt_upd_other _ (Ne.symm he)]; exact j2
          · unfold Told
            rw [talk_stop, if_neg (fun hh => he hh.1.symm)]
            exact j3
      · intro q hq1 hq2
        dsimp only at hq1 hq2 ⊢
        rw [hpid] at hq2
        obtain ⟨hqp, hq1⟩ := hregSub q hq1
        obtain ⟨c', hc'⟩ := h.atCur q hq1 hq2
        rw [upd_apply]
        split
        · rename_i he
          exfalso
          rw [he] at hc' hq2
          rw [hc] at hc'
          injection hc' with hc'
          injection hc' with hc1 hc2
          have hpos : 0 < cnt ev (upd w.mgr p { w.mgr p with reg := none }) (ev p) (w.mgr p).pid := by
            have hqlt : q < 65535 := by
              rcases Nat.lt_or_ge q 65535 with h1 | h1
              · exact h1
              · exact absurd (h.far q h1) hq1
            refine count_pos hqlt ?_
            simp only [upd_ne _ _ hqp, decide_eq_true_eq]
            exact ⟨he, hq1, by rw [hq2, hc1]⟩
          omega
        · exact ⟨c', hc'⟩
      · intro e he
        dsimp only at he ⊢
        unfold Told
        rw [talk_stop]
        split
        · simp
        · rename_i hne
          refine h.notTold e (fun k hk => ?_)
          refine he k ?_
          rw [upd_apply, if_neg ?_]
          · exact hk
          · intro hee
            rw [hee] at hk
            rw [hc] at hk
            injection hk with hk
            injection hk with hk1 hk2
            exact hne ⟨hee.symm, by rw [hee]; exact hk1⟩
      · intro e n
        dsimp only
        rw [talk_stop]
        split
        · rename_i hh; obtain ⟨rfl, rfl⟩ := hh
          exact alternates_stop (h.alt _ _) k3
        · exact h.alt e n
      · intro e he
        dsimp only
        rw [upd_ne _ _ he]
    · -- not the last one
      have hun : unregisterRemote { w.inst with handlers := upd w.inst.handlers (ev p) (some (l.filter (·.no != no))) }
          (ev p) (w.mgr p).pid ready =
          { w.inst with
            handlers := upd w.inst.handlers (ev p) (some (l.filter (·.no != no)))
            remote := upd w.inst.remote (ev p) (some ((w.mgr p).pid, c - 1)) } := by
        simp [unregisterRemote, unregCount, hc, show c ≠ 0 by omega, show ¬ c - 1 = 0 by omega]
      rw [hun]
      obtain ⟨g1, g2, g3⟩ := hh' { w.inst with
            handlers := upd w.inst.handlers (ev p) (some (l.filter (·.no != no)))
            remote := upd w.inst.remote (ev p) (some ((w.mgr p).pid, c - 1)) } rfl rfl
      refine ⟨⟨h.alive, g1, g2, g3, hdist, hfar, h.noSelf, h.curUsed, ?_, ?_, h.talkUsed, ?_, ?_, ?_, h.alt⟩, .inr ?_, ?_, rfl, rfl,
        rfl⟩
      · intro q; dsimp only; rw [hpid]; exact h.pidUsed q
      · intro e m k hk
        dsimp only at hk
        rw [upd_apply] at hk
        split at hk
        · rename_i he; subst he; cases hk; exact h.pidUsed p
        · exact h.remUsed e m k hk
      · intro e m k hk
        dsimp only at hk ⊢
        rw [upd_apply] at hk
        split at hk
        · rename_i he
          injection hk with hk
          injection hk with hk1 hk2
          rw [he, ← hk1]
          dsimp only at hcnt1
          exact ⟨by omega, by omega, k3⟩
        · rename_i he
          obtain ⟨j1, j2, j3⟩ := h.rem e m k hk
          refine ⟨j1, ?_, j3⟩
          rw [cnt_upd_other _ (Ne.symm he)]; exact j2
      · intro q hq1 hq2
        dsimp only at hq1 hq2 ⊢
        rw [hpid] at hq2
        obtain ⟨hqp, hq1⟩ := hregSub q hq1
        obtain ⟨c', hc'⟩ := h.atCur q hq1 hq2
        rw [upd_apply]
        split
        · rename_i he
          rw [he] at hc'
          rw [hc] at hc'
          injection hc' with hc'
          injection hc' with hc1 hc2
          exact ⟨c - 1, by rw [he, hc1]⟩
        · exact ⟨c', hc'⟩
      · intro e he
        refine h.notTold e (fun k hk => ?_)
        have := he
        dsimp only at this
        by_cases hee : e = ev p
        · subst hee
          rw [hc] at hk
          injection hk with hk
          injection hk with hk1 hk2
          refine this (c - 1) ?_
          rw [upd_self, hk1]
        · refine this k ?_
          rw [upd_ne _ _ hee]; exact hk
      · intro _
        dsimp only
        rw [upd_self]; simp
      · intro e he
        dsimp only
        rw [upd_ne _ _ he]
  · -- registered elsewhere or nowhere
    have hun : unregisterRemote { w.inst with handlers := upd w.inst.handlers (ev p) (some (l.filter (·.no != no))) }
        (ev p) (w.mgr p).pid ready =
        { w.inst with handlers := upd w.inst.handlers (ev p) (some (l.filter (·.no != no))) } := by
      unfold unregisterRemote
      dsimp only
      cases hrm : w.inst.remote (ev p) with
      | none =>
        simp only [unregCount]
        have : upd w.inst.remote (ev p) none = w.inst.remote := by rw [← hrm, upd_same]
        rw [this]; rfl
      | some x =>
        obtain ⟨m, c⟩ := x
        have hm : m ≠ (w.mgr p).pid := fun hc => hcase ⟨c, by rw [hrm, hc]⟩
        have hc0 : c ≠ 0 := by have := (h.rem _ _ _ hrm).1; omega
        simp only [unregCount, if_neg hc0, if_pos hm]
        have : upd w.inst.remote (ev p) (some (m, c)) = w.inst.remote := by rw [← hrm, upd_same]
        rw [this]; rfl
    rw [hun]
    obtain ⟨g1, g2, g3⟩ := hh' { w.inst with handlers := upd w.inst.handlers (ev p) (some (l.filter (·.no != no))) } rfl rfl
    refine ⟨⟨h.alive, g1, g2, g3, hdist, hfar, h.noSelf, h.curUsed, ?_, h.remUsed, h.talkUsed, ?_, ?_, h.notTold, h.alt⟩,
      .inr (fun hh => hh), fun _ _ => rfl, rfl, rfl, rfl⟩
    · intro q; dsimp only; rw [hpid]; exact h.pidUsed q
    · intro e m k hk
      obtain ⟨j1, j2, j3⟩ := h.rem e m k hk
      refine ⟨j1, ?_, j3⟩
      dsimp only
      by_cases he : ev p = e
      · subst he
        rw [hcnt0 _ _ ?_]
        · exact j2
        · rintro rfl
          exact hcase ⟨k, hk⟩
      · rw [cnt_upd_other _ he]; exact j2
    · intro q hq1 hq2
      dsimp only at hq1 hq2 ⊢
      rw [hpid] at hq2
      obtain ⟨hqp, hq1⟩ := hregSub q hq1
      exact h.atCur q hq1 hq2

theorem regCount_cases (r : Option (Nat × Nat)) (n : Nat) (hpos : ∀ m c, r = some (m, c) → 0 < c ∧ c + 1 < cntMod) :
    (∃ c, r = some (n, c) ∧ regCount r n = (some (n, (c + 1) % cntMod), false)) ∨
    ((∀ c, r ≠ some (n, c)) ∧ regCount r n = (some (n, 1), true)) := by
  cases r with
  | none => exact .inr ⟨by simp, rfl⟩
  | some x =>
    obtain ⟨m, c⟩ := x
    by_cases hm : m = n
    · subst hm
      refine .inl ⟨c, rfl, ?_⟩
      obtain ⟨h1, h2⟩ := hpos m c rfl
      simp only [regCount, ne_eq, not_true, if_false]
      rw [Nat.mod_eq_of_lt h2]
      have : (c + 1 == 1) = false := by simp; omega
      rw [this]
    · refine .inr ⟨?_, ?_⟩
      · rintro c' hc; cases hc; exact hm rfl
      · simp [regCount, hm]

theorem reregCount_cases (r : Option (Nat × Nat)) (n : Nat) (hr : r ≠ none) :
    (∃ c, r = some (n, c) ∧ reregCount r n = (some (n, (c + 1) % cntMod), false)) ∨
    ((∀ c, r ≠ some (n, c)) ∧ reregCount r n = (some (n, 1), true)) := by
  cases r with
  | none => exact absurd rfl hr
  | some x =>
    obtain ⟨m, c⟩ := x
    by_cases hm : m = n
    · subst hm
      exact .inl ⟨c, rfl, by simp [reregCount]⟩
    · refine .inr ⟨?_, ?_⟩
      · rintro c' hc; cases hc; exact hm rfl
      · simp [reregCount, hm]

/-- The counter is far from its limit: the proxy in question is not counted yet, so at most 65534 are. -/
theorem cnt_room {ev : Nat → Nat} {mgr : Nat → Mgr} {p e n : Nat} (hp : p < 65535)
    (hnc : ¬ (ev p = e ∧ (mgr p).reg ≠ none ∧ (mgr p).pid = n)) (m : Mgr) (he : ev p = e) (hm : m.reg ≠ none ∧ m.pid = n) :
    cnt ev mgr e n + 1 < cntMod := by
  have h := cnt_upd (ev := ev) (mgr := mgr) hp m e n
  rw [if_neg hnc, if_pos ⟨he, hm⟩] at h
  have hle : cnt ev (upd mgr p m) e n ≤ 65535 := count_le _ _
  have : cntMod = 65536 := by decide
  omega

/-- The registration itself, by a proxy that knows the present provider and has no handler. -/
theorem winv_register {self : Nat} {ev : Nat → Nat} {w : World} {p hd : Nat} (h : WInv self ev w) (hp : p < 65535)
    (hreg : (w.mgr p).reg = none) (hpid : (w.mgr p).pid = w.cur (ev p)) (hno : w.inst.nextNo + 1 < noMod) :
    let r := register self w.inst (ev p) hd (w.mgr p).pid
    let w' := { w with inst := r.1, mgr := upd w.mgr p { w.mgr p with reg := some r.2 } }
    WInv self ev w' ∧ (∃ c, w'.inst.remote (ev p) = some (w.cur (ev p), c)) ∧
      (∀ e, e ≠ ev p → w'.inst.remote e = w.inst.remote e) ∧ w'.inst.nextNo = w.inst.nextNo + 1 := by
  intro r w'
  have hself : (w.mgr p).pid ≠ self := by
    intro hc; exact h.noSelf (ev p) (hc ▸ h.pidUsed p)
  have hh : w'.inst.handlers = upd w.inst.handlers (ev p)
      (some ((w.inst.handlers (ev p)).getD [] ++ [{ no := w.inst.nextNo, h := hd }])) := register_handlers _ _ _ _ _
  have hn : w'.inst.nextNo = w.inst.nextNo + 1 := by
    show (register self w.inst (ev p) hd (w.mgr p).pid).1.nextNo = _
    rw [register_nextNo, Nat.mod_eq_of_lt hno]
  have hr2 : r.2 = w.inst.nextNo := rfl
  have hrem : w'.inst.remote = upd w.inst.remote (ev p) (regCount (w.inst.remote (ev p)) (w.cur (ev p))).1 := by
    show (register self w.inst (ev p) hd (w.mgr p).pid).1.remote = _
    simp only [register, if_pos hself, registerRemote]; rw [hpid]
  have hmsg : w'.inst.msgs = if (regCount (w.inst.remote (ev p)) (w.cur (ev p))).2 then
      .start (ev p) (w.cur (ev p)) :: w.inst.msgs else w.inst.msgs := by
    show (register self w.inst (ev p) hd (w.mgr p).pid).1.msgs = _
    simp only [register, if_pos hself, registerRemote]; rw [hpid]
  have hal : w'.inst.aborted = false := by
    show (register self w.inst (ev p) hd (w.mgr p).pid).1.aborted = _
    simp only [register, if_pos hself, registerRemote]
    exact h.alive
  have hmgr : w'.mgr = upd w.mgr p { pid := w.cur (ev p), reg := some w.inst.nextNo } := by
    show upd w.mgr p { w.mgr p with reg := some r.2 } = _
    rw [hr2, ← hpid]
  have hcases : (∃ c, w.inst.remote (ev p) = some (w.cur (ev p), c) ∧
        w'.inst.remote = upd w.inst.remote (ev p) (some (w.cur (ev p), (c + 1) % cntMod)) ∧ w'.inst.msgs = w.inst.msgs) ∨
      ((∀ c, w.inst.remote (ev p) ≠ some (w.cur (ev p), c)) ∧
        w'.inst.remote = upd w.inst.remote (ev p) (some (w.cur (ev p), 1)) ∧
        w'.inst.msgs = .start (ev p) (w.cur (ev p)) :: w.inst.msgs) := by
    rw [hrem, hmsg]
    cases hrm : w.inst.remote (ev p) with
    | none => exact .inr ⟨by simp, rfl, rfl⟩
    | some x =>
      obtain ⟨m, c⟩ := x
      by_cases hm : m = w.cur (ev p)
      · subst hm
        obtain ⟨k1, k2, k3⟩ := h.rem _ _ _ hrm
        have hroom := cnt_room (ev := ev) (mgr := w.mgr) (e := ev p) (n := w.cur (ev p)) hp (fun hc => hc.2.1 hreg)
          { pid := w.cur (ev p), reg := some 0 } rfl ⟨by simp, rfl⟩
        rw [← k2] at hroom
        refine .inl ⟨c, rfl, ?_, ?_⟩
        · simp [regCount]
        · have hone : ((c + 1) % cntMod == 1) = false := by
            rw [Nat.mod_eq_of_lt hroom]; simp; omega
          simp only [regCount, ne_eq, not_true, if_false, hone, Bool.false_eq_true]
      · refine .inr ⟨?_, ?_, ?_⟩
        · rintro c' hc; cases hc; exact hm rfl
        · simp [regCount, hm]
        · simp [regCount, hm]
  have hat := winv_attach (w' := w') h hp (by rintro ⟨h1, _⟩; exact h1 hreg) hmgr rfl rfl hcases hal ?_ ?_ ?_ ?_
  · refine ⟨hat.1, hat.2, ?_, hn⟩
    intro e he
    rw [hrem, upd_ne _ _ he]
  · intro e
    rw [hh, upd_apply]
    split
    · exact sorted_snoc (h.sorted _) (h.below _)
    · exact h.sorted e
  · intro e
    rw [hh, hn, upd_apply]
    split
    · exact below_snoc (h.below _)
    · intro x hx; have := h.below e x hx; omega
  · intro q k hk
    rw [hmgr, upd_apply] at hk
    rw [hh, upd_apply]
    split at hk
    · rename_i hq
      injection hk with hk
      rw [hq, if_pos rfl]
      exact ⟨{ no := w.inst.nextNo, h := hd }, by simp, hk⟩
    · obtain ⟨x, hx, hxk⟩ := h.valid q k hk
      split
      · rename_i he
        refine ⟨x, ?_, hxk⟩
        rw [he] at hx
        simp [hx]
      · exact ⟨x, hx, hxk⟩
  · have hlt : ∀ q k, (w.mgr q).reg = some k → k < w.inst.nextNo := by
      intro q k hk
      obtain ⟨x, hx, hxk⟩ := h.valid q k hk
      have := h.below _ x hx
      omega
    intro q q' k h1 h2
    rw [hmgr, upd_apply] at h1 h2
    split at h1
    · split at h2
      · omega
      · injection h1 with h1
        have := hlt _ _ h2
        omega
    · split at h2
      · injection h2 with h2
        have := hlt _ _ h1
        omega
      · exact h.dist q q' k h1 h2

/-- Learning about the present provider, by a proxy without a handler. -/
theorem winv_pid {self : Nat} {ev : Nat → Nat} {w : World} {p : Nat} (h : WInv self ev w) (hreg : (w.mgr p).reg = none) :
    WInv self ev { w with mgr := upd w.mgr p { w.mgr p with pid := w.cur (ev p) } } := by
  have hr : ∀ q, (upd w.mgr p { w.mgr p with pid := w.cur (ev p) } q).reg = (w.mgr q).reg := by
    intro q; rw [upd_apply]; split
    · rename_i hq; rw [hq]
    · rfl
  have hne : ∀ q, (w.mgr q).reg ≠ none → upd w.mgr p { w.mgr p with pid := w.cur (ev p) } q = w.mgr q := by
    intro q hq
    rw [upd_ne]
    rintro rfl; exact hq hreg
  refine ⟨h.alive, h.sorted, h.below, ?_, ?_, ?_, h.noSelf, h.curUsed, ?_, h.remUsed, h.talkUsed, ?_, ?_, h.notTold, h.alt⟩
  · intro q k hk; dsimp only at hk; rw [hr] at hk; exact h.valid q k hk
  · intro q q' k h1 h2; dsimp only at h1 h2; rw [hr] at h1 h2; exact h.dist q q' k h1 h2
  · intro q hq; dsimp only; rw [hr]; exact h.far q hq
  · intro q
    dsimp only
    rw [upd_apply]
    split
    · rename_i hq; rw [hq]; exact h.curUsed _
    · exact h.pidUsed q
  · intro e m c hc
    obtain ⟨k1, k2, k3⟩ := h.rem e m c hc
    refine ⟨k1, ?_, k3⟩
    rw [k2]
    refine count_congr (fun q _ => ?_)
    by_cases hq : (w.mgr q).reg = none
    · simp [hr, hq]
    · simp only [hne q hq]
  · intro q h1 h2
    dsimp only at h1 h2
    rw [hr] at h1
    rw [hne q h1] at h2
    exact h.atCur q h1 h2

theorem mgrUnregister_none {self : Nat} {ev : Nat → Nat} {w : World} {p : Nat} {ready : Bool} (h : (w.mgr p).reg = none) :
    mgrUnregister self ev w p ready = w := by
  unfold mgrUnregister; rw [h]

/-- Setting a handler by a proxy that knows the present provider. -/
theorem inv_set {self : Nat} {ev : Nat → Nat} {w : World} {p hd : Nat} {ready : Bool} (h : WInv self ev w) (hs : Strong ev w)
    (hp : p < 65535) (hpid : (w.mgr p).pid = w.cur (ev p)) (hno : w.inst.nextNo + 1 < noMod) :
    WInv self ev (mgrRegister self ev w p hd ready) ∧ Strong ev (mgrRegister self ev w p hd ready) ∧
      (mgrRegister self ev w p hd ready).inst.nextNo = w.inst.nextNo + 1 := by
  have key : ∀ w1 : World, WInv self ev w1 → (w1.mgr p).reg = none → (w1.mgr p).pid = w1.cur (ev p) →
      w1.inst.nextNo = w.inst.nextNo → (∀ q, ev q ≠ ev p → (w1.mgr q).reg ≠ none → w1.inst.remote (ev q) ≠ none) →
      mgrUnregister self ev w p ready = w1 →
      WInv self ev (mgrRegister self ev w p hd ready) ∧ Strong ev (mgrRegister self ev w p hd ready) ∧
      (mgrRegister self ev w p hd ready).inst.nextNo = w.inst.nextNo + 1 := by
    intro w1 h1 hr1 hp1 hn1 hs1 hw1
    obtain ⟨a1, ⟨c, a2⟩, a3, a4⟩ := winv_register (hd := hd) h1 hp hr1 hp1 (by omega)
    unfold mgrRegister
    rw [hw1]
    refine ⟨a1, ?_, by rw [← hn1]; exact a4⟩
    intro q hq
    by_cases he : ev q = ev p
    · dsimp only at a2 ⊢
      rw [he, a2]; simp
    · dsimp only at a3 hq ⊢
      rw [a3 _ he]
      refine hs1 q he ?_
      rw [upd_ne] at hq
      · exact hq
      · rintro rfl; exact he rfl
  by_cases hr : (w.mgr p).reg = none
  · exact key w h hr hpid rfl (fun q _ hq => hs q hq) (mgrUnregister_none hr)
  · obtain ⟨b1, _, b3, b4, b5, b6⟩ := winv_detach (ready := ready) h hr
    refine key _ b1 (by rw [b4, upd_self]) (by rw [b4, upd_self, b5]; exact hpid) b6 ?_ rfl
    intro q hqe hq
    rw [b3 _ hqe]
    refine hs q ?_
    rw [b4, upd_apply] at hq
    split at hq
    · exact absurd rfl hq
    · exact hq

theorem inv_unset {self : Nat} {ev : Nat → Nat} {w : World} {p : Nat} {ready : Bool} (h : WInv self ev w) (hs : Strong ev w)
    (hall : ∀ q, ev q = ev p → w.HasHandler q → (w.mgr q).pid = (w.mgr p).pid) :
    WInv self ev (mgrUnregister self ev w p ready) ∧ Strong ev (mgrUnregister self ev w p ready) ∧
      (mgrUnregister self ev w p ready).inst.nextNo = w.inst.nextNo := by
  by_cases hr : (w.mgr p).reg = none
  · rw [mgrUnregister_none hr]; exact ⟨h, hs, rfl⟩
  · obtain ⟨b1, b2, b3, b4, b5, b6⟩ := winv_detach (ready := ready) h hr
    refine ⟨b1, ?_, b6⟩
    intro q hq
    have hqp : q ≠ p := by
      rintro rfl
      rw [b4, upd_self] at hq
      exact hq rfl
    rw [b4, upd_ne _ _ hqp] at hq
    by_cases he : ev q = ev p
    · rcases b2 with ⟨_, b2⟩ | b2
      · exfalso
        have hcnt := cnt_upd (ev := ev) (mgr := w.mgr) (p := p)
          (by rcases Nat.lt_or_ge p 65535 with h1 | h1; exact h1; exact absurd (h.far p h1) hr)
          { w.mgr p with reg := none } (ev p) (w.mgr p).pid
        rw [if_pos ⟨rfl, hr, rfl⟩, if_neg (fun hc => hc.2.1 rfl)] at hcnt
        have hpos : 0 < cnt ev (upd w.mgr p { w.mgr p with reg := none }) (ev p) (w.mgr p).pid := by
          refine count_pos (c := q) (by rcases Nat.lt_or_ge q 65535 with h1 | h1; exact h1; exact absurd (h.far q h1) hq) ?_
          simp only [upd_ne _ _ hqp, decide_eq_true_eq]
          exact ⟨he, hq, hall q he hq⟩
        omega
      · rw [he]
        refine b2 ?_
        rw [← he]; exact hs q hq
    · rw [b3 _ he]; exact hs q hq

theorem inv_reoffer {self : Nat} {ev : Nat → Nat} {w : World} {p : Nat} {newH : Option Nat} {ready : Bool} (h : WInv self ev w)
    (hs : Strong ev w) (hp : p < 65535) (hpid : (w.mgr p).pid ≠ w.cur (ev p)) (hnew : newH = none ∨ ¬ w.HasHandler p)
    (hno : w.inst.nextNo + 1 < noMod) :
    WInv self ev (mgrReoffer self ev w p newH ready) ∧ Strong ev (mgrReoffer self ev w p newH ready) ∧
      (mgrReoffer self ev w p newH ready).inst.nextNo ≤ w.inst.nextNo + 1 := by
  by_cases hr : (w.mgr p).reg = none
  · have h1 := winv_pid h hr
    have hs1 : Strong ev { w with mgr := upd w.mgr p { w.mgr p with pid := w.cur (ev p) } } := by
      intro q hq
      dsimp only at hq ⊢
      rw [upd_apply] at hq
      split at hq
      · exact absurd hr hq
      · exact hs q hq
    cases newH with
    | some hd =>
      obtain ⟨c1, c2, c3⟩ := inv_set (hd := hd) (ready := ready) h1 hs1 hp (by dsimp only; rw [upd_self]) hno
      exact ⟨c1, c2, Nat.le_of_eq c3⟩
    | none =>
      have : mgrReoffer self ev w p none ready = { w with mgr := upd w.mgr p { w.mgr p with pid := w.cur (ev p) } } := by
        simp only [mgrReoffer, upd_self, hr]
      rw [this]
      exact ⟨h1, hs1, Nat.le_succ _⟩
  · have hnn : newH = none := by
      rcases hnew with h1 | h1
      · exact h1
      · exact absurd hr h1
    subst hnn
    obtain ⟨no, hno'⟩ := Option.ne_none_iff_exists'.mp hr
    have hself : w.cur (ev p) ≠ self := by
      intro hc; exact h.noSelf (ev p) (hc ▸ h.curUsed _)
    obtain ⟨r, hrm, hrno⟩ := h.valid p no hno'
    obtain ⟨l, hl⟩ : ∃ l, w.inst.handlers (ev p) = some l := by
      cases hh : w.inst.handlers (ev p) with
      | none => rw [hh] at hrm; simp at hrm
      | some l => exact ⟨l, rfl⟩
    have hw' : mgrReoffer self ev w p none ready =
        { w with
          mgr := upd w.mgr p { w.mgr p with pid := w.cur (ev p) }
          inst := { w.inst with
            remote := upd w.inst.remote (ev p) (reregCount (w.inst.remote (ev p)) (w.cur (ev p))).1
            msgs := if (reregCount (w.inst.remote (ev p)) (w.cur (ev p))).2 then .start (ev p) (w.cur (ev p)) :: w.inst.msgs
              else w.inst.msgs } } := by
      simp only [mgrReoffer, upd_self, hno', reregister, hl, if_pos hself]
    have hat := winv_attach (w := w) (w' := mgrReoffer self ev w p none ready) (no := no) h hp
      (by rintro ⟨_, h2⟩; exact hpid h2) (by rw [hw']; dsimp only; rw [hno']) (by rw [hw']) (by rw [hw']) ?_ (by rw [hw']; exact h.alive)
      (by rw [hw']; exact h.sorted) (by rw [hw']; exact h.below) ?_ ?_
    · refine ⟨hat.1, ?_, by rw [hw']; exact Nat.le_succ _⟩
      intro q hq
      by_cases he : ev q = ev p
      · obtain ⟨c, hc⟩ := hat.2
        rw [he, hc]; simp
      · rw [hw'] at hq ⊢
        dsimp only at hq ⊢
        rw [upd_ne _ _ he]
        rw [upd_ne _ _ (by rintro rfl; exact he rfl)] at hq
        exact hs q hq
    · rw [hw']
      dsimp only
      rcases reregCount_cases (w.inst.remote (ev p)) (w.cur (ev p)) (hs p hr) with ⟨c, h1, h2⟩ | ⟨h1, h2⟩
      · exact .inl ⟨c, h1, by rw [h2], by rw [h2]; simp⟩
      · exact .inr ⟨h1, by rw [h2], by rw [h2]; simp⟩
    · intro q k hk
      rw [hw'] at hk ⊢
      dsimp only at hk ⊢
      rw [upd_apply] at hk
      split at hk
      · rename_i hq; subst hq; exact h.valid _ k hk
      · exact h.valid q k hk
    · intro q q' k h1 h2
      rw [hw'] at h1 h2
      dsimp only at h1 h2
      rw [upd_apply] at h1 h2
      split at h1
      · rename_i hq; subst hq
        split at h2
        · rename_i hq'; exact hq'.symm
        · exact h.dist _ q' k h1 h2
      · split at h2
        · rename_i hq'; subst hq'
          exact h.dist q _ k h1 h2
        · exact h.dist q q' k h1 h2

theorem inv_restart {self : Nat} {ev : Nat → Nat} {w : World} {e n : Nat} (h : WInv self ev w) (hfresh : n ∉ w.used e)
    (hself : n ≠ self) : WInv self ev { w with cur := upd w.cur e n, used := upd w.used e (n :: w.used e) } := by
  have hsub : ∀ e' x, x ∈ w.used e' → x ∈ upd w.used e (n :: w.used e) e' := by
    intro e' x hx
    rw [upd_apply]
    split
    · rename_i he; subst he; exact List.mem_cons_of_mem _ hx
    · exact hx
  refine ⟨h.alive, h.sorted, h.below, h.valid, h.dist, h.far, ?_, ?_, ?_, ?_, ?_, h.rem, ?_, ?_, h.alt⟩
  · intro e' hc
    dsimp only at hc
    rw [upd_apply] at hc
    split at hc
    · rcases List.mem_cons.mp hc with h1 | h1
      · exact hself h1.symm
      · exact h.noSelf e h1
    · exact h.noSelf e' hc
  · intro e'
    dsimp only
    rw [upd_apply]
    split
    · rename_i he; rw [he, upd_self]; simp
    · rename_i he; rw [upd_ne _ _ he]; exact h.curUsed e'
  · intro p; exact hsub _ _ (h.pidUsed p)
  · intro e' m c hc; exact hsub _ _ (h.remUsed e' m c hc)
  · intro e' x hx; exact hsub _ _ (h.talkUsed e' x hx)
  · intro p h1 h2
    dsimp only at h2 ⊢
    rw [upd_apply] at h2 ⊢
    split at h2
    · rename_i he
      exfalso
      refine hfresh ?_
      rw [← h2, ← he]
      exact h.pidUsed p
    · rename_i he
      rw [if_neg he]
      exact h.atCur p h1 h2
  · intro e' he'
    dsimp only at he' ⊢
    rw [upd_apply] at he' ⊢
    split
    · rename_i he
      subst he
      intro ht
      refine hfresh (h.talkUsed _ n ?_)
      intro hnil
      unfold Told at ht
      rw [hnil] at ht
      simp at ht
    · rename_i he
      rw [if_neg he] at he'
      exact h.notTold e' he'

theorem inv_wstep {self : Nat} {ev : Nat → Nat} {w : World} {o : WOp} (h : WInv self ev w) (hs : Strong ev w)
    (ho : Orderly self ev w o) (hno : w.inst.nextNo + 1 < noMod) :
    WInv self ev (wstep self ev w o) ∧ Strong ev (wstep self ev w o) ∧
      (wstep self ev w o).inst.nextNo ≤ w.inst.nextNo + 1 := by
  cases o with
  | set p hd ready =>
    obtain ⟨h1, h2, h3⟩ := inv_set (hd := hd) (ready := ready) h hs ho.1 ho.2 hno
    exact ⟨h1, h2, Nat.le_of_eq h3⟩
  | unset p ready =>
    obtain ⟨h1, h2, h3⟩ := inv_unset (ready := ready) h hs ho.2
    exact ⟨h1, h2, by simp only [wstep]; omega⟩
  | reoffer p newH ready => exact inv_reoffer h hs ho.1 ho.2.1 ho.2.2 hno
  | restart e n => exact ⟨inv_restart h ho.1 ho.2, hs, Nat.le_succ _⟩

theorem inv_wrun {self : Nat} {ev : Nat → Nat} {ops : List WOp} : ∀ {w : World}, WInv self ev w → Strong ev w →
    OrderlyRun self ev w ops → w.inst.nextNo + ops.length < noMod →
    WInv self ev (wrun self ev w ops) ∧ Strong ev (wrun self ev w ops) := by
  induction ops with
  | nil => intro w h hs _ _; exact ⟨h, hs⟩
  | cons o os ih =>
    intro w h hs ho hn
    rw [List.length_cons] at hn
    obtain ⟨h1, h2, h3⟩ := inv_wstep h hs ho.1 (by omega)
    exact ih h1 h2 ho.2 (by omega)

theorem winv_init {self : Nat} {ev pid0 : Nat → Nat} (hself : ∀ e, pid0 e ≠ self) : WInv self ev (World.init ev pid0) := by
  refine ⟨rfl, fun _ => List.Pairwise.nil, ?_, ?_, ?_, fun _ _ => rfl, ?_, ?_, ?_, ?_, ?_, ?_, ?_, ?_, ?_⟩
  · intro e r hr; simp [World.init, init] at hr
  · intro p no h; simp [World.init] at h
  · intro p q no h; simp [World.init] at h
  · intro e h; simp only [World.init, List.mem_singleton] at h; exact hself e h.symm
  · intro e; simp [World.init]
  · intro p; simp [World.init]
  · intro e m c h; simp [World.init, init] at h
  · intro e n h; simp [World.init, init, talk] at h
  · intro e m c h; simp [World.init, init] at h
  · intro p h; simp [World.init] at h
  · intro e _ h; simp [World.init, init, talk, Told] at h
  · intro e n; simp [World.init, init, talk, Alternates]

theorem strong_init {ev pid0 : Nat → Nat} : Strong ev (World.init ev pid0) := by
  intro p h; simp [World.init] at h

/-- The present provider has been told to notify iff some proxy that knows it has a handler. -/
theorem told_iff {self : Nat} {ev : Nat → Nat} {w : World} (h : WInv self ev w) (e : Nat) :
    Told w.inst.msgs e (w.cur e) ↔ ∃ p, ev p = e ∧ w.HasHandler p ∧ (w.mgr p).pid = w.cur e := by
  constructor
  · intro ht
    by_cases hr : ∃ c, w.inst.remote e = some (w.cur e, c)
    · obtain ⟨c, hc⟩ := hr
      obtain ⟨k1, k2, _⟩ := h.rem e _ c hc
      rw [k2] at k1
      apply Classical.byContradiction
      intro hno
      have hz : cnt ev w.mgr e (w.cur e) = 0 := by
        refine count_eq_zero.mpr (fun q _ => ?_)
        rw [decide_eq_false_iff_not]
        intro hq
        exact hno ⟨q, hq⟩
      omega
    · exact absurd ht (h.notTold e (fun c hc => hr ⟨c, hc⟩))
  · rintro ⟨p, rfl, h1, h2⟩
    obtain ⟨c, hc⟩ := h.atCur p h1 h2
    exact (h.rem _ _ _ hc).2.2

theorem mgrUnregister_frame (self : Nat) (ev : Nat → Nat) (w : World) (p : Nat) (ready : Bool) :
    (∀ q, ((mgrUnregister self ev w p ready).mgr q).pid = (w.mgr q).pid) ∧ (mgrUnregister self ev w p ready).cur = w.cur := by
  unfold mgrUnregister
  split
  · exact ⟨fun _ => rfl, rfl⟩
  · refine ⟨fun q => ?_, rfl⟩
    dsimp only
    rw [upd_apply]
    split
    · rename_i hq; rw [hq]
    · rfl

/-- As long as no provider process changes, setting and unsetting handlers is orderly. -/
theorem orderly_of_steady {self : Nat} {ev pid0 : Nat → Nat} {w : World} (ops : List WOp)
    (hpid : ∀ p, (w.mgr p).pid = pid0 (ev p)) (hcur : w.cur = pid0)
    (hops : ∀ o ∈ ops, (∃ p h ready, o = .set p h ready ∧ p < 65535) ∨ (∃ p ready, o = .unset p ready ∧ p < 65535)) :
    OrderlyRun self ev w ops ∧ (∀ p, ((wrun self ev w ops).mgr p).pid = pid0 (ev p)) ∧ (wrun self ev w ops).cur = pid0 := by
  induction ops generalizing w with
  | nil => exact ⟨trivial, hpid, hcur⟩
  | cons o os ih =>
    have hrest : ∀ o' ∈ os, (∃ p h ready, o' = .set p h ready ∧ p < 65535) ∨ (∃ p ready, o' = .unset p ready ∧ p < 65535) :=
      fun o' ho' => hops o' (List.mem_cons_of_mem _ ho')
    rcases hops o (by simp) with ⟨p, h, ready, rfl, hp⟩ | ⟨p, ready, rfl, hp⟩
    · obtain ⟨f1, f2⟩ := mgrUnregister_frame self ev w p ready
      have := ih (w := mgrRegister self ev w p h ready) ?_ ?_ hrest
      · exact ⟨⟨⟨hp, by rw [hpid, hcur]⟩, this.1⟩, this.2⟩
      · intro q
        simp only [mgrRegister]
        rw [upd_apply]
        split
        · rename_i hq; dsimp only; rw [hq, f1]; exact hpid p
        · rw [f1]; exact hpid q
      · simp only [mgrRegister]; rw [f2]; exact hcur
    · obtain ⟨f1, f2⟩ := mgrUnregister_frame self ev w p ready
      have := ih (w := mgrUnregister self ev w p ready) (fun q => by rw [f1]; exact hpid q) (by rw [f2]; exact hcur) hrest
      refine ⟨⟨⟨hp, fun q hq _ => by rw [hpid, hpid, hq]⟩, this.1⟩, this.2⟩

end Verif.EventNotif
