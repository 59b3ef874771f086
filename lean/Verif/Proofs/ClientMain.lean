import Verif.Proofs.ClientTot
/-! Callbacks, order and capacity (client connection model). -/
namespace Verif.Client

structure M (T : Nat) (s : St) : Prop where
  zero : ∀ r, s.next ≤ r → tot s T r = 0
  one : ∀ r, r < s.next → s.kind r ≠ .plain → tot s T r = if s.ret r = some false then 0 else 1

theorem M_step {cfg : Cfg} {T : Nat} {s : St} {op : Op} (hk : K T s) (hL : L T s) (h : M T s) (hc : Calm T s op) :
    M T (step cfg T s op) := by
  have old : ∀ r, r < s.next → (step cfg T s op).kind r ≠ .plain →
      tot (step cfg T s op) T r = if (step cfg T s op).ret r = some false then 0 else 1 := by
    intro r hr hp
    by_cases hp' : s.kind r = .plain
    · exfalso
      apply hp
      -- the kind of an old call does not change
      rcases step_le cfg T s op r with ⟨-, -⟩ | ⟨⟨t, k, -, -, e⟩, -, -⟩
      · rw [← hp']
        by_cases hcall : ∃ t k, op = .call t k
        · obtain ⟨t, k, rfl⟩ := hcall
          unfold step
          split
          · rfl
          · dsimp only; split
            · exact upd_ne _ _ (by omega)
            · rfl
        · exact congrFun (step_kind cfg T s op (fun t k e => hcall ⟨t, k, e⟩)) r
      · rw [e]; dsimp only; rw [upd_ne _ _ (by omega)]; exact hp'
    · have h1 := h.one r hr hp'
      rcases (step_tot (cfg := cfg) hk hL hc r hr hp').2 with ⟨h2, h3⟩ | ⟨b, h2, h3, h4⟩
      · rw [h3, h2, h1]
      · rw [h3]
        rw [h2] at h1
        simp at h1
        cases b <;> simp at h4 ⊢ <;> omega
  constructor
  · intro r hr
    rcases step_le cfg T s op r with ⟨h1, h2⟩ | ⟨-, h2, h1⟩
    · have := h.zero r (by omega); omega
    · have := h.zero r (by omega)
      rw [if_neg (by omega)] at h1; omega
  · intro r hr hp
    by_cases hlt : r < s.next
    · exact old r hlt hp
    · rcases step_le cfg T s op r with ⟨h1, h2⟩ | ⟨⟨t, k, ht, hi, e⟩, h2, h1⟩
      · omega
      · have hr' : r = s.next := by omega
        subst hr'
        rw [e] at hp ⊢
        simp at hp
        have h0 := h.zero s.next (Nat.le_refl _)
        have hf := hL.fresh s.next (Nat.le_refl _)
        have h3 := userH_upd s.uth T s.next t (.checked s.next k) ht
        rw [hi] at h3
        simp [isChecked, hp] at h3
        simp only [tot, held, hf, h3] at h0 ⊢
        rw [if_neg (by simp)]
        omega

theorem M_init (cfg : Cfg) (T : Nat) : M T (init cfg) := by
  refine ⟨fun r _ => (tot_le_one cfg T [] r).2 (Nat.zero_le _), fun r h => ?_⟩
  exact absurd h (Nat.not_lt_zero _)

/-- What callbacks are called with. -/
def GotOk (s : St) : Prop := ∀ r, ∀ x ∈ s.got r, x = .err ∨ x = .reply r

theorem callback_got {s : St} {c : Option Nat} {res : Res} (h : GotOk s) (hc : ∀ r, c = some r → res = .err ∨ res = .reply r) :
    GotOk (callback s c res) := by
  unfold callback
  split
  · exact h
  · rename_i q
    intro r x hx
    simp only [upd] at hx
    split at hx
    · rename_i e; subst e
      rcases List.mem_append.mp hx with hx | hx
      · exact h r x hx
      · simp at hx; subst hx; exact hc r rfl
    · exact h r x hx

theorem step_got (cfg : Cfg) (T : Nat) (s : St) (op : Op) (hop : op ≠ .engCall) : (step cfg T s op).got = s.got := by
  have hl : ∀ (s : St) c, (loopHead s c).got = s.got := by simp
  have htr : ∀ (s : St) id req ok, (transmit s id req ok).1.got = s.got := by
    intro s id req ok; unfold transmit; split <;> rfl
  have htq : ∀ {s s' : St} {id req}, tryQueue s id req = some s' → s'.got = s.got := by
    intro s s' id req h; obtain ⟨-, rfl⟩ := tryQueue_eq h; rfl
  unfold step
  split
  · rfl
  cases op <;> dsimp only
  case engCall => exact (hop rfl).elim
  case enter t ok =>
    split
    · split
      · unfold enterPlain
        repeat' split
        all_goals first | rfl | exact htr _ _ _ _ | (rename_i hs; have := htq hs; exact this)
      · unfold enterCb
        repeat' split
        all_goals first | rfl | exact htr _ _ _ _ | (rename_i hs; have := htq hs; exact this)
      · unfold enterWait
        repeat' split
        all_goals first | rfl | exact htr _ _ _ _ | (rename_i hs; have := htq hs; exact this)
      · rfl
    · rfl
  case relock t =>
    split
    · split
      · unfold relock; split
        · rfl
        · split <;> rfl
      · rfl
    · rfl
  all_goals repeat' split
  all_goals first | rfl | exact hl _ _ | exact htr _ _ _ _

theorem got_step {cfg : Cfg} {T : Nat} {s : St} {op : Op} (hk : K T s) (h : GotOk s) : GotOk (step cfg T s op) := by
  by_cases hop : op = .engCall
  · subst hop
    have he := hk.eng
    unfold step
    rw [if_neg (by simp [hk.alive])]
    dsimp only
    split
    · rename_i cb c hm
      exact callback_got h (fun _ _ => .inl rfl)
    · rename_i cb res hm
      unfold engOk at he
      rw [hm] at he
      obtain ⟨⟨q, h1, h2⟩, -⟩ := he
      refine callback_got h (fun r hr => ?_)
      rw [h1] at hr; injection hr with hr; subst hr
      exact .inr h2
    · rename_i r hm
      exact callback_got (c := some r) h (fun _ _ => .inl rfl)
    · exact h
  · intro r x hx
    rw [step_got cfg T s op hop] at hx
    exact h r x hx

/-- Everything on the wire, then what is being transmitted, then the queue, in the order of admission. -/
def ids (q : List Item) : List Nat := q.map Item.id

structure Ord (T : Nat) (s : St) : Prop where
  base : (s.wire ++ ids s.queue).Sublist s.order
  eng : ∀ m c, s.eng = .xmit m c → (s.wire ++ m.id :: ids s.queue).Sublist s.order
  thr : ∀ t < T, ∀ id, s.uth t = .sending id → (s.wire ++ id :: ids s.queue).Sublist s.order

theorem NF_sending {uth : Nat → U} {T t id : Nat} (h : NF uth T) (ht : t < T) : uth t ≠ .sending id := by
  intro e
  have := h t ht id
  simp [e, inFlight] at this

theorem Ord_congr {T : Nat} {s s' : St} (h : Ord T s) (e1 : s'.wire = s.wire) (e2 : s'.queue = s.queue) (e3 : s'.order = s.order)
    (e4 : ∀ m c, s'.eng = .xmit m c → s.eng = .xmit m c) (e5 : ∀ t < T, ∀ id, s'.uth t = .sending id → s.uth t = .sending id) :
    Ord T s' := by
  refine ⟨?_, ?_, ?_⟩
  · rw [e1, e2, e3]; exact h.base
  · intro m c hm; rw [e1, e2, e3]; exact h.eng m c (e4 m c hm)
  · intro t ht id hu; rw [e1, e2, e3]; exact h.thr t ht id (e5 t ht id hu)

theorem upd_sending {uth : Nat → U} {t t' id : Nat} {u : U} (hu : ∀ i, u ≠ .sending i) (h : upd uth t u t' = .sending id) :
    uth t' = .sending id := by
  simp only [upd] at h; split at h
  · exact (hu _ h).elim
  · exact h

theorem Ord_queued {T id : Nat} {req : Bool} {s s' : St} (h : Ord T s) (hs : tryQueue s id req = some s') : Ord T s' := by
  obtain ⟨-, rfl⟩ := tryQueue_eq hs
  refine ⟨?_, ?_, ?_⟩
  · have := h.base.append (List.Sublist.refl [id])
    simpa [ids] using this
  · intro m c hm
    have := (h.eng m c hm).append (List.Sublist.refl [id])
    simpa [ids] using this
  · intro t ht i hu
    have := (h.thr t ht i hu).append (List.Sublist.refl [id])
    simpa [ids] using this

theorem Ord_loop {T : Nat} {s : St} {c : Cont} (hb : (s.wire ++ ids s.queue).Sublist s.order) (hn : NF s.uth T) : Ord T (loopHead s c) := by
  unfold loopHead
  split
  · split
    · exact ⟨hb, by simp, fun t ht id hu => (NF_sending hn ht hu).elim⟩
    · exact ⟨hb, by simp, fun t ht id hu => (NF_sending hn ht hu).elim⟩
  · rename_i m q hq
    rw [hq] at hb
    refine ⟨?_, ?_, fun t ht id hu => (NF_sending hn ht hu).elim⟩
    · refine List.Sublist.trans ?_ hb
      exact (List.Sublist.refl _).append (by simp [ids])
    · intro m' c' hm
      dsimp only at hm ⊢
      injection hm with h1 h2; subst h1
      simpa [ids] using hb

/-- A direct transmission. -/
theorem Ord_direct {T t id : Nat} {req ok : Bool} {s s' : St} (h : Ord T s) (hq : s.queue = [])
    (he : ∀ m c, s.eng ≠ .xmit m c) (hn : NF s.uth T)
    (e1 : s'.wire = (transmit s id req ok).1.wire) (e2 : s'.queue = s.queue) (e3 : s'.order = s.order ++ [id])
    (e4 : s'.eng = s.eng) (e5 : s'.uth = upd s.uth t .idle) : Ord T s' := by
  refine ⟨?_, ?_, ?_⟩
  · rw [e1, e2, e3, (transmit_fields s id req ok).2.2.2.2.2.2.2.1, hq]
    have hb := h.base
    rw [hq] at hb
    simp only [ids, List.map_nil, List.append_nil] at hb ⊢
    split
    · exact hb.append (List.Sublist.refl _)
    · exact hb.trans (List.sublist_append_left _ _)
  · intro m c hm; rw [e4] at hm; exact (he m c hm).elim
  · intro t' ht' i hu
    rw [e5] at hu
    exact (NF_sending hn ht' (upd_sending (by simp) hu)).elim

theorem Ord_step {cfg : Cfg} {T : Nat} {s : St} {op : Op} (ho : cfg.ordered = true ∨ cfg.async = true) (hk : K T s) (h : Ord T s)
    (hc : Calm T s op) : Ord T (step cfg T s op) := by
  have he := hk.eng
  unfold step
  rw [if_neg (by simp [hk.alive])]
  have user : ∀ {t : Nat} {u : U} {s' : St}, (∀ i, u ≠ .sending i) → s'.uth = upd s.uth t u → s'.wire = s.wire → s'.queue = s.queue →
      s'.order = s.order → s'.eng = s.eng → Ord T s' := by
    intro t u s' hu e1 e2 e3 e4 e5
    refine Ord_congr h e2 e3 e4 (fun m c hm => by rw [← e5]; exact hm) (fun t' ht' id hh => ?_)
    rw [e1] at hh
    exact upd_sending hu hh
  have notxmit : ∀ (s : St), (s.eng = .idle ∨ ∃ cb res, s.eng = .deliver cb res ∧ contOk (some (cb, res))) → ∀ m c, s.eng ≠ .xmit m c := by
    rintro s (h | ⟨_, _, h, -⟩) m c e <;> rw [h] at e <;> cases e
  cases op <;> dsimp only
  case call t k =>
    split
    · exact user (t := t) (u := .checked s.next k) (by simp) rfl rfl rfl rfl rfl
    · exact h
  case enter t ok =>
    split
    · rename_i ht
      have arm' : ∀ {id req s'}, tryQueue s id req = some s' → Ord T (ret (arm s') t id true) := by
        intro id req s' hs
        refine Ord_congr (Ord_queued h hs) rfl rfl rfl (fun _ _ hm => hm) (fun t' ht' i hh => ?_)
        exact upd_sending (by simp) hh
      have que' : ∀ {id req s'}, tryQueue s id req = some s' → Ord T (ret s' t id true) := by
        intro id req s' hs
        refine Ord_congr (Ord_queued h hs) rfl rfl rfl (fun _ _ hm => hm) (fun t' ht' i hh => ?_)
        exact upd_sending (by simp) hh
      split
      · rename_i id hu
        unfold enterPlain
        split
        · rename_i hh; rw [hh.1, hh.2] at ho; simp at ho
        · split
          · rename_i hw
            obtain ⟨h1, h2, h3, h4, h5⟩ := engOk_none he hw ht (by rw [hu]; rfl)
            split
            · split
              · exact user (t := t) (u := .idle) (by simp) rfl rfl rfl rfl rfl
              · rename_i hs; exact arm' hs
            · have ht' := transmit_fields s id false ok
              exact Ord_direct (t := t) (id := id) (req := false) (ok := ok) h h2 (notxmit s h1) h5 rfl ht'.2.2.2.2.1 rfl ht'.1
                (by simp only [ret]; rw [transmit_uth])
          · split
            · exact user (t := t) (u := .idle) (by simp) rfl rfl rfl rfl rfl
            · rename_i hs; exact que' hs
      · rename_i id hu
        unfold enterCb
        split
        · split
          · exact user (t := t) (u := .idle) (by simp) rfl rfl rfl rfl rfl
          · rename_i hs; exact que' hs
        · rename_i hw
          obtain ⟨h1, h2, h3, h4, h5⟩ := engOk_none he hw ht (by rw [hu]; rfl)
          split
          · split
            · exact user (t := t) (u := .idle) (by simp) rfl rfl rfl rfl rfl
            · rename_i hs; exact arm' hs
          · have ht' := transmit_fields s id true ok
            split
            · exact Ord_direct (t := t) (id := id) (req := true) (ok := ok) h h2 (notxmit s h1) h5 rfl ht'.2.2.2.2.1 rfl ht'.1
                (by simp only [ret]; rw [transmit_uth])
            · exact Ord_direct (t := t) (id := id) (req := true) (ok := false) h h2 (notxmit s h1) h5 rfl rfl rfl rfl rfl
      · rename_i id hu
        unfold enterWait
        split
        · split
          · exact user (t := t) (u := .idle) (by simp) rfl rfl rfl rfl rfl
          · rename_i hs
            refine Ord_congr (Ord_queued h hs) rfl rfl rfl (fun _ _ hm => hm) (fun t' ht' i hh => ?_)
            exact upd_sending (u := .blocked id) (by simp) hh
        · rename_i hw
          obtain ⟨h1, h2, h3, h4, h5⟩ := engOk_none he hw ht (by rw [hu]; rfl)
          refine ⟨h.base.trans (List.sublist_append_left _ _), fun m c hm => (notxmit s h1 m c hm).elim, ?_⟩
          intro t' ht' i hh
          have hb := h.base
          rw [h2] at hb
          by_cases e : t' = t
          · subst e
            simp at hh; subst hh
            dsimp only
            rw [h2]
            simp only [ids, List.map_nil, List.append_nil] at hb ⊢
            exact hb.append (List.Sublist.refl _)
          · dsimp only at hh
            rw [upd_ne _ _ e] at hh
            exact (NF_sending h5 ht' hh).elim
      · exact h
    · exact h
  case xmit t ok =>
    split
    · rename_i ht
      split
      · rename_i id hu
        obtain ⟨h1, h2, h3, h4, h5⟩ := engOk_flight (id := id) he ht (by simp [hu, inFlight])
        have ht' := transmit_fields s id true ok
        have nosend : ∀ t' < T, ∀ i, upd s.uth t (U.sent id (transmit s id true ok).2) t' ≠ .sending i := by
          intro t' ht'' i e
          simp only [upd] at e; split at e
          · cases e
          · rename_i ne
            exact ne (h5 t' ht'' i (by simp [e, inFlight])).1
        refine ⟨?_, ?_, fun t' ht' i hh => (nosend t' ht' i hh).elim⟩
        · dsimp only
          rw [ht'.2.2.2.2.1, ht'.2.2.2.2.2.2.2.1, ht'.2.2.2.2.2.2.2.2.1]
          split
          · have := h.thr t ht id hu
            simpa using this
          · exact h.base
        · intro m c hm
          exact (notxmit s h1 m c (by rw [← ht'.1]; exact hm)).elim
      · exact h
    · exact h
  case relock t =>
    split
    · split
      · unfold relock
        split
        · rename_i id ok hu hok
          exact user (t := t) (u := .blocked id) (by simp) rfl rfl rfl rfl rfl
        · split
          · exact user (t := t) (u := .idle) (by simp) rfl rfl rfl rfl rfl
          · exact user (t := t) (u := .idle) (by simp) rfl rfl rfl rfl rfl
      · exact h
    · exact h
  case wake t =>
    split
    · split
      · split
        · exact user (t := t) (u := .idle) (by simp) rfl rfl rfl rfl rfl
        · exact h
      · exact h
    · exact h
  case stop => split <;> first | exact h | exact Ord_congr h rfl rfl rfl (fun _ _ hm => hm) (fun _ _ _ hh => hh)
  case restart => split <;> first | exact h | exact Ord_congr h rfl rfl rfl (fun _ _ hm => hm) (fun _ _ _ hh => hh)
  case connect =>
    split
    · rename_i hh
      have hr := hk.rest (.inr hh)
      unfold engOk at he
      rw [hr.1] at he
      dsimp only at he
      rw [hr.2.1] at he
      refine ⟨by simp [he.1, ids], fun m c hm => ?_, fun t ht id hu => (NF_sending he.2.2.2 ht hu).elim⟩
      have hm : s.eng = .xmit m c := hm
      rw [hr.1] at hm; cases hm
    · exact h
  case reply =>
    split
    · rename_i r rest hi ho
      split
      · unfold engOk at he
        rw [hi] at he
        dsimp only at he
        split
        · rename_i c hw
          rw [hw, ho] at he
          refine Ord_loop h.base ?_
          cases c with
          | none => exact he.2.2.2
          | some q =>
            obtain ⟨ha, ⟨hb, hn⟩ | ⟨hb, -⟩⟩ := he
            · exact hn
            · cases hb
        · exact Ord_congr h rfl rfl rfl (fun _ _ hm => hm) (fun _ _ _ hh => hh)
      · exact h
    · exact h
  case bogusReply => exact hc.elim
  case async =>
    split
    · rename_i hh
      unfold engOk at he
      rw [hh.1] at he
      dsimp only at he
      refine Ord_loop h.base ?_
      cases hw : s.waiting with
      | none => rw [hw] at he; exact he.2.2.2
      | some c =>
        cases c with
        | some r => rw [hw] at he; rw [he.1] at hh; simp at hh
        | none => rw [hw] at he; exact he.2.2.2
    · exact h
  case engXmit ok =>
    split
    · rename_i m c hm
      have ht' := transmit_fields s m.id m.req ok
      unfold engOk at he
      rw [hm] at he
      dsimp only at he
      refine ⟨?_, by simp, ?_⟩
      · dsimp only
        rw [ht'.2.2.2.2.1, ht'.2.2.2.2.2.2.2.1, ht'.2.2.2.2.2.2.2.2.1]
        split
        · have := h.eng m c hm
          simpa using this
        · exact h.base
      · intro t ht id hu
        dsimp only at hu
        rw [transmit_uth] at hu
        exact (NF_sending he.2.2.2.2 ht hu).elim
    · exact h
  case engFin =>
    split
    · rename_i m ok c hm
      unfold engOk at he
      rw [hm] at he
      dsimp only at he
      have nx : ∀ {e' : E} {s' : St}, s'.eng = e' → (∀ m c, e' ≠ .xmit m c) → s'.wire = s.wire → s'.queue = s.queue → s'.order = s.order →
          s'.uth = s.uth → Ord T s' := by
        intro e' s' e1 e2 e3 e4 e5 e6
        exact Ord_congr h e3 e4 e5 (fun m c hm => by rw [e1] at hm; exact (e2 m c hm).elim) (fun t ht id hh => by rw [← e6]; exact hh)
      split
      · split
        · split
          · exact nx rfl (by simp) rfl rfl rfl rfl
          · exact nx rfl (by simp) rfl rfl rfl rfl
        · exact nx rfl (by simp) rfl rfl rfl rfl
      · exact Ord_loop h.base he.2.2.2.2
    · exact h
  case engCall =>
    have hcb : ∀ (s : St) c res, (callback s c res).wire = s.wire ∧ (callback s c res).order = s.order := by
      intro s c res; unfold callback; split <;> exact ⟨rfl, rfl⟩
    split
    all_goals first
      | exact h
      | exact Ord_congr h (hcb _ _ _).1 (callback_queue ..) (hcb _ _ _).2 (fun m c hm => by cases hm)
          (fun t ht id hh => by dsimp only at hh; rw [callback_uth] at hh; exact hh)
  case engNext =>
    split
    · rename_i c hm
      unfold engOk at he
      rw [hm] at he
      exact Ord_loop h.base he.2.2.2.2
    · exact h
  case teardown peer =>
    split
    · exact Ord_congr h rfl rfl rfl (fun m c hm => by cases hm) (fun _ _ _ hh => hh)
    · exact h
  case take =>
    split
    · split <;> exact Ord_congr h rfl rfl rfl (fun m c hm => by cases hm) (fun _ _ _ hh => hh)
    · exact h
  case drain =>
    split
    · rename_i hm
      unfold engOk at he
      rw [hm] at he
      split
      · exact Ord_congr h rfl rfl rfl (fun m c hm => by cases hm) (fun _ _ _ hh => hh)
      · rename_i m q hq
        have hb := h.base
        rw [hq] at hb
        have hb' : (s.wire ++ ids q).Sublist s.order :=
          List.Sublist.trans ((List.Sublist.refl _).append (by simp [ids])) hb
        have hn := quiet_NF he.2.2.2.2
        split
        · exact ⟨hb', by simp, fun t ht id hu => (NF_sending hn ht hu).elim⟩
        · exact ⟨hb', (fun m c hx => by dsimp only at hx; rw [hm] at hx; cases hx), fun t ht id hu => (NF_sending hn ht hu).elim⟩
    · exact h

def Cap (cfg : Cfg) (s : St) : Prop := s.pool + s.queue.length + busy s.eng + s.leaked = cfg.cap

theorem Cap_same {cfg : Cfg} {s s' : St} (h : Cap cfg s) (e1 : s'.pool = s.pool) (e2 : s'.queue = s.queue) (e3 : s'.eng = s.eng)
    (e4 : s'.leaked = s.leaked) : Cap cfg s' := by
  unfold Cap at *; rw [e1, e2, e3, e4]; exact h

theorem Cap_tq {cfg : Cfg} {s s' s'' : St} {id : Nat} {req : Bool} (h : Cap cfg s) (hs : tryQueue s id req = some s')
    (e1 : s''.pool = s'.pool) (e2 : s''.queue = s'.queue) (e3 : s''.eng = s'.eng) (e4 : s''.leaked = s'.leaked) : Cap cfg s'' := by
  obtain ⟨hp, rfl⟩ := tryQueue_eq hs
  unfold Cap at *; rw [e1, e2, e3, e4]; simp; omega

theorem Cap_loop {cfg : Cfg} {s : St} {c : Cont} (h : s.pool + s.queue.length + s.leaked = cfg.cap) : Cap cfg (loopHead s c) := by
  unfold Cap loopHead
  split
  · split <;> simp [busy] <;> omega
  · rename_i hq; rw [hq] at h; simp [busy] at h ⊢; omega

theorem Cap_step {cfg : Cfg} {T : Nat} {s : St} {op : Op} (h : Cap cfg s) : Cap cfg (step cfg T s op) := by
  have htr : ∀ (s : St) id req ok, (transmit s id req ok).1.pool = s.pool ∧ (transmit s id req ok).1.queue = s.queue ∧
      (transmit s id req ok).1.eng = s.eng ∧ (transmit s id req ok).1.leaked = s.leaked := by
    intro s id req ok; unfold transmit; split <;> exact ⟨rfl, rfl, rfl, rfl⟩
  have hcb : ∀ (s : St) c res, (callback s c res).pool = s.pool ∧ (callback s c res).leaked = s.leaked := by
    intro s c res; unfold callback; split <;> exact ⟨rfl, rfl⟩
  have h' := h
  unfold Cap at h'
  unfold step
  split
  · exact h
  cases op <;> dsimp only
  case enter t ok =>
    split
    · split
      · unfold enterPlain
        repeat' split
        all_goals first
          | exact Cap_same h rfl rfl rfl rfl
          | exact Cap_same h (htr _ _ _ _).1 (htr _ _ _ _).2.1 (htr _ _ _ _).2.2.1 (htr _ _ _ _).2.2.2
          | (rename_i hs; exact Cap_tq h hs rfl rfl rfl rfl)
      · unfold enterCb
        repeat' split
        all_goals first
          | exact Cap_same h rfl rfl rfl rfl
          | exact Cap_same h (htr _ _ _ _).1 (htr _ _ _ _).2.1 (htr _ _ _ _).2.2.1 (htr _ _ _ _).2.2.2
          | (rename_i hs; exact Cap_tq h hs rfl rfl rfl rfl)
      · unfold enterWait
        repeat' split
        all_goals first
          | exact Cap_same h rfl rfl rfl rfl
          | (rename_i hs; exact Cap_tq h hs rfl rfl rfl rfl)
      · exact h
    · exact h
  case xmit t ok =>
    split
    · split
      · exact Cap_same h (htr _ _ _ _).1 (htr _ _ _ _).2.1 (htr _ _ _ _).2.2.1 (htr _ _ _ _).2.2.2
      · exact h
    · exact h
  case relock t =>
    split
    · split
      · unfold relock
        repeat' split
        all_goals exact Cap_same h rfl rfl rfl rfl
      · exact h
    · exact h
  case reply =>
    split
    · rename_i hi _
      rw [hi] at h'
      split
      · split
        · exact Cap_loop (by simp [busy] at h' ⊢; omega)
        · exact Cap_same h rfl rfl rfl rfl
      · exact h
    · exact h
  case bogusReply =>
    split
    · rename_i hh
      rw [hh.1] at h'
      split
      · exact Cap_loop (by simp [busy] at h' ⊢; omega)
      · exact Cap_same h rfl rfl rfl rfl
    · exact h
  case async =>
    split
    · rename_i hh
      rw [hh.1] at h'
      exact Cap_loop (by simp [busy] at h' ⊢; omega)
    · exact h
  case engXmit ok =>
    split
    · rename_i m c hm
      have := htr s m.id m.req ok
      rw [hm] at h'
      unfold Cap
      dsimp only
      rw [this.1, this.2.1, this.2.2.2]
      exact h'
    · exact h
  case engFin =>
    split
    · rename_i m ok c hm
      rw [hm] at h'
      simp only [busy] at h'
      split
      · split
        · split <;> simp [Cap, busy] <;> omega
        · simp [Cap, busy]; omega
      · exact Cap_loop (by simp; omega)
    · exact h
  case engCall =>
    split
    · rename_i hm; rw [hm] at h'; unfold Cap; dsimp only; rw [(hcb _ _ _).1, callback_queue, (hcb _ _ _).2]; exact h'
    · rename_i hm; rw [hm] at h'; unfold Cap; dsimp only; rw [(hcb _ _ _).1, callback_queue, (hcb _ _ _).2]; exact h'
    · rename_i hm; rw [hm] at h'; unfold Cap; dsimp only; rw [(hcb _ _ _).1, callback_queue, (hcb _ _ _).2]; exact h'
    · exact h
  case engNext =>
    split
    · rename_i hm
      rw [hm] at h'
      exact Cap_loop (by simp [busy] at h' ⊢; omega)
    · exact h
  case teardown peer =>
    split
    · rename_i hh
      rw [hh.1] at h'
      simp [Cap, busy] at h' ⊢; omega
    · exact h
  case take =>
    split
    · rename_i hh
      rw [hh] at h'
      split <;> simp [Cap, busy] at h' ⊢ <;> omega
    · exact h
  case drain =>
    split
    · rename_i hh
      rw [hh] at h'
      split
      · simp [Cap, busy] at h' ⊢; omega
      · rename_i hq
        rw [hq] at h'
        split
        · simp [Cap, busy] at h' ⊢; omega
        · simp [Cap, busy, hh] at h' ⊢; omega
    · exact h
  all_goals repeat' split
  all_goals exact Cap_same h rfl rfl rfl rfl

theorem Cap_run {cfg : Cfg} {T : Nat} : ∀ {ops : List Op} {s : St}, Cap cfg s → Cap cfg (run cfg T s ops)
  | [], _, h => h
  | op :: ops, s, h => Cap_run (ops := ops) (s := step cfg T s op) (Cap_step h)

theorem step_leaked {cfg : Cfg} {T : Nat} {s : St} {op : Op} (hop : op ≠ .drain) : (step cfg T s op).leaked = s.leaked := by
  have hl : ∀ (s : St) c, (loopHead s c).leaked = s.leaked := by
    intro s c
    unfold loopHead; split
    · split <;> rfl
    · rfl
  have hcb : ∀ (s : St) c res, (callback s c res).leaked = s.leaked := by
    intro s c res
    unfold callback; split <;> rfl
  have htr : ∀ (s : St) id req ok, (transmit s id req ok).1.leaked = s.leaked := by
    intro s id req ok; unfold transmit; split <;> rfl
  have htq : ∀ {s s' : St} {id req}, tryQueue s id req = some s' → s'.leaked = s.leaked := by
    intro s s' id req h; obtain ⟨-, rfl⟩ := tryQueue_eq h; rfl
  unfold step
  split
  · rfl
  cases op <;> dsimp only
  case drain => exact (hop rfl).elim
  case enter t ok =>
    split
    · split
      · unfold enterPlain
        repeat' split
        all_goals first | rfl | exact htr _ _ _ _ | (rename_i hs; have := htq hs; exact this)
      · unfold enterCb
        repeat' split
        all_goals first | rfl | exact htr _ _ _ _ | (rename_i hs; have := htq hs; exact this)
      · unfold enterWait
        repeat' split
        all_goals first | rfl | exact htr _ _ _ _ | (rename_i hs; have := htq hs; exact this)
      · rfl
    · rfl
  case relock t =>
    split
    · split
      · unfold relock; split
        · rfl
        · split <;> rfl
      · rfl
    · rfl
  all_goals repeat' split
  all_goals first | rfl | exact hl _ _ | exact hcb _ _ _ | exact htr _ _ _ _

theorem run_leaked {cfg : Cfg} {T : Nat} : ∀ {ops : List Op} {s : St}, .drain ∉ ops → (run cfg T s ops).leaked = s.leaked
  | [], _, _ => rfl
  | op :: ops, s, h => by
    have h1 : op ≠ .drain := fun e => h (by simp [e])
    have := run_leaked (ops := ops) (s := step cfg T s op) (cfg := cfg) (T := T) (fun e => h (List.mem_cons_of_mem _ e))
    rw [step_leaked h1] at this
    exact this

/-- Admission: a message is admitted once. -/
structure Adm (T : Nat) (s : St) : Prop where
  nodup : s.order.Nodup
  lt : ∀ id ∈ s.order, id < s.next
  thr : ∀ t < T, ∀ id k, s.uth t = .checked id k → id ∉ s.order

theorem step_order (cfg : Cfg) (T : Nat) (s : St) (op : Op) :
    ((step cfg T s op).order = s.order ∨ (step cfg T s op).order = []) ∨
    ∃ t < T, ∃ id k, s.uth t = .checked id k ∧ (step cfg T s op).order = s.order ++ [id] ∧
      (∃ u, (step cfg T s op).uth = upd s.uth t u ∧ uid u ≠ some id ∨ (step cfg T s op).uth = upd s.uth t (.sending id)) := by
  have hl : ∀ (s : St) c, (loopHead s c).order = s.order := by
    intro s c
    unfold loopHead; split
    · split <;> rfl
    · rfl
  have hcb : ∀ (s : St) c res, (callback s c res).order = s.order := by
    intro s c res
    unfold callback; split <;> rfl
  have htr : ∀ (s : St) id req ok, (transmit s id req ok).1.order = s.order := by
    intro s id req ok; unfold transmit; split <;> rfl
  have htq : ∀ {s s' : St} {id req}, tryQueue s id req = some s' → s'.order = s.order ++ [id] ∧ s'.uth = s.uth := by
    intro s s' id req h; obtain ⟨-, rfl⟩ := tryQueue_eq h; exact ⟨rfl, rfl⟩
  unfold step
  split
  · exact .inl (.inl rfl)
  cases op <;> dsimp only
  case enter t ok =>
    split
    · rename_i ht
      split
      · rename_i id hu
        have q : ∀ {s' s'' : St}, s''.uth = upd s'.uth t .idle → s'.uth = s.uth → s''.order = s.order ++ [id] →
            ((s''.order = s.order ∨ s''.order = []) ∨ ∃ t < T, ∃ id k, s.uth t = .checked id k ∧ s''.order = s.order ++ [id] ∧
              (∃ u, s''.uth = upd s.uth t u ∧ uid u ≠ some id ∨ s''.uth = upd s.uth t (.sending id))) := by
          intro s' s'' e1 e2 e3
          exact .inr ⟨t, ht, id, _, hu, e3, .idle, .inl ⟨by rw [e1, e2], by simp [uid]⟩⟩
        unfold enterPlain
        split
        · exact .inl (.inl (htr _ _ _ _))
        · split
          · split
            · split
              · exact .inl (.inl rfl)
              · rename_i s' hs; exact q (s' := s') rfl (htq hs).2 (htq hs).1
            · exact q (s' := (transmit s id false ok).1) rfl (transmit_uth ..) rfl
          · split
            · exact .inl (.inl rfl)
            · rename_i s' hs; exact q (s' := s') rfl (htq hs).2 (htq hs).1
      · rename_i id hu
        have q : ∀ {s' s'' : St}, s''.uth = upd s'.uth t .idle → s'.uth = s.uth → s''.order = s.order ++ [id] →
            ((s''.order = s.order ∨ s''.order = []) ∨ ∃ t < T, ∃ id k, s.uth t = .checked id k ∧ s''.order = s.order ++ [id] ∧
              (∃ u, s''.uth = upd s.uth t u ∧ uid u ≠ some id ∨ s''.uth = upd s.uth t (.sending id))) := by
          intro s' s'' e1 e2 e3
          exact .inr ⟨t, ht, id, _, hu, e3, .idle, .inl ⟨by rw [e1, e2], by simp [uid]⟩⟩
        unfold enterCb
        split
        · split
          · exact .inl (.inl rfl)
          · rename_i s' hs; exact q (s' := s') rfl (htq hs).2 (htq hs).1
        · split
          · split
            · exact .inl (.inl rfl)
            · rename_i s' hs; exact q (s' := s') rfl (htq hs).2 (htq hs).1
          · split
            · exact q (s' := (transmit s id true ok).1) rfl (transmit_uth ..) rfl
            · exact q (s' := s) rfl rfl rfl
      · rename_i id hu
        unfold enterWait
        split
        · split
          · exact .inl (.inl rfl)
          · rename_i s' hs
            refine .inr ⟨t, ht, id, _, hu, (htq hs).1, .blocked id, .inl ⟨by dsimp only; rw [(htq hs).2], by simp [uid]⟩⟩
        · exact .inr ⟨t, ht, id, _, hu, rfl, .idle, .inr rfl⟩
      · exact .inl (.inl rfl)
    · exact .inl (.inl rfl)
  case relock t =>
    split
    · split
      · unfold relock; split
        · exact .inl (.inl rfl)
        · split <;> exact .inl (.inl rfl)
      · exact .inl (.inl rfl)
    · exact .inl (.inl rfl)
  all_goals repeat' split
  all_goals first | exact .inl (.inl rfl) | exact .inl (.inr rfl) | exact .inl (.inl (hl _ _)) | exact .inl (.inl (hcb _ _ _)) | exact .inl (.inl (htr _ _ _ _))

/-- A thread past its state check was there before, or its call is new. -/
theorem step_checked (cfg : Cfg) (T : Nat) (s : St) (op : Op) (t id : Nat) (k : Kind) (h : (step cfg T s op).uth t = .checked id k) :
    s.uth t = .checked id k ∨ id = s.next := by
  have hl : ∀ (s : St) c, (loopHead s c).uth = s.uth := by simp
  have up : ∀ {t' : Nat} {u : U} {f : Nat → U}, (∀ i k, u ≠ .checked i k) → upd f t' u t = .checked id k → f t = .checked id k := by
    intro t' u f hu e
    simp only [upd] at e; split at e
    · exact (hu _ _ e).elim
    · exact e
  have htq : ∀ {s s' : St} {id req}, tryQueue s id req = some s' → s'.uth = s.uth := by
    intro s s' id req h; obtain ⟨-, rfl⟩ := tryQueue_eq h; rfl
  unfold step at h
  split at h
  · exact .inl h
  cases op <;> dsimp only at h
  case call t' k' =>
    split at h
    · dsimp only at h
      simp only [upd] at h; split at h
      · injection h with h1 h2; exact .inr h1.symm
      · exact .inl h
    · exact .inl h
  case enter t' ok =>
    split at h
    · split at h
      · obtain ⟨b, e, -⟩ := enterPlain_eff cfg s t' (by assumption) ok
        rw [e] at h; exact .inl (up (by simp) h)
      · obtain ⟨b, e, -⟩ := enterCb_eff cfg s t' (by assumption) ok
        rw [e] at h; exact .inl (up (by simp) h)
      · unfold enterWait at h
        split at h
        · split at h
          · exact .inl (up (by simp) h)
          · rename_i hs; dsimp only at h; rw [htq hs] at h; exact .inl (up (by simp) h)
        · exact .inl (up (by simp) h)
      · exact .inl h
    · exact .inl h
  case xmit t' ok =>
    split at h
    · split at h
      · exact .inl (up (by simp) h)
      · exact .inl h
    · exact .inl h
  case relock t' =>
    split at h
    · split at h
      · unfold relock at h; split at h
        · exact .inl (up (by simp) h)
        · split at h <;> exact .inl (up (by simp) h)
      · exact .inl h
    · exact .inl h
  case wake t' =>
    split at h
    · split at h
      · split at h
        · exact .inl (up (by simp) h)
        · exact .inl h
      · exact .inl h
    · exact .inl h
  all_goals repeat' (split at h)
  all_goals first
    | exact .inl h
    | (rw [hl] at h; exact .inl h)
    | (dsimp only at h; rw [callback_uth] at h; exact .inl h)
    | (dsimp only at h; rw [transmit_uth] at h; exact .inl h)

theorem Adm_step {cfg : Cfg} {T : Nat} {s : St} {op : Op} (hL : L T s) (h : Adm T s) : Adm T (step cfg T s op) := by
  have hnext : s.next ≤ (step cfg T s op).next := by
    rcases step_le cfg T s op 0 with ⟨-, h2⟩ | ⟨-, h2, -⟩ <;> omega
  rcases step_order cfg T s op with (e | e) | ⟨t, ht, id, k, hu, e, u, hx⟩
  · refine ⟨by rw [e]; exact h.nodup, ?_, ?_⟩
    · rw [e]; intro i hi; have := h.lt i hi; omega
    · rw [e]; intro t ht i k hk
      rcases step_checked cfg T s op t i k hk with h1 | h1
      · exact h.thr t ht i k h1
      · intro hi; have := h.lt i hi; omega
  · refine ⟨by rw [e]; exact List.nodup_nil, by rw [e]; simp, by rw [e]; simp⟩
  · have hnew := h.thr t ht id k hu
    have hid := (hL.thr t ht id (by rw [hu]; rfl)).2
    refine ⟨?_, ?_, ?_⟩
    · rw [e, List.nodup_append]
      refine ⟨h.nodup, by simp, ?_⟩
      intro a ha b hb
      simp at hb; subst hb
      rintro rfl; exact hnew ha
    · rw [e]; intro i hi
      rcases List.mem_append.mp hi with hi | hi
      · have := h.lt i hi; omega
      · simp at hi; subst hi; omega
    · intro t' ht' i k' hk
      rw [e]
      have hk0 := hk
      rcases step_checked cfg T s op t' i k' hk with h1 | h1
      · intro hi
        rcases List.mem_append.mp hi with hi | hi
        · exact h.thr t' ht' i k' h1 hi
        · simp at hi; subst hi
          have ett : t' = t := hL.uniq t' ht' t ht i (by rw [h1]; rfl) (by rw [hu]; rfl)
          subst ett
          rcases hx with ⟨hx, hne⟩ | hx
          · rw [hx] at hk; simp at hk; rw [hk] at hne; simp [uid] at hne
          · rw [hx] at hk; simp at hk
      · intro hi
        rcases List.mem_append.mp hi with hi | hi
        · have := h.lt i hi; omega
        · simp at hi; omega

end Verif.Client
