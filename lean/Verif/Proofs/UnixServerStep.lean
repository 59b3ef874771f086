import Verif.Proofs.UnixServerDo
/-!
# Sessions of a server: steps
-/
namespace Verif.UnixServer

/-- A session is created and its connection callback called. -/
theorem Inv.connect {w : World} (h : Inv w) {s fd peer : Nat} (hfd : ∀ a ∈ w.fds, a.1 ≠ fd) :
    Inv (World.note { w with
      next := w.next + 1
      fds := w.fds ++ [(fd, peer)]
      live := w.live ++ [{ id := w.next, srv := s, fd, stage := .provisional }] } (.connect s w.next peer)) := by
  have hlog : ∀ d, calls d (w.log ++ [.connect s w.next peer]) =
      calls d w.log ++ (if d = w.next then [.connect s w.next peer] else []) := by
    intro d
    rw [calls_append]
    by_cases hd : d = w.next
    · rw [if_pos hd, calls_one_yes (by simp [callOf, hd])]
    · rw [if_neg hd, calls_one_no (by simp [callOf, Ne.symm hd])]
  have hlive : ∀ z, z ∈ w.live ++ [{ id := w.next, srv := s, fd, stage := .provisional }] ↔
      z ∈ w.live ∨ z = { id := w.next, srv := s, fd, stage := .provisional } := by
    intro z; simp
  have hnofd : ∀ z ∈ w.live, z.fd ≠ fd := by
    intro z hz hzf
    obtain ⟨p, hp, -⟩ := h.now z hz
    exact hfd _ hp hzf
  constructor <;> dsimp only [World.note]
  case slotFd => exact h.slotFd
  case uniq => exact h.uniq
  case slotConn =>
    intro i x c t hx hc
    obtain ⟨y, hy, rest⟩ := h.slotConn i x c t hx hc
    exact ⟨y, (hlive y).mpr (Or.inl hy), rest⟩
  case connSlot =>
    intro y hy hya
    rcases (hlive y).mp hy with hy | rfl
    · exact h.connSlot y hy hya
    · cases hya
  case idUniq =>
    intro y hy z hz he
    rcases (hlive y).mp hy with hy | rfl <;> rcases (hlive z).mp hz with hz | rfl
    · exact h.idUniq y hy z hz he
    · have := h.idLt y hy; rw [he] at this; exact absurd this (Nat.lt_irrefl _)
    · have := h.idLt z hz; rw [← he] at this; exact absurd this (Nat.lt_irrefl _)
    · rfl
  case idLt =>
    intro y hy
    rcases (hlive y).mp hy with hy | rfl
    · exact Nat.lt_succ_of_lt (h.idLt y hy)
    · exact Nat.lt_succ_self _
  case fdUniq =>
    intro y hy z hz he
    rcases (hlive y).mp hy with hy | rfl <;> rcases (hlive z).mp hz with hz | rfl
    · exact h.fdUniq y hy z hz he
    · exact absurd he (hnofd y hy)
    · exact absurd he.symm (hnofd z hz)
    · rfl
  case fdsUniq =>
    intro a ha b hb he
    rcases List.mem_append.mp ha with ha | ha <;> rcases List.mem_append.mp hb with hb | hb
    · exact h.fdsUniq a ha b hb he
    · rw [List.mem_singleton.mp hb] at he; exact absurd he (hfd a ha)
    · rw [List.mem_singleton.mp ha] at he; exact absurd he.symm (hfd b hb)
    · rw [List.mem_singleton.mp ha, List.mem_singleton.mp hb]
  case fdsLive =>
    intro a ha
    rcases List.mem_append.mp ha with ha | ha
    · obtain ⟨y, hy, hf⟩ := h.fdsLive a ha
      exact ⟨y, (hlive y).mpr (Or.inl hy), hf⟩
    · rw [List.mem_singleton.mp ha]
      exact ⟨_, (hlive _).mpr (Or.inr rfl), rfl⟩
  case fresh =>
    intro d hd
    rw [hlog, if_neg (by omega), List.append_nil]
    exact h.fresh d (by omega)
  case gone =>
    intro d hd hn
    have hne : d ≠ w.next := by
      rintro rfl
      exact hn _ ((hlive _).mpr (Or.inr rfl)) rfl
    have := h.gone d (by omega) (fun y hy => hn y ((hlive y).mpr (Or.inl hy)))
    simpa only [Over, hlog, if_neg hne, List.append_nil] using this
  case now =>
    intro y hy
    rcases (hlive y).mp hy with hy | rfl
    · obtain ⟨p, hp, hn⟩ := h.now y hy
      refine ⟨p, List.mem_append.mpr (Or.inl hp), ?_⟩
      have hne : y.id ≠ w.next := Nat.ne_of_lt (h.idLt y hy)
      cases hs : y.stage <;> rw [hs] at hn <;>
        simpa only [Now, hlog, if_neg hne, List.append_nil] using hn
    · refine ⟨peer, by simp, ?_⟩
      show calls w.next (w.log ++ [.connect s w.next peer]) = _
      rw [hlog, if_pos rfl, h.fresh w.next (Nat.le_refl _)]
      rfl

/-- The connection callback accepted the session. -/
theorem Inv.accept {w : World} (h : Inv w) {y : Conn} (hy : y ∈ w.live) (hs : y.stage = .provisional) :
    Inv (register (setStage (w.note (.accepted y.id)) y.id .accepted) (.conn y.id y.srv) y.fd) := by
  have hu := register_slots (setStage (w.note (.accepted y.id)) y.id .accepted) (.conn y.id y.srv) y.fd
  have hm := register_same (setStage (w.note (.accepted y.id)) y.id .accepted) (.conn y.id y.srv) y.fd
  generalize register (setStage (w.note (.accepted y.id)) y.id .accepted) (.conn y.id y.srv) y.fd = v at hu hm
  obtain ⟨i, hi, hfree, hj, -⟩ := hu
  obtain ⟨hl, hf, hnx, hlg, -⟩ := hm
  have hfree : ∀ x, w.slots[i]? = some x → x.fd = none := hfree
  have hj : ∀ j : Nat, j ≠ i → v.slots[j]? = w.slots[j]? := hj
  have hlog : ∀ d, calls d v.log = calls d w.log ++ (if d = y.id then [.accepted y.id] else []) := by
    intro d
    rw [hlg]
    show calls d (w.log ++ [.accepted y.id]) = _
    rw [calls_append]
    by_cases hd : d = y.id
    · rw [if_pos hd, calls_one_yes (by simp [callOf, hd])]
    · rw [if_neg hd, calls_one_no (by simp [callOf, Ne.symm hd])]
  have hlive : ∀ z, z ∈ v.live ↔
      ∃ z0 ∈ w.live, z = if z0.id == y.id then { z0 with stage := .accepted } else z0 := by
    intro z
    rw [hl]
    show z ∈ w.live.map _ ↔ _
    rw [List.mem_map]
    constructor
    · rintro ⟨z0, h0, rfl⟩; exact ⟨z0, h0, rfl⟩
    · rintro ⟨z0, h0, rfl⟩; exact ⟨z0, h0, rfl⟩
  have hz : ∀ z0 : Conn, (if z0.id == y.id then { z0 with stage := Stage.accepted } else z0).id = z0.id ∧
      (if z0.id == y.id then { z0 with stage := Stage.accepted } else z0).srv = z0.srv ∧
      (if z0.id == y.id then { z0 with stage := Stage.accepted } else z0).fd = z0.fd := by
    intro z0; split <;> simp
  have hnoslot : ∀ (j : Nat) (x : Slot) (t : Nat), w.slots[j]? = some x → x.ep ≠ some (.conn y.id t) := by
    intro j x t hx hc
    obtain ⟨z, hzl, hzi, -, hza, -⟩ := h.slotConn j x _ t hx hc
    rw [h.idUniq z hzl y hy hzi, hs] at hza
    cases hza
  have hne : ∀ (j : Nat) (x : Slot) (e : Ep), w.slots[j]? = some x → x.ep = some e → j ≠ i := by
    rintro j x e hx he rfl
    have := ((h.slotFd j x hx).1 (hfree x hx)).1
    rw [this] at he; cases he
  constructor
  case slotFd =>
    intro j x hx
    by_cases hji : j = i
    · rw [hji, hi] at hx; cases hx; simp
    · rw [hj j hji] at hx; exact h.slotFd j x hx
  case uniq =>
    intro j k x x' c t t' hx hx' hc hc'
    by_cases hji : j = i <;> by_cases hki : k = i
    · rw [hji, hki]
    · rw [hji, hi] at hx; cases hx; cases hc
      rw [hj k hki] at hx'
      exact absurd hc' (hnoslot k x' t' hx')
    · rw [hki, hi] at hx'; cases hx'; cases hc'
      rw [hj j hji] at hx
      exact absurd hc (hnoslot j x t hx)
    · rw [hj j hji] at hx; rw [hj k hki] at hx'
      exact h.uniq j k x x' c t t' hx hx' hc hc'
  case slotConn =>
    intro j x c t hx hc
    by_cases hji : j = i
    · rw [hji, hi] at hx; cases hx; cases hc
      refine ⟨{ y with stage := .accepted }, (hlive _).mpr ⟨y, hy, by simp⟩, rfl, rfl, rfl, rfl⟩
    · rw [hj j hji] at hx
      obtain ⟨z, hzl, hzi, hzs, hza, hzf⟩ := h.slotConn j x c t hx hc
      refine ⟨z, (hlive z).mpr ⟨z, hzl, ?_⟩, hzi, hzs, hza, hzf⟩
      rw [if_neg]
      intro he
      have he : z.id = y.id := by simpa using he
      rw [h.idUniq z hzl y hy he, hs] at hza
      cases hza
  case connSlot =>
    intro z hzl hza
    obtain ⟨z0, hz0, rfl⟩ := (hlive z).mp hzl
    rw [(hz z0).1, (hz z0).2.1]
    by_cases hzc : z0.id = y.id
    · rw [h.idUniq z0 hz0 y hy hzc]
      exact ⟨i, _, hi, rfl⟩
    · rw [if_neg (by simp [hzc])] at hza
      obtain ⟨j, x, hx, he⟩ := h.connSlot z0 hz0 hza
      exact ⟨j, x, by rw [hj j (hne j x _ hx he)]; exact hx, he⟩
  case idUniq =>
    intro z hz1 z' hz2 he
    obtain ⟨z0, hz0, rfl⟩ := (hlive z).mp hz1
    obtain ⟨z0', hz0', rfl⟩ := (hlive z').mp hz2
    rw [(hz z0).1, (hz z0').1] at he
    rw [h.idUniq z0 hz0 z0' hz0' he]
  case idLt =>
    intro z hz1
    obtain ⟨z0, hz0, rfl⟩ := (hlive z).mp hz1
    rw [(hz z0).1, hnx]
    exact h.idLt z0 hz0
  case fdUniq =>
    intro z hz1 z' hz2 he
    obtain ⟨z0, hz0, rfl⟩ := (hlive z).mp hz1
    obtain ⟨z0', hz0', rfl⟩ := (hlive z').mp hz2
    rw [(hz z0).2.2, (hz z0').2.2] at he
    rw [(hz z0).1, (hz z0').1]
    exact h.fdUniq z0 hz0 z0' hz0' he
  case fdsUniq => rw [hf]; exact h.fdsUniq
  case fdsLive =>
    rw [hf]
    intro a ha
    obtain ⟨z0, hz0, hff⟩ := h.fdsLive a ha
    exact ⟨_, (hlive _).mpr ⟨z0, hz0, rfl⟩, by rw [(hz z0).2.2]; exact hff⟩
  case fresh =>
    rw [hnx]
    intro d hd
    have := h.idLt y hy
    have hd : w.next ≤ d := hd
    rw [hlog, if_neg (by omega), List.append_nil]
    exact h.fresh d hd
  case gone =>
    rw [hnx]
    intro d hd hn
    have hdc : d ≠ y.id := by
      rintro rfl
      exact hn _ ((hlive _).mpr ⟨y, hy, rfl⟩) (by rw [(hz y).1])
    have : Over d w.log := h.gone d hd (fun z hz1 => by
      have := hn _ ((hlive _).mpr ⟨z, hz1, rfl⟩)
      rwa [(hz z).1] at this)
    simpa only [Over, hlog, if_neg hdc, List.append_nil] using this
  case now =>
    rw [hf]
    intro z hz1
    obtain ⟨z0, hz0, rfl⟩ := (hlive z).mp hz1
    obtain ⟨p, hp, hn⟩ := h.now z0 hz0
    refine ⟨p, by rw [(hz z0).2.2]; exact hp, ?_⟩
    by_cases hzc : z0.id = y.id
    · have : z0 = y := h.idUniq z0 hz0 y hy hzc
      subst this
      rw [hs] at hn
      rw [if_pos (by simp)]
      refine ⟨[], by simp [Messages], ?_⟩
      show calls z0.id v.log = _
      rw [hlog, if_pos rfl, show calls z0.id w.log = _ from hn]
      rfl
    · rw [if_neg (by simp [hzc])]
      cases hst : z0.stage <;> rw [hst] at hn <;>
        simpa only [Now, hlog, if_neg hzc, List.append_nil] using hn

/-- A message is delivered. -/
theorem Inv.message {w : World} (h : Inv w) {y : Conn} (hy : y ∈ w.live) (hs : y.stage = .accepted)
    {p : Nat} (hp : (y.fd, p) ∈ w.fds) (m : Nat) : Inv (w.note (.message y.id p m)) := by
  have hlog : ∀ d, calls d (w.log ++ [.message y.id p m]) =
      calls d w.log ++ (if d = y.id then [.message y.id p m] else []) := by
    intro d
    rw [calls_append]
    by_cases hd : d = y.id
    · rw [if_pos hd, calls_one_yes (by simp [callOf, hd])]
    · rw [if_neg hd, calls_one_no (by simp [callOf, Ne.symm hd])]
  constructor <;> dsimp only [World.note]
  case slotFd => exact h.slotFd
  case uniq => exact h.uniq
  case slotConn => exact h.slotConn
  case connSlot => exact h.connSlot
  case idUniq => exact h.idUniq
  case idLt => exact h.idLt
  case fdUniq => exact h.fdUniq
  case fdsUniq => exact h.fdsUniq
  case fdsLive => exact h.fdsLive
  case fresh =>
    intro d hd
    have := h.idLt y hy
    rw [hlog, if_neg (by omega), List.append_nil]
    exact h.fresh d hd
  case gone =>
    intro d hd hn
    have hdc : d ≠ y.id := fun e => hn y hy e.symm
    simpa only [Over, hlog, if_neg hdc, List.append_nil] using h.gone d hd hn
  case now =>
    intro z hz
    obtain ⟨q, hq, hn⟩ := h.now z hz
    refine ⟨q, hq, ?_⟩
    by_cases hzc : z.id = y.id
    · have : z = y := h.idUniq z hz y hy hzc
      subst this
      have hqp : q = p := by
        have := h.fdsUniq _ hq _ hp rfl
        injection this
      subst hqp
      rw [hs] at hn ⊢
      obtain ⟨msgs, hm, hc⟩ := hn
      refine ⟨msgs ++ [.message z.id q m], hm.snoc, ?_⟩
      rw [hlog, if_pos rfl, hc]
      simp
    · cases hst : z.stage <;> rw [hst] at hn <;>
        simpa only [Now, hlog, if_neg hzc, List.append_nil] using hn

/-! ### The relation between the states before and after a step -/

/-- The log has grown, and a session has kept its slot or has ended. -/
def Later (w v : World) : Prop :=
  ∃ new, v.log = w.log ++ new ∧
    ∀ (j : Nat) (x : Slot) (c s : Nat), w.slots[j]? = some x → x.ep = some (.conn c s) →
      v.slots[j]? = some x ∨ .disconnect c ∈ new

theorem Later.refl (w : World) : Later w w := ⟨[], by simp, fun _ _ _ _ h _ => Or.inl h⟩

theorem Later.trans {u v w : World} (h : Later u v) (k : Later v w) : Later u w := by
  obtain ⟨n1, l1, c1⟩ := h
  obtain ⟨n2, l2, c2⟩ := k
  refine ⟨n1 ++ n2, by rw [l2, l1, List.append_assoc], ?_⟩
  intro j x c s hx hc
  rcases c1 j x c s hx hc with h1 | h1
  · rcases c2 j x c s h1 hc with h2 | h2
    · exact Or.inl h2
    · exact Or.inr (List.mem_append.mpr (Or.inr h2))
  · exact Or.inr (List.mem_append.mpr (Or.inl h1))

theorem Grow.later {w v : World} (g : Grow w v) : Later w v := by
  obtain ⟨n, l, -, c, -⟩ := g.log
  exact ⟨n, l, c⟩

theorem Later.of_slots {w v : World} {new : List Ev} (h : v.log = w.log ++ new) (hs : v.slots = w.slots) :
    Later w v := ⟨new, h, fun j x c s hx _ => Or.inl (by rw [hs]; exact hx)⟩

theorem later_register {w : World} (h : ∀ (i : Nat) (x : Slot), w.slots[i]? = some x → x.fd = none → x.ep = none)
    (e : Ep) (fd : Nat) : Later w (register w e fd) := by
  obtain ⟨i, hi, hfree, hj, -⟩ := register_slots w e fd
  obtain ⟨-, -, -, h5, -⟩ := register_same w e fd
  refine ⟨[], by simp [h5], ?_⟩
  intro j x c s hx hc
  left
  rw [hj j]
  · exact hx
  · rintro rfl
    rw [h j x hx (hfree x hx)] at hc; cases hc

/-! ### Removal of an endpoint -/

/-- What removing an endpoint keeps. -/
structure Less (w v : World) : Prop where
  inv : Inv v
  later : Later w v
  len : w.slots.length ≤ v.slots.length
  old : ∀ (j : Nat) (x : Slot) (e : Ep), v.slots[j]? = some x → x.ep = some e → Ours e → w.slots[j]? = some x
  liveOld : ∀ y ∈ v.live, y ∈ w.live
  same : v.next = w.next ∧ v.listening = w.listening ∧ v.queue = w.queue ∧ v.stopping = w.stopping ∧
    v.cleaned = w.cleaned ∧ v.cursor = w.cursor ∧ v.fault = w.fault
  evs : ∀ new, v.log = w.log ++ new → ∀ e ∈ new, ∃ c, e = .disconnect c

theorem Less.refl {w : World} (h : Inv w) : Less w w :=
  ⟨h, Later.refl w, Nat.le_refl _, fun _ _ _ h _ _ => h, fun _ h => h, ⟨rfl, rfl, rfl, rfl, rfl, rfl, rfl⟩,
    fun new hn => by
      have : new = [] := by simpa using hn
      simp [this]⟩

theorem Less.trans {u v w : World} (h : Less u v) (k : Less v w) : Less u w := by
  refine ⟨k.inv, h.later.trans k.later, Nat.le_trans h.len k.len, ?_, fun y hy => h.liveOld y (k.liveOld y hy), ?_, ?_⟩
  · intro j x e hx he ho
    exact h.old j x e (k.old j x e hx he ho) he ho
  · obtain ⟨a1, a2, a3, a4, a5, a6, a7⟩ := h.same
    obtain ⟨b1, b2, b3, b4, b5, b6, b7⟩ := k.same
    exact ⟨b1.trans a1, b2.trans a2, b3.trans a3, b4.trans a4, b5.trans a5, b6.trans a6, b7.trans a7⟩
  · intro new hn e he
    obtain ⟨n1, l1, -⟩ := h.later
    obtain ⟨n2, l2, -⟩ := k.later
    have : new = n1 ++ n2 := by
      rw [l2, l1, List.append_assoc] at hn
      exact (List.append_cancel_left hn).symm
    rw [this] at he
    rcases List.mem_append.mp he with he | he
    · exact h.evs n1 l1 e he
    · exact k.evs n2 l2 e he

theorem Grow.less {w v : World} (g : Grow w v) (h : Inv v) : Less w v := by
  refine ⟨h, g.later, g.len, g.old, g.liveOld, g.same, ?_⟩
  intro new hn e he
  obtain ⟨n, l, hev, -⟩ := g.log
  have : new = n := by rw [l] at hn; exact (List.append_cancel_left hn).symm
  subst this
  obtain ⟨y, -, -, hy⟩ := hev e he
  exact ⟨_, hy⟩

/-- Removing an endpoint, with everything that callbacks do. -/
theorem unpollWith_ok {w : World} (h : Inv w) {i : Nat} {x : Slot} {e : Ep} (hx : w.slots[i]? = some x)
    (he : x.ep = some e) (bye : Do) : Less w (unpollWith w i e bye) ∧
      ∀ (y : Slot) (e' : Ep), (unpollWith w i e bye).slots[i]? = some y → y.ep = some e' → ¬ Ours e' := by
  have hun : ∀ (he' : ∀ c s, x.ep ≠ some (.conn c s)), Less w (unpoll w i) := by
    intro he'
    refine ⟨h.unpoll_other hx he', ⟨[], by simp [unpoll], ?_⟩, ?_, ?_, fun _ h => h,
      ⟨rfl, rfl, rfl, rfl, rfl, rfl, rfl⟩, ?_⟩
    · intro j y c s hy hc
      left
      rw [unpoll_ne]
      · exact hy
      · rintro rfl
        rw [hx] at hy; cases hy
        exact he' c s hc
    · show _ ≤ (w.slots.set i {}).length
      simp
    · intro j y e1 hy he1 _
      by_cases hij : i = j
      · subst hij
        rw [unpoll_eq hy] at he1; cases he1
      · rwa [unpoll_ne hij] at hy
    · intro new hn
      have : new = [] := by simpa [unpoll] using hn
      simp [this]
  have hgone : ∀ (v : World) (hg : ∀ (j : Nat) (x : Slot) (e : Ep), v.slots[j]? = some x → x.ep = some e →
      Ours e → (unpoll w i).slots[j]? = some x) (y : Slot) (e' : Ep), v.slots[i]? = some y → y.ep = some e' → ¬ Ours e' := by
    intro v hg y e' hy he' ho
    have := hg i y e' hy he' ho
    rw [unpoll_eq this] at he'; cases he'
  cases e with
  | command =>
    have hl := hun (by intro c s; rw [he]; simp)
    exact ⟨hl, hgone _ (fun _ _ _ h _ _ => h)⟩
  | listener t =>
    have hl := hun (by intro c s; rw [he]; simp)
    exact ⟨hl, hgone _ (fun _ _ _ h _ _ => h)⟩
  | conn c s =>
    have hb := h.beginEnd hx he
    obtain ⟨hv, gv⟩ := doAll_ok bye _ hb
    refine ⟨(grow_end h hx he gv).less (inv_end h hx he gv hv), hgone _ ?_⟩
    intro j y e' hy he' ho
    have hy' : (doAll bye (beginEnd (unpoll w i) c)).slots[j]? = some y := by
      rw [← (destroy_same _ c).1]; exact hy
    exact gv.old j y e' hy' he' ho
  | other k =>
    have hu := h.unpoll_other hx (by intro c s; rw [he]; simp)
    obtain ⟨hv, gv⟩ := doAll_ok bye _ hu
    exact ⟨(hun (by intro c s; rw [he]; simp)).trans (gv.less hv), hgone _ gv.old⟩

theorem ownedBy_ours {s : Nat} {o : Option Ep} (h : ownedBy s o = true) : ∃ e, o = some e ∧ Ours e := by
  cases o with
  | none => cases h
  | some e => cases e <;> simp_all [ownedBy, Ours]

theorem nextOwned_some {s i j : Nat} {l : List Slot} (h : nextOwned s i l = some j) :
    i ≤ j ∧ ∃ x, l[j]? = some x ∧ ownedBy s x.ep = true ∧
      ∀ k x, i ≤ k → k < j → l[k]? = some x → ownedBy s x.ep = false := by
  rw [nextOwned, Option.map_eq_some_iff] at h
  obtain ⟨m, hm, rfl⟩ := h
  rw [List.findIdx?_eq_some_iff_getElem] at hm
  obtain ⟨hl, hp, hb⟩ := hm
  refine ⟨Nat.le_add_left _ _, (l.drop i)[m], ?_, hp, ?_⟩
  · have : (l.drop i)[m]? = some (l.drop i)[m] := by simp [hl]
    rw [List.getElem?_drop] at this
    rw [Nat.add_comm]; exact this
  · intro k x hik hkm hx
    have hlt : k - i < m := by omega
    have hl2 : k - i < (l.drop i).length := by omega
    have hb2 := hb (k - i) hlt
    have : (l.drop i)[k - i]? = some x := by
      rw [List.getElem?_drop, show i + (k - i) = k from by omega]; exact hx
    rw [List.getElem?_eq_getElem hl2] at this
    injection this with this
    rw [this] at hb2
    simpa using hb2

theorem nextOwned_none {s i : Nat} {l : List Slot} (h : nextOwned s i l = none) (k : Nat) (x : Slot)
    (hk : i ≤ k) (hx : l[k]? = some x) : ownedBy s x.ep = false := by
  rw [nextOwned, Option.map_eq_none_iff, List.findIdx?_eq_none_iff] at h
  apply h x
  apply List.mem_of_getElem? (i := k - i)
  rw [List.getElem?_drop, show i + (k - i) = k from by omega]; exact hx

theorem cleanupFrom_ok (n : Nat) : ∀ (w : World) (s i L : Nat) (bye : Nat → Do), Inv w →
    (∀ (k : Nat) (x : Slot), k < i → w.slots[k]? = some x → ownedBy s x.ep = false) →
    (∀ (k : Nat) (x : Slot), w.slots[k]? = some x → ownedBy s x.ep = true → k < L) → L ≤ i + n →
    Less w (cleanupFrom n w s i bye) ∧
    ∀ (k : Nat) (x : Slot), (cleanupFrom n w s i bye).slots[k]? = some x → ownedBy s x.ep = false := by
  induction n with
  | zero =>
    intro w s i L bye h h1 h2 h3
    refine ⟨Less.refl h, ?_⟩
    intro k x hx
    cases ho : ownedBy s x.ep with
    | false => rfl
    | true =>
      have hk := h2 k x hx ho
      rw [h1 k x (by omega) hx] at ho; cases ho
  | succ n ih =>
    intro w s i L bye h h1 h2 h3
    rw [cleanupFrom]
    cases hn : nextOwned s i w.slots with
    | none =>
      refine ⟨Less.refl h, ?_⟩
      intro k x hx
      rcases Nat.lt_or_ge k i with hk | hk
      · exact h1 k x hk hx
      · exact nextOwned_none hn k x hk hx
    | some j =>
      obtain ⟨hij, x, hx, hox, hbefore⟩ := nextOwned_some hn
      obtain ⟨e, he, hours⟩ := ownedBy_ours hox
      dsimp only
      rw [hx, Option.bind_some, he]
      dsimp only
      generalize bye e.session = b
      obtain ⟨hl, hgone⟩ := unpollWith_ok h hx he b
      have hback : ∀ (k : Nat) (y : Slot), (unpollWith w j e b).slots[k]? = some y → ownedBy s y.ep = true →
          w.slots[k]? = some y := by
        intro k y hy hoy
        obtain ⟨e', he', ho'⟩ := ownedBy_ours hoy
        exact hl.old k y e' hy he' ho'
      have a1 : ∀ (k : Nat) (y : Slot), k < j + 1 → (unpollWith w j e b).slots[k]? = some y →
          ownedBy s y.ep = false := by
        intro k y hk hy
        cases hoy : ownedBy s y.ep with
        | false => rfl
        | true =>
          have hw := hback k y hy hoy
          rcases Nat.lt_or_ge k i with hki | hki
          · rw [h1 k y hki hw] at hoy; cases hoy
          · rcases Nat.lt_or_ge k j with hkj | hkj
            · rw [hbefore k y hki hkj hw] at hoy; cases hoy
            · have : k = j := by omega
              subst this
              obtain ⟨e', he', ho'⟩ := ownedBy_ours hoy
              exact absurd ho' (hgone y e' hy he')
      have a2 : ∀ (k : Nat) (y : Slot), (unpollWith w j e b).slots[k]? = some y → ownedBy s y.ep = true → k < L := by
        intro k y hy hoy
        exact h2 k y (hback k y hy hoy) hoy
      obtain ⟨r1, r2⟩ := ih (unpollWith w j e b) s (j + 1) L bye hl.inv a1 a2 (by omega)
      exact ⟨hl.trans r1, r2⟩

end Verif.UnixServer
