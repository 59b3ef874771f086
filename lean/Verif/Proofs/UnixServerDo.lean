import Verif.Proofs.UnixServer
/-!
# Sessions of a server: what callbacks do
-/
namespace Verif.UnixServer

theorem Messages.snoc {c p m : Nat} {l : List Ev} (h : Messages c p l) :
    Messages c p (l ++ [.message c p m]) := by
  intro e he
  rcases List.mem_append.mp he with he | he
  · exact h e he
  · exact ⟨m, by simpa using he⟩

/-- The end of a session begins. -/
theorem Inv.beginEnd {w : World} (h : Inv w) {i : Nat} {x : Slot} {c s : Nat} (hx : w.slots[i]? = some x)
    (hc : x.ep = some (.conn c s)) : Inv (beginEnd (unpoll w i) c) := by
  obtain ⟨y, hy, hyc, hys, hya, hyf⟩ := h.slotConn i x c s hx hc
  have hlive : ∀ z, z ∈ (UnixServer.beginEnd (unpoll w i) c).live ↔
      ∃ z0 ∈ w.live, z = if z0.id == c then { z0 with stage := .ending } else z0 := by
    intro z
    show z ∈ w.live.map _ ↔ _
    rw [List.mem_map]
    constructor
    · rintro ⟨z0, h0, rfl⟩; exact ⟨z0, h0, rfl⟩
    · rintro ⟨z0, h0, rfl⟩; exact ⟨z0, h0, rfl⟩
  have hz : ∀ z0 : Conn, (if z0.id == c then { z0 with stage := Stage.ending } else z0).id = z0.id ∧
      (if z0.id == c then { z0 with stage := Stage.ending } else z0).srv = z0.srv ∧
      (if z0.id == c then { z0 with stage := Stage.ending } else z0).fd = z0.fd := by
    intro z0; split <;> simp
  have hlog : ∀ d, calls d (UnixServer.beginEnd (unpoll w i) c).log =
      calls d w.log ++ (if d = c then [.disconnect c] else []) := by
    intro d
    show calls d (w.log ++ [.disconnect c]) = _
    rw [calls_append]
    by_cases hd : d = c
    · rw [if_pos hd, calls_one_yes (by simp [callOf, hd])]
    · rw [if_neg hd, calls_one_no (by simp [callOf, Ne.symm hd])]
  constructor
  case slotFd =>
    intro j z hzz
    by_cases hij : i = j
    · subst hij; rw [unpoll_eq (show (unpoll w i).slots[i]? = some z from hzz)]; simp
    · rw [show (UnixServer.beginEnd (unpoll w i) c).slots[j]? = (unpoll w i).slots[j]? from rfl, unpoll_ne hij] at hzz
      exact h.slotFd j z hzz
  case uniq =>
    intro j k z z' d t t' hj hk hd hd'
    have e1 : i ≠ j := by
      rintro rfl; rw [unpoll_eq (show (unpoll w i).slots[i]? = some z from hj)] at hd; cases hd
    have e2 : i ≠ k := by
      rintro rfl; rw [unpoll_eq (show (unpoll w i).slots[i]? = some z' from hk)] at hd'; cases hd'
    exact h.uniq j k z z' d t t' (by rw [← unpoll_ne e1]; exact hj) (by rw [← unpoll_ne e2]; exact hk) hd hd'
  case slotConn =>
    intro j z d t hj hd
    have e1 : i ≠ j := by
      rintro rfl; rw [unpoll_eq (show (unpoll w i).slots[i]? = some z from hj)] at hd; cases hd
    have hj' : w.slots[j]? = some z := by rw [← unpoll_ne e1]; exact hj
    obtain ⟨q, hq, hqd, hqt, hqa, hqf⟩ := h.slotConn j z d t hj' hd
    have hdc : d ≠ c := by
      rintro rfl
      exact e1 (h.uniq i j x z d s t hx hj' hc hd)
    refine ⟨q, (hlive q).mpr ⟨q, hq, ?_⟩, hqd, hqt, hqa, hqf⟩
    rw [if_neg (by simp [hqd, hdc])]
  case connSlot =>
    intro z hzl hza
    obtain ⟨z0, hz0, rfl⟩ := (hlive z).mp hzl
    by_cases hzc : z0.id = c
    · simp [hzc] at hza
    · rw [if_neg (by simp [hzc])] at hza ⊢
      obtain ⟨j, q, hq, hqe⟩ := h.connSlot z0 hz0 hza
      have e1 : i ≠ j := by
        rintro rfl
        rw [hx] at hq; cases hq
        rw [hc] at hqe
        injection hqe with e; injection e with e _
        exact hzc e.symm
      exact ⟨j, q, by rw [show (UnixServer.beginEnd (unpoll w i) c).slots[j]? = (unpoll w i).slots[j]? from rfl,
        unpoll_ne e1]; exact hq, hqe⟩
  case idUniq =>
    intro z hz1 z' hz2 he
    obtain ⟨z0, hz0, rfl⟩ := (hlive z).mp hz1
    obtain ⟨z0', hz0', rfl⟩ := (hlive z').mp hz2
    rw [(hz z0).1, (hz z0').1] at he
    rw [h.idUniq z0 hz0 z0' hz0' he]
  case idLt =>
    intro z hz1
    obtain ⟨z0, hz0, rfl⟩ := (hlive z).mp hz1
    rw [(hz z0).1]
    exact h.idLt z0 hz0
  case fdUniq =>
    intro z hz1 z' hz2 he
    obtain ⟨z0, hz0, rfl⟩ := (hlive z).mp hz1
    obtain ⟨z0', hz0', rfl⟩ := (hlive z').mp hz2
    rw [(hz z0).2.2, (hz z0').2.2] at he
    rw [(hz z0).1, (hz z0').1]
    exact h.fdUniq z0 hz0 z0' hz0' he
  case fdsUniq => exact h.fdsUniq
  case fdsLive =>
    intro a ha
    obtain ⟨z0, hz0, hf⟩ := h.fdsLive a ha
    exact ⟨_, (hlive _).mpr ⟨z0, hz0, rfl⟩, by rw [(hz z0).2.2]; exact hf⟩
  case fresh =>
    intro d hd
    rw [hlog, if_neg, List.append_nil]
    · exact h.fresh d hd
    · rintro rfl
      have := h.idLt y hy
      rw [hyc] at this
      exact absurd this (Nat.not_lt.mpr hd)
  case gone =>
    intro d hd hn
    have hdc : d ≠ c := by
      rintro rfl
      exact hn _ ((hlive _).mpr ⟨y, hy, rfl⟩) (by rw [(hz y).1]; exact hyc)
    have : Over d w.log := h.gone d hd (fun z hz1 => by
      have := hn _ ((hlive _).mpr ⟨z, hz1, rfl⟩)
      rwa [(hz z).1] at this)
    simpa only [Over, hlog, if_neg hdc, List.append_nil] using this
  case now =>
    intro z hz1
    obtain ⟨z0, hz0, rfl⟩ := (hlive z).mp hz1
    obtain ⟨p, hp, hn⟩ := h.now z0 hz0
    refine ⟨p, by rw [(hz z0).2.2]; exact hp, ?_⟩
    by_cases hzc : z0.id = c
    · have : z0 = y := h.idUniq z0 hz0 y hy (hzc.trans hyc.symm)
      subst this
      rw [hya] at hn
      obtain ⟨msgs, hm, hcalls⟩ := hn
      rw [if_pos (by simp [hzc])]
      refine ⟨msgs, hm, ?_⟩
      show calls z0.id _ = _
      rw [hlog, if_pos hzc, hcalls, hzc]
      simp
    · rw [if_neg (by simp [hzc])]
      cases hs : z0.stage <;> rw [hs] at hn <;>
        simpa only [Now, hlog, if_neg hzc, List.append_nil] using hn

/-- An object in its destructor is destroyed, or one that was refused (`hov`). -/
theorem Inv.destroy {w v : World} {c : Nat} {y : Conn} (h : Inv v) (hy : y ∈ v.live) (hyc : y.id = c)
    (hna : y.stage ≠ .accepted)
    (h1 : w.slots = v.slots) (h2 : w.live = v.live) (h3 : w.fds = v.fds) (h4 : w.next = v.next)
    (h5 : ∀ d, d ≠ c → calls d w.log = calls d v.log) (hov : Over c w.log) :
    Inv (UnixServer.destroy w c) := by
  have hfind : conn? w c = some y := by
    cases hf : conn? w c with
    | none => exact absurd hyc (conn?_none hf y (h2 ▸ hy))
    | some z =>
      obtain ⟨hz, hzc⟩ := conn?_some hf
      rw [h2] at hz
      rw [h.idUniq z hz y hy (hzc.trans hyc.symm)]
  have hd : UnixServer.destroy w c =
      { w with live := w.live.filter (·.id != c), fds := w.fds.filter (·.1 != y.fd) } := by
    rw [UnixServer.destroy, hfind]
  rw [hd]
  have hlive : ∀ z, z ∈ w.live.filter (·.id != c) ↔ z ∈ v.live ∧ z.id ≠ c := by
    intro z; rw [h2]; simp [List.mem_filter]
  have hfds : ∀ a, a ∈ w.fds.filter (·.1 != y.fd) ↔ a ∈ v.fds ∧ a.1 ≠ y.fd := by
    intro a; rw [h3]; simp [List.mem_filter]
  constructor <;> dsimp only
  case slotFd => rw [h1]; exact h.slotFd
  case uniq => rw [h1]; exact h.uniq
  case slotConn =>
    rw [h1]
    intro i x d s hx hc
    obtain ⟨z, hz, hzd, hzs, hza, hzf⟩ := h.slotConn i x d s hx hc
    refine ⟨z, (hlive z).mpr ⟨hz, ?_⟩, hzd, hzs, hza, hzf⟩
    intro hzc
    rw [h.idUniq z hz y hy (hzc.trans hyc.symm)] at hza
    exact hna hza
  case connSlot =>
    rw [h1]
    intro z hz hza
    exact h.connSlot z ((hlive z).mp hz).1 hza
  case idUniq =>
    intro z hz z' hz' he
    exact h.idUniq z ((hlive z).mp hz).1 z' ((hlive z').mp hz').1 he
  case idLt =>
    rw [h4]
    intro z hz
    exact h.idLt z ((hlive z).mp hz).1
  case fdUniq =>
    intro z hz z' hz' he
    exact h.fdUniq z ((hlive z).mp hz).1 z' ((hlive z').mp hz').1 he
  case fdsUniq =>
    intro a ha b hb he
    exact h.fdsUniq a ((hfds a).mp ha).1 b ((hfds b).mp hb).1 he
  case fdsLive =>
    intro a ha
    obtain ⟨ha1, ha2⟩ := (hfds a).mp ha
    obtain ⟨z, hz, hzf⟩ := h.fdsLive a ha1
    refine ⟨z, (hlive z).mpr ⟨hz, ?_⟩, hzf⟩
    intro hzc
    rw [h.idUniq z hz y hy (hzc.trans hyc.symm)] at hzf
    exact ha2 hzf.symm
  case fresh =>
    rw [h4]
    intro d hdn
    rw [h5]
    · exact h.fresh d hdn
    · rintro rfl
      have := h.idLt y hy
      rw [hyc] at this
      exact absurd this (Nat.not_lt.mpr hdn)
  case gone =>
    rw [h4]
    intro d hd hn
    by_cases hdc : d = c
    · rw [hdc]; exact hov
    · have := h.gone d hd (fun z hz hzd => hn z ((hlive z).mpr ⟨hz, hzd ▸ hdc⟩) hzd)
      simpa only [Over, h5 d hdc] using this
  case now =>
    intro z hz
    obtain ⟨hz1, hz2⟩ := (hlive z).mp hz
    obtain ⟨p, hp, hn⟩ := h.now z hz1
    refine ⟨p, (hfds _).mpr ⟨hp, ?_⟩, ?_⟩
    · intro hf
      exact hz2 ((h.fdUniq z hz1 y hy hf).trans hyc)
    · cases hs : z.stage <;> rw [hs] at hn <;> simpa only [Now, h5 z.id hz2] using hn

theorem Inv.destroy_ending {w : World} {c : Nat} {y : Conn} (h : Inv w) (hy : y ∈ w.live) (hyc : y.id = c)
    (hs : y.stage = .ending) : Inv (UnixServer.destroy w c) := by
  refine h.destroy hy hyc (by rw [hs]; decide) rfl rfl rfl rfl (fun _ _ => rfl) ?_
  obtain ⟨p, -, hn⟩ := h.now y hy
  rw [hs] at hn
  obtain ⟨msgs, hm, hcalls⟩ := hn
  rw [hyc] at hm hcalls
  exact ⟨y.srv, p, Or.inr ⟨msgs, hm, hcalls⟩⟩

/-! ### What a callback may change -/

/-- Endpoints of the server side. -/
def Ours : Ep → Prop
  | .other _ => False
  | _ => True

/-- From `w` to `v` callbacks have done things. -/
structure Grow (w v : World) : Prop where
  same : v.next = w.next ∧ v.listening = w.listening ∧ v.queue = w.queue ∧ v.stopping = w.stopping ∧
    v.cleaned = w.cleaned ∧ v.cursor = w.cursor ∧ v.fault = w.fault
  len : w.slots.length ≤ v.slots.length
  old : ∀ (j : Nat) (x : Slot) (e : Ep), v.slots[j]? = some x → x.ep = some e → Ours e → w.slots[j]? = some x
  keep : ∀ (j : Nat) (x : Slot) (e : Ep), w.slots[j]? = some x → x.ep = some e → Ours e →
    (∀ c s, e ≠ .conn c s) → v.slots[j]? = some x
  liveKeep : ∀ y ∈ w.live, y.stage ≠ .accepted → y ∈ v.live
  liveOld : ∀ y ∈ v.live, y ∈ w.live
  log : ∃ new, v.log = w.log ++ new ∧
    (∀ e ∈ new, ∃ y ∈ w.live, y.stage = .accepted ∧ e = .disconnect y.id) ∧
    (∀ (j : Nat) (x : Slot) (c s : Nat), w.slots[j]? = some x → x.ep = some (.conn c s) →
      v.slots[j]? = some x ∨ .disconnect c ∈ new) ∧
    (∀ y ∈ w.live, y ∈ v.live ∨ .disconnect y.id ∈ new)

theorem Grow.refl (w : World) : Grow w w :=
  ⟨⟨rfl, rfl, rfl, rfl, rfl, rfl, rfl⟩, Nat.le_refl _, fun _ _ _ h _ _ => h, fun _ _ _ h _ _ _ => h,
    fun _ h _ => h, fun _ h => h, [], by simp, by simp, fun _ _ _ _ h _ => Or.inl h, fun _ h => Or.inl h⟩

theorem Grow.trans {u v w : World} (h : Grow u v) (k : Grow v w) : Grow u w := by
  obtain ⟨n1, l1, e1, c1, d1⟩ := h.log
  obtain ⟨n2, l2, e2, c2, d2⟩ := k.log
  refine ⟨?_, Nat.le_trans h.len k.len, ?_, ?_, ?_, fun y hy => h.liveOld y (k.liveOld y hy), n1 ++ n2, ?_, ?_, ?_, ?_⟩
  · obtain ⟨a1, a2, a3, a4, a5, a6, a7⟩ := h.same
    obtain ⟨b1, b2, b3, b4, b5, b6, b7⟩ := k.same
    exact ⟨b1.trans a1, b2.trans a2, b3.trans a3, b4.trans a4, b5.trans a5, b6.trans a6, b7.trans a7⟩
  · intro j x e hx he ho
    exact h.old j x e (k.old j x e hx he ho) he ho
  · intro j x e hx he ho hn
    exact k.keep j x e (h.keep j x e hx he ho hn) he ho hn
  · intro y hy hs
    exact k.liveKeep y (h.liveKeep y hy hs) hs
  · rw [l2, l1, List.append_assoc]
  · intro e he
    rcases List.mem_append.mp he with he | he
    · exact e1 e he
    · obtain ⟨y, hy, hs, hyy⟩ := e2 e he
      exact ⟨y, h.liveOld y hy, hs, hyy⟩
  · intro j x c s hx hc
    rcases c1 j x c s hx hc with h1 | h1
    · rcases c2 j x c s h1 hc with h2 | h2
      · exact Or.inl h2
      · exact Or.inr (List.mem_append.mpr (Or.inr h2))
    · exact Or.inr (List.mem_append.mpr (Or.inl h1))
  · intro y hy
    rcases d1 y hy with h1 | h1
    · rcases d2 y h1 with h2 | h2
      · exact Or.inl h2
      · exact Or.inr (List.mem_append.mpr (Or.inr h2))
    · exact Or.inr (List.mem_append.mpr (Or.inl h1))

theorem grow_register {w : World} (h : Inv w) (k fd : Nat) : Grow w (register w (.other k) fd) := by
  obtain ⟨i, hi, hfree, hj, hlen⟩ := register_slots w (.other k) fd
  obtain ⟨h2, h3, h4, h5, h6, h7, h8, h9, h10, h11⟩ := register_same w (.other k) fd
  have hne : ∀ (j : Nat) (x : Slot) (e : Ep), w.slots[j]? = some x → x.ep = some e → j ≠ i := by
    rintro j x e hx he rfl
    have := ((h.slotFd j x hx).1 (hfree x hx)).1
    rw [this] at he; cases he
  refine ⟨⟨h4, h7, h6, h8, h9, h10, h11⟩, hlen, ?_, ?_, ?_, ?_, [], by simp [h5], by simp, ?_, ?_⟩
  · intro j x e hx he ho
    by_cases hji : j = i
    · rw [hji, hi] at hx; cases hx
      cases he
      exact absurd ho (by simp [Ours])
    · rw [hj j hji] at hx; exact hx
  · intro j x e hx he _ _
    rw [hj j (hne j x e hx he)]; exact hx
  · intro y hy _; rw [h2]; exact hy
  · intro y hy; rw [h2] at hy; exact hy
  · intro j x c s hx hc
    left
    rw [hj j (hne j x _ hx hc)]; exact hx
  · intro y hy; rw [h2]; exact Or.inl hy

theorem grow_unpoll_other {w : World} {i : Nat} {x : Slot} {k : Nat} (hx : w.slots[i]? = some x)
    (hk : x.ep = some (.other k)) : Grow w (unpoll w i) := by
  have hne : ∀ (j : Nat) (y : Slot) (e : Ep), w.slots[j]? = some y → y.ep = some e → Ours e → i ≠ j := by
    rintro j y e hy he ho rfl
    rw [hx] at hy; cases hy
    rw [hk] at he; cases he
    exact ho
  refine ⟨⟨rfl, rfl, rfl, rfl, rfl, rfl, rfl⟩, ?_, ?_, ?_, fun _ h _ => h, fun _ h => h, [], by simp [unpoll], by simp, ?_,
    fun _ h => Or.inl h⟩
  · show _ ≤ (w.slots.set i {}).length
    simp
  · intro j y e hy he ho
    by_cases hij : i = j
    · subst hij
      rw [unpoll_eq hy] at he; cases he
    · rwa [unpoll_ne hij] at hy
  · intro j y e hy he ho _
    rw [unpoll_ne (hne j y e hy he ho)]; exact hy
  · intro j y c s hy hc
    left
    rw [unpoll_ne (hne j y _ hy hc trivial)]; exact hy

theorem destroy_same (w : World) (c : Nat) :
    (destroy w c).slots = w.slots ∧ (destroy w c).next = w.next ∧ (destroy w c).log = w.log ∧
    (destroy w c).listening = w.listening ∧ (destroy w c).queue = w.queue ∧
    (destroy w c).stopping = w.stopping ∧ (destroy w c).cleaned = w.cleaned ∧
    (destroy w c).cursor = w.cursor ∧ (destroy w c).fault = w.fault := by
  unfold destroy
  split <;> simp

theorem destroy_live {w : World} {c : Nat} (y : Conn) : y ∈ (destroy w c).live ↔ y ∈ w.live ∧ y.id ≠ c := by
  unfold destroy
  split
  · rename_i h
    constructor
    · intro hy; exact ⟨hy, conn?_none h y hy⟩
    · intro hy; exact hy.1
  · show y ∈ w.live.filter _ ↔ _
    simp [List.mem_filter]

/-- A session is ended. -/
theorem grow_end {w v : World} (h : Inv w) {i : Nat} {x : Slot} {c s : Nat} (hx : w.slots[i]? = some x)
    (hc : x.ep = some (.conn c s)) (g : Grow (beginEnd (unpoll w i) c) v) : Grow w (destroy v c) := by
  obtain ⟨y, hy, hyc, hys, hya, hyf⟩ := h.slotConn i x c s hx hc
  obtain ⟨d1, d2, d3, d4, d5, d6, d7, d8, d9⟩ := destroy_same v c
  obtain ⟨n, l1, e1, c1, k1⟩ := g.log
  have hul : ∀ z, z ∈ (beginEnd (unpoll w i) c).live → z.id ≠ c → z ∈ w.live := by
    intro z hz hzc
    obtain ⟨z0, h0, rfl⟩ := List.mem_map.mp (show z ∈ w.live.map _ from hz)
    by_cases h0c : z0.id = c
    · simp [h0c] at hzc
    · rw [if_neg (by simp [h0c])]; exact h0
  have hlu : ∀ z, z ∈ w.live → z.id ≠ c → z ∈ (beginEnd (unpoll w i) c).live := by
    intro z hz hzc
    show z ∈ w.live.map _
    exact List.mem_map.mpr ⟨z, hz, by rw [if_neg (by simp [hzc])]⟩
  have hslot : ∀ j : Nat, (beginEnd (unpoll w i) c).slots[j]? = (unpoll w i).slots[j]? := fun _ => rfl
  refine ⟨?_, ?_, ?_, ?_, ?_, ?_, [.disconnect c] ++ n, ?_, ?_, ?_, ?_⟩
  · obtain ⟨a1, a2, a3, a4, a5, a6, a7⟩ := g.same
    exact ⟨d2.trans a1, d4.trans a2, d5.trans a3, d6.trans a4, d7.trans a5, d8.trans a6, d9.trans a7⟩
  · rw [d1]
    refine Nat.le_trans ?_ g.len
    show _ ≤ (w.slots.set i {}).length
    simp
  · intro j z e hz he ho
    rw [d1] at hz
    have := g.old j z e hz he ho
    rw [hslot] at this
    by_cases hij : i = j
    · subst hij
      rw [unpoll_eq this] at he; cases he
    · rwa [unpoll_ne hij] at this
  · intro j z e hz he ho hn
    rw [d1]
    apply g.keep j z e _ he ho hn
    rw [hslot, unpoll_ne]
    · exact hz
    · rintro rfl
      rw [hx] at hz; cases hz
      rw [hc] at he; cases he
      exact hn c s rfl
  · intro z hz hzs
    have hzc : z.id ≠ c := by
      intro hzc
      rw [h.idUniq z hz y hy (hzc.trans hyc.symm)] at hzs
      exact hzs hya
    exact (destroy_live z).mpr ⟨g.liveKeep z (hlu z hz hzc) hzs, hzc⟩
  · intro z hz
    obtain ⟨hz1, hz2⟩ := (destroy_live z).mp hz
    exact hul z (g.liveOld z hz1) hz2
  · rw [d3, l1]
    show (w.log ++ [.disconnect c]) ++ n = _
    simp
  · intro e he
    rcases List.mem_append.mp he with he | he
    · exact ⟨y, hy, hya, by rw [hyc]; simpa using he⟩
    · obtain ⟨z, hz, hzs, hze⟩ := e1 e he
      refine ⟨z, hul z hz ?_, hzs, hze⟩
      intro hzc
      obtain ⟨z0, h0, rfl⟩ := List.mem_map.mp (show z ∈ w.live.map _ from hz)
      by_cases h0c : z0.id = c
      · simp [h0c] at hzs
      · rw [if_neg (by simp [h0c])] at hzc; exact h0c hzc
  · intro j z d t hz hd
    rw [d1]
    by_cases hij : i = j
    · subst hij
      rw [hx] at hz; cases hz
      rw [hc] at hd; cases hd
      right; simp
    · rcases c1 j z d t (by rw [hslot, unpoll_ne hij]; exact hz) hd with h1 | h1
      · exact Or.inl h1
      · exact Or.inr (List.mem_append.mpr (Or.inr h1))
  · intro z hz
    by_cases hzc : z.id = c
    · right; rw [hzc]; simp
    · rcases k1 z (hlu z hz hzc) with h1 | h1
      · exact Or.inl ((destroy_live z).mpr ⟨h1, hzc⟩)
      · exact Or.inr (List.mem_append.mpr (Or.inr h1))

theorem ending_mem {w : World} (h : Inv w) {i : Nat} {x : Slot} {c s : Nat} (hx : w.slots[i]? = some x)
    (hc : x.ep = some (.conn c s)) :
    ∃ y ∈ (beginEnd (unpoll w i) c).live, y.id = c ∧ y.stage = .ending := by
  obtain ⟨y, hy, hyc, -⟩ := h.slotConn i x c s hx hc
  refine ⟨{ y with stage := .ending }, ?_, hyc, rfl⟩
  show _ ∈ w.live.map _
  exact List.mem_map.mpr ⟨y, hy, by rw [if_pos (by simp [hyc])]⟩

theorem inv_end {w v : World} (h : Inv w) {i : Nat} {x : Slot} {c s : Nat} (hx : w.slots[i]? = some x)
    (hc : x.ep = some (.conn c s)) (g : Grow (beginEnd (unpoll w i) c) v) (hv : Inv v) : Inv (destroy v c) := by
  obtain ⟨y, hy, hyc, hys⟩ := ending_mem h hx hc
  exact hv.destroy_ending (g.liveKeep y hy (by rw [hys]; decide)) hyc hys

/-- Everything a callback may do keeps the order. -/
theorem doAll_ok (d : Do) : ∀ w, Inv w → Inv (doAll d w) ∧ Grow w (doAll d w) := by
  induction d with
  | done => intro w h; exact ⟨h, Grow.refl w⟩
  | disconnect c inner next ih1 ih2 =>
    intro w h
    rw [doAll]
    split
    · exact ih2 w h
    · rename_i y hy
      split
      · exact ih2 w h
      · rename_i i hi
        obtain ⟨x, hx, hxc⟩ := slotOf_some hi
        have hb := h.beginEnd hx hxc
        obtain ⟨hv, gv⟩ := ih1 _ hb
        have hd := inv_end h hx hxc gv hv
        have gd := grow_end h hx hxc gv
        obtain ⟨hn, gn⟩ := ih2 _ hd
        exact ⟨hn, gd.trans gn⟩
  | register k fd next ih =>
    intro w h
    rw [doAll]
    split
    · exact ih w h
    · obtain ⟨hn, gn⟩ := ih _ (h.register_other (e := .other k) (fd := fd) (by intro c s; simp))
      exact ⟨hn, (grow_register h k fd).trans gn⟩
  | unregister k inner next ih1 ih2 =>
    intro w h
    rw [doAll]
    split
    · exact ih2 w h
    · rename_i i hi
      obtain ⟨x, hx, hxk⟩ := slotOf_some hi
      have hu := h.unpoll_other hx (by intro c s; rw [hxk]; simp)
      obtain ⟨hv, gv⟩ := ih1 _ hu
      obtain ⟨hn, gn⟩ := ih2 _ hv
      exact ⟨hn, ((grow_unpoll_other hx hxk).trans gv).trans gn⟩

end Verif.UnixServer
