import Verif.Spec.UnixServer
/-!
# Sessions of a server: lemmas
-/
namespace Verif.UnixServer

theorem calls_append (c : Nat) (a b : List Ev) : calls c (a ++ b) = calls c a ++ calls c b := by
  simp [calls]

theorem calls_one_no {c : Nat} {e : Ev} (h : callOf c e = false) : calls c [e] = [] := by
  simp [calls, h]

theorem calls_one_yes {c : Nat} {e : Ev} (h : callOf c e = true) : calls c [e] = [e] := by
  simp [calls, h]

/-! ### Finding slots -/

theorem firstSlot_some {p : Slot → Bool} {l : List Slot} {i : Nat} (h : firstSlot p l = some i) :
    ∃ x, l[i]? = some x ∧ p x = true := by
  rw [firstSlot, List.findIdx?_eq_some_iff_getElem] at h
  obtain ⟨hi, hp, -⟩ := h
  exact ⟨l[i], by simp [hi], hp⟩

theorem firstSlot_none {p : Slot → Bool} {l : List Slot} (h : firstSlot p l = none) (i : Nat) (x : Slot)
    (hx : l[i]? = some x) : p x = false := by
  rw [firstSlot, List.findIdx?_eq_none_iff] at h
  exact h x (List.mem_of_getElem? hx)

theorem slotOf_some {w : World} {e : Ep} {i : Nat} (h : slotOf w e = some i) :
    ∃ x, w.slots[i]? = some x ∧ x.ep = some e := by
  obtain ⟨x, hx, hp⟩ := firstSlot_some h
  exact ⟨x, hx, by simpa using hp⟩

theorem slotOf_none {w : World} {e : Ep} (h : slotOf w e = none) (i : Nat) (x : Slot)
    (hx : w.slots[i]? = some x) : x.ep ≠ some e := by
  have := firstSlot_none h i x hx
  simpa using this

theorem conn?_some {w : World} {c : Nat} {x : Conn} (h : conn? w c = some x) :
    x ∈ w.live ∧ x.id = c := by
  rw [conn?] at h
  exact ⟨List.mem_of_find?_eq_some h, by simpa using List.find?_some h⟩

theorem conn?_none {w : World} {c : Nat} (h : conn? w c = none) : ∀ y ∈ w.live, y.id ≠ c := by
  rw [conn?, List.find?_eq_none] at h
  intro y hy
  simpa using h y hy

/-! ### The invariant -/

/-- What the log holds of a session, by the stage of its object. -/
def Now (g : Stage) (s c p : Nat) (log : List Ev) : Prop :=
  match g with
  | .provisional => calls c log = [.connect s c p]
  | .accepted => ∃ msgs, Messages c p msgs ∧ calls c log = .connect s c p :: .accepted c :: msgs
  | .ending => ∃ msgs, Messages c p msgs ∧ calls c log = .connect s c p :: .accepted c :: (msgs ++ [.disconnect c])

/-- What the log holds of a session whose object is gone. -/
def Over (c : Nat) (log : List Ev) : Prop :=
  ∃ s p, calls c log = [.connect s c p, .refused c] ∨
    ∃ msgs, Messages c p msgs ∧ calls c log = .connect s c p :: .accepted c :: (msgs ++ [.disconnect c])

structure Inv (w : World) : Prop where
  slotFd : ∀ (i : Nat) (x : Slot), w.slots[i]? = some x → (x.fd = none → x.ep = none ∧ x.ready = false) ∧
    (x.ep = none → x.fd = none)
  uniq : ∀ (i j : Nat) (x y : Slot) (c s t : Nat), w.slots[i]? = some x → w.slots[j]? = some y →
    x.ep = some (.conn c s) → y.ep = some (.conn c t) → i = j
  slotConn : ∀ (i : Nat) (x : Slot) (c s : Nat), w.slots[i]? = some x → x.ep = some (.conn c s) →
    ∃ y ∈ w.live, y.id = c ∧ y.srv = s ∧ y.stage = .accepted ∧ x.fd = some y.fd
  connSlot : ∀ y ∈ w.live, y.stage = .accepted →
    ∃ (i : Nat) (x : Slot), w.slots[i]? = some x ∧ x.ep = some (.conn y.id y.srv)
  idUniq : ∀ y ∈ w.live, ∀ z ∈ w.live, y.id = z.id → y = z
  idLt : ∀ y ∈ w.live, y.id < w.next
  fdUniq : ∀ y ∈ w.live, ∀ z ∈ w.live, y.fd = z.fd → y.id = z.id
  fdsUniq : ∀ a ∈ w.fds, ∀ b ∈ w.fds, a.1 = b.1 → a = b
  fdsLive : ∀ a ∈ w.fds, ∃ y ∈ w.live, y.fd = a.1
  fresh : ∀ c, w.next ≤ c → calls c w.log = []
  gone : ∀ c, c < w.next → (∀ y ∈ w.live, y.id ≠ c) → Over c w.log
  now : ∀ y ∈ w.live, ∃ p, (y.fd, p) ∈ w.fds ∧ Now y.stage y.srv y.id p w.log

theorem Inv.congr {w v : World} (h : Inv w) (h1 : v.slots = w.slots) (h2 : v.live = w.live)
    (h3 : v.fds = w.fds) (h4 : v.next = w.next) (h5 : v.log = w.log) : Inv v := by
  constructor
  all_goals (simp only [h1, h2, h3, h4, h5])
  · exact h.slotFd
  · exact h.uniq
  · exact h.slotConn
  · exact h.connSlot
  · exact h.idUniq
  · exact h.idLt
  · exact h.fdUniq
  · exact h.fdsUniq
  · exact h.fdsLive
  · exact h.fresh
  · exact h.gone
  · exact h.now

theorem inv_init : Inv {} := by
  constructor
  case slotFd =>
    intro i x hx
    match i, hx with
    | 0, hx => cases hx; simp
  case uniq =>
    intro i j x y c s t hx hy hc
    match i, hx with
    | 0, hx => cases hx; cases hc
  case slotConn =>
    intro i x c s hx hc
    match i, hx with
    | 0, hx => cases hx; cases hc
  all_goals simp [calls]

/-- The log changes by events that concern no session of a live object, nor any other. -/
theorem Inv.log {w v : World} (h : Inv w) (h1 : v.slots = w.slots) (h2 : v.live = w.live)
    (h3 : v.fds = w.fds) (h4 : v.next = w.next) (h5 : ∀ c, calls c v.log = calls c w.log) : Inv v := by
  constructor
  all_goals (simp only [h1, h2, h3, h4])
  · exact h.slotFd
  · exact h.uniq
  · exact h.slotConn
  · exact h.connSlot
  · exact h.idUniq
  · exact h.idLt
  · exact h.fdUniq
  · exact h.fdsUniq
  · exact h.fdsLive
  · intro c hc; rw [h5]; exact h.fresh c hc
  · intro c hc hy
    have := h.gone c hc hy
    simpa only [Over, h5] using this
  · intro y hy
    obtain ⟨p, hp, hn⟩ := h.now y hy
    refine ⟨p, hp, ?_⟩
    cases hs : y.stage <;> rw [hs] at hn <;> simpa only [Now, h5] using hn

theorem Inv.note_quiet {w : World} (h : Inv w) {e : Ev} (he : ∀ c, callOf c e = false) :
    Inv (w.note e) :=
  h.log rfl rfl rfl rfl (fun c => by
    show calls c (w.log ++ [e]) = _
    rw [calls_append, calls_one_no (he c), List.append_nil])

/-- The slots change, but not those of sessions. -/
theorem Inv.slots {w v : World} (h : Inv w) (h2 : v.live = w.live) (h3 : v.fds = w.fds)
    (h4 : v.next = w.next) (h5 : v.log = w.log)
    (hf : ∀ (i : Nat) (x : Slot), v.slots[i]? = some x → (x.fd = none → x.ep = none ∧ x.ready = false) ∧
      (x.ep = none → x.fd = none))
    (ho : ∀ (i : Nat) (x : Slot) (c s : Nat), v.slots[i]? = some x → x.ep = some (.conn c s) →
      ∃ x', w.slots[i]? = some x' ∧ x'.ep = x.ep ∧ x'.fd = x.fd)
    (hk : ∀ (i : Nat) (x : Slot) (c s : Nat), w.slots[i]? = some x → x.ep = some (.conn c s) →
      ∃ x', v.slots[i]? = some x' ∧ x'.ep = x.ep) : Inv v := by
  constructor
  case slotFd => exact hf
  case uniq =>
    intro i j x y c s t hx hy hc hd
    obtain ⟨x', hx', he, -⟩ := ho i x c s hx hc
    obtain ⟨y', hy', he', -⟩ := ho j y c t hy hd
    exact h.uniq i j x' y' c s t hx' hy' (he.trans hc) (he'.trans hd)
  case slotConn =>
    intro i x c s hx hc
    obtain ⟨x', hx', he, hfd⟩ := ho i x c s hx hc
    rw [h2, ← hfd]
    exact h.slotConn i x' c s hx' (he.trans hc)
  case connSlot =>
    rw [h2]
    intro y hy hs
    obtain ⟨i, x, hx, he⟩ := h.connSlot y hy hs
    obtain ⟨x', hx', he'⟩ := hk i x y.id y.srv hx he
    exact ⟨i, x', hx', he'.trans he⟩
  all_goals simp only [h2, h3, h4, h5]
  · exact h.idUniq
  · exact h.idLt
  · exact h.fdUniq
  · exact h.fdsUniq
  · exact h.fdsLive
  · exact h.fresh
  · exact h.gone
  · exact h.now

/-- Registration changes one slot that was free, or adds one. -/
theorem register_slots (w : World) (e : Ep) (fd : Nat) :
    ∃ i : Nat, (register w e fd).slots[i]? = some { fd := some fd, ready := false, ep := some e } ∧
      (∀ x, w.slots[i]? = some x → x.fd = none) ∧
      (∀ j : Nat, j ≠ i → (register w e fd).slots[j]? = w.slots[j]?) ∧
      w.slots.length ≤ (register w e fd).slots.length := by
  unfold register
  dsimp only
  cases hs : firstSlot Slot.free w.slots with
  | some i =>
    obtain ⟨x, hx, hp⟩ := firstSlot_some hs
    have hlt : i < w.slots.length := by
      rcases Nat.lt_or_ge i w.slots.length with h | h
      · exact h
      · rw [List.getElem?_eq_none h] at hx; cases hx
    refine ⟨i, ?_, ?_, ?_, ?_⟩
    · show (w.slots.set i _)[i]? = _
      simp [hlt]
    · intro y hy
      rw [hx] at hy; cases hy
      simpa [Slot.free] using hp
    · intro j hj
      show (w.slots.set i _)[j]? = _
      rw [List.getElem?_set_ne (Ne.symm hj)]
    · show _ ≤ (w.slots.set i _).length
      simp
  | none =>
    refine ⟨w.slots.length, ?_, ?_, ?_, ?_⟩
    · show (w.slots ++ [_])[_]? = _
      simp
    · intro x hx
      rw [List.getElem?_eq_none (Nat.le_refl _)] at hx; cases hx
    · intro j hj
      show (w.slots ++ [_])[j]? = _
      rcases Nat.lt_or_ge j w.slots.length with h | h
      · rw [List.getElem?_append_left h]
      · rw [List.getElem?_eq_none (by simp; omega), List.getElem?_eq_none h]
    · show _ ≤ (w.slots ++ [_]).length
      simp

theorem register_same (w : World) (e : Ep) (fd : Nat) :
    (register w e fd).live = w.live ∧ (register w e fd).fds = w.fds ∧ (register w e fd).next = w.next ∧
    (register w e fd).log = w.log ∧ (register w e fd).queue = w.queue ∧
    (register w e fd).listening = w.listening ∧ (register w e fd).stopping = w.stopping ∧
    (register w e fd).cleaned = w.cleaned ∧ (register w e fd).cursor = w.cursor ∧
    (register w e fd).fault = w.fault := by
  unfold register
  dsimp only
  split <;> simp

/-- Registration of an endpoint that is not that of a session. -/
theorem Inv.register_other {w : World} (h : Inv w) {e : Ep} {fd : Nat} (he : ∀ c s, e ≠ .conn c s) :
    Inv (register w e fd) := by
  obtain ⟨i, hi, hfree, hj, -⟩ := register_slots w e fd
  obtain ⟨h2, h3, h4, h5, -⟩ := register_same w e fd
  refine h.slots h2 h3 h4 h5 ?_ ?_ ?_
  · intro j x hx
    by_cases hji : j = i
    · rw [hji, hi] at hx; cases hx; simp
    · rw [hj j hji] at hx
      exact h.slotFd j x hx
  · intro j x c s hx hc
    by_cases hji : j = i
    · rw [hji, hi] at hx; cases hx
      cases hc
      exact absurd rfl (he c s)
    · rw [hj j hji] at hx
      exact ⟨x, hx, rfl, rfl⟩
  · intro j x c s hx hc
    by_cases hji : j = i
    · rw [hji] at hx
      have := ((h.slotFd i x hx).1 (hfree x hx)).1
      rw [this] at hc; cases hc
    · exact ⟨x, by rw [hj j hji]; exact hx, rfl⟩

theorem unpoll_get (w : World) (i j : Nat) :
    (unpoll w i).slots[j]? = if i = j ∧ j < w.slots.length then some {} else w.slots[j]? := by
  show (w.slots.set i {})[j]? = _
  rw [List.getElem?_set]
  by_cases hij : i = j
  · by_cases hl : i < w.slots.length
    · subst hij; simp [hl]
    · subst hij
      rw [if_pos rfl, if_neg hl, if_neg (by simp [hl])]
      rw [List.getElem?_eq_none (by omega)]
  · rw [if_neg hij, if_neg (by simp [hij])]

theorem unpoll_ne {w : World} {i j : Nat} (h : i ≠ j) : (unpoll w i).slots[j]? = w.slots[j]? := by
  rw [unpoll_get, if_neg (fun hh => h hh.1)]

theorem unpoll_eq {w : World} {i : Nat} {x : Slot} (h : (unpoll w i).slots[i]? = some x) : x = {} := by
  rw [unpoll_get] at h
  by_cases hl : i < w.slots.length
  · rw [if_pos ⟨rfl, hl⟩] at h; cases h; rfl
  · rw [if_neg (fun hh => hl hh.2), List.getElem?_eq_none (by omega)] at h; cases h

theorem Inv.unpoll_other {w : World} (h : Inv w) {i : Nat} {x : Slot} (hx : w.slots[i]? = some x)
    (he : ∀ c s, x.ep ≠ some (.conn c s)) : Inv (unpoll w i) := by
  refine h.slots rfl rfl rfl rfl ?_ ?_ ?_
  · intro j y hy
    by_cases hij : i = j
    · subst hij
      rw [unpoll_eq hy]; simp
    · rw [unpoll_ne hij] at hy
      exact h.slotFd j y hy
  · intro j y c s hy hc
    by_cases hij : i = j
    · subst hij
      rw [unpoll_eq hy] at hc; cases hc
    · rw [unpoll_ne hij] at hy
      exact ⟨y, hy, rfl, rfl⟩
  · intro j y c s hy hc
    by_cases hij : i = j
    · subst hij
      rw [hx] at hy; cases hy
      exact absurd hc (he c s)
    · exact ⟨y, by rw [unpoll_ne hij]; exact hy, rfl⟩

end Verif.UnixServer
