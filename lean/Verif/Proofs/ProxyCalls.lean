import Verif.Spec.ProxyCalls
namespace Verif.ProxyCalls

theorem flag_setFlag (s : St) (b : Bool) (c c' : Cell) (p p' : Nat) :
    (s.setFlag b c p).flag c' p' = if c' = c ∧ p' = p then b else s.flag c' p' := by
  cases c <;> cases c' <;> simp only [St.setFlag, St.flag, upd_apply] <;> by_cases h1 : p' = p <;> simp [h1, upd_apply]

theorem val_setVal (s : St) (v : Nat) (c c' : Cell) (p p' : Nat) :
    (s.setVal v c p).val c' p' = if c' = c ∧ p' = p then v else s.val c' p' := by
  cases c <;> cases c' <;> simp only [St.setVal, St.val, upd_apply] <;> by_cases h1 : p' = p <;> simp [h1, upd_apply]

theorem val_setFlag (s : St) (b : Bool) (c c' : Cell) (p p' : Nat) : (s.setFlag b c p).val c' p' = s.val c' p' := by
  cases c <;> cases c' <;> rfl

theorem flag_setVal (s : St) (v : Nat) (c c' : Cell) (p p' : Nat) : (s.setVal v c p).flag c' p' = s.flag c' p' := by
  cases c <;> cases c' <;> rfl

theorem ptr_setFlag (s : St) (b : Bool) (c : Cell) (p : Nat) : (s.setFlag b c p).ptr = s.ptr := by cases c <;> rfl
theorem next_setFlag (s : St) (b : Bool) (c : Cell) (p : Nat) : (s.setFlag b c p).next = s.next := by cases c <;> rfl
theorem log_setFlag (s : St) (b : Bool) (c : Cell) (p : Nat) : (s.setFlag b c p).log = s.log := by cases c <;> rfl
theorem dead_setFlag (s : St) (b : Bool) (c : Cell) (p : Nat) : (s.setFlag b c p).dead = s.dead := by cases c <;> rfl
theorem ptr_setVal (s : St) (v : Nat) (c : Cell) (p : Nat) : (s.setVal v c p).ptr = s.ptr := by cases c <;> rfl
theorem next_setVal (s : St) (v : Nat) (c : Cell) (p : Nat) : (s.setVal v c p).next = s.next := by cases c <;> rfl
theorem log_setVal (s : St) (v : Nat) (c : Cell) (p : Nat) : (s.setVal v c p).log = s.log := by cases c <;> rfl
theorem dead_setVal (s : St) (v : Nat) (c : Cell) (p : Nat) : (s.setVal v c p).dead = s.dead := by cases c <;> rfl

/-- The flags and the pointers held by the application agree, and each held pointer shows what the application has last seen. -/
structure Inv (c : Cfg) (s : St) : Prop where
  held : ∀ id p, s.Holds id p → s.flag p.cell p.pos = true ∧ p.pos < c.n ∧ s.val p.cell p.pos = p.seen ∧
    ∀ i, p.cell = .arg i → i < c.k
  ex : ∀ cell pos, s.flag cell pos = true → ∃ id p, s.Holds id p ∧ p.cell = cell ∧ p.pos = pos
  once : ∀ id p id' p', s.Holds id p → s.Holds id' p' → p.cell = p'.cell → p.pos = p'.pos → id = id'
  fresh : ∀ id, s.next ≤ id → s.ptr id = none

/-- No position has a result and an argument at the same time. -/
def Excl (s : St) : Prop := ∀ pos i, s.argFlag pos i = true → s.retFlag pos = false

theorem inv_init (c : Cfg) : Inv c init :=
  ⟨fun _ _ h => (by cases h.1), fun cell pos h => (by cases cell <;> cases h), fun _ _ _ _ h => (by cases h.1), fun _ _ => rfl⟩

theorem excl_init : Excl init := fun _ _ h => by cases h

/-- A change of the storage that no held pointer can see, and of the log. -/
theorem Inv.change {c : Cfg} {s s' : St} (h : Inv c s) (hf : ∀ cell pos, s'.flag cell pos = s.flag cell pos)
    (hp : s'.ptr = s.ptr) (hn : s'.next = s.next) (hv : ∀ cell pos, s.flag cell pos = true → s'.val cell pos = s.val cell pos) :
    Inv c s' := by
  have hh : ∀ id p, s'.Holds id p ↔ s.Holds id p := fun id p => by unfold St.Holds; rw [hp]
  refine ⟨fun id p g => ?_, fun cell pos g => ?_, fun id p id' p' g g' => ?_, fun id g => ?_⟩
  · obtain ⟨h1, h2, h3, h4⟩ := h.held id p ((hh _ _).mp g)
    exact ⟨by rw [hf]; exact h1, h2, by rw [hv _ _ h1]; exact h3, h4⟩
  · rw [hf] at g
    obtain ⟨id, p, h1, h2⟩ := h.ex cell pos g
    exact ⟨id, p, (hh _ _).mpr h1, h2⟩
  · exact h.once id p id' p' ((hh _ _).mp g) ((hh _ _).mp g')
  · rw [hp]; exact h.fresh id (by omega)

theorem ptr_create (s : St) (cell : Cell) (pos : Nat) :
    (create s cell pos).ptr = upd s.ptr s.next (some ⟨cell, pos, true, s.val cell pos⟩) := by
  unfold create; dsimp only; rw [ptr_setFlag, next_setFlag]

theorem next_create (s : St) (cell : Cell) (pos : Nat) : (create s cell pos).next = s.next + 1 := by
  unfold create; dsimp only; rw [next_setFlag]

theorem flag_create (s : St) (cell cell' : Cell) (pos pos' : Nat) :
    (create s cell pos).flag cell' pos' = if cell' = cell ∧ pos' = pos then true else s.flag cell' pos' := by
  rw [← flag_setFlag]; cases cell' <;> rfl

theorem val_create (s : St) (cell cell' : Cell) (pos pos' : Nat) :
    (create s cell pos).val cell' pos' = s.val cell' pos' := by
  rw [← val_setFlag s true cell]; cases cell' <;> rfl

theorem inv_create {c : Cfg} {s : St} (h : Inv c s) {cell : Cell} {pos : Nat} (hf : s.flag cell pos = false) (hp : pos < c.n)
    (hk : ∀ i, cell = .arg i → i < c.k) : Inv c (create s cell pos) := by
  have hh : ∀ id p, (create s cell pos).Holds id p → (id = s.next ∧ p = ⟨cell, pos, true, s.val cell pos⟩) ∨
      (id ≠ s.next ∧ s.Holds id p) := by
    intro id p hp
    unfold St.Holds at hp
    rw [ptr_create] at hp
    by_cases he : id = s.next
    · subst he; rw [upd_self] at hp; left; exact ⟨rfl, by simpa using hp.1.symm⟩
    · rw [upd_ne _ _ he] at hp; exact .inr ⟨he, hp⟩
  refine ⟨fun id p g => ?_, fun cell' pos' g => ?_, fun id p id' p' g g' e1 e2 => ?_, fun id g => ?_⟩
  · rcases hh id p g with ⟨_, rfl⟩ | ⟨_, g⟩
    · dsimp only
      rw [flag_create, val_create]
      exact ⟨by simp, hp, rfl, hk⟩
    · obtain ⟨h1, h2, h3, h4⟩ := h.held id p g
      rw [flag_create, val_create]
      exact ⟨by rw [h1]; simp, h2, h3, h4⟩
  · rw [flag_create] at g
    by_cases he : cell' = cell ∧ pos' = pos
    · refine ⟨s.next, ⟨cell, pos, true, s.val cell pos⟩, ⟨?_, rfl⟩, he.1.symm, he.2.symm⟩
      rw [ptr_create, upd_self]
    · rw [if_neg he] at g
      obtain ⟨id, p, h1, h2⟩ := h.ex cell' pos' g
      refine ⟨id, p, ⟨?_, h1.2⟩, h2⟩
      rw [ptr_create, upd_ne _ _ ?_]; exact h1.1
      intro hid
      have := h.fresh id (by omega)
      rw [h1.1] at this; cases this
  · rcases hh id p g with ⟨h1, rfl⟩ | ⟨h1, g1⟩ <;> rcases hh id' p' g' with ⟨h2, rfl⟩ | ⟨h2, g2⟩
    · rw [h1, h2]
    · dsimp only at e1 e2
      have := (h.held id' p' g2).1
      rw [← e1, ← e2, hf] at this; cases this
    · dsimp only at e1 e2
      have := (h.held id p g1).1
      rw [e1, e2, hf] at this; cases this
    · exact h.once id p id' p' g1 g2 e1 e2
  · rw [next_create] at g
    rw [ptr_create, upd_ne _ _ (by omega)]
    exact h.fresh id (by omega)

theorem release_some {s : St} {id : Nat} {p : Ptr} (h : s.Holds id p) :
    release s id = { s.setFlag false p.cell p.pos with ptr := upd s.ptr id (some { p with owns := false }) } := by
  unfold release
  rw [h.1]
  simp only [h.2, if_true]
  rw [ptr_setFlag]

theorem release_none {s : St} {id : Nat} (h : ∀ p, ¬ s.Holds id p) : release s id = s := by
  unfold release
  split
  · rename_i p hp
    split
    · rename_i ho; exact absurd ⟨hp, ho⟩ (h p)
    · rfl
  · rfl

theorem flag_release (s : St) (id : Nat) (cell : Cell) (pos : Nat) :
    (release s id).flag cell pos = true → s.flag cell pos = true ∧ ∀ p, s.Holds id p → ¬ (p.cell = cell ∧ p.pos = pos) := by
  intro h
  by_cases hh : ∃ p, s.Holds id p
  · obtain ⟨p, hp⟩ := hh
    rw [release_some hp] at h
    have : (s.setFlag false p.cell p.pos).flag cell pos = true := by cases cell <;> exact h
    rw [flag_setFlag] at this
    split at this
    · cases this
    · rename_i hne
      refine ⟨this, fun q hq he => hne ?_⟩
      have : q = p := by have := hq.1; rw [hp.1] at this; cases this; rfl
      subst this; exact ⟨he.1.symm, he.2.symm⟩
  · rw [release_none (fun p hp => hh ⟨p, hp⟩)] at h
    exact ⟨h, fun p hp => absurd ⟨p, hp⟩ hh⟩

theorem holds_release (s : St) (id id' : Nat) (p : Ptr) : (release s id).Holds id' p ↔ (id' ≠ id ∧ s.Holds id' p) := by
  by_cases hh : ∃ p, s.Holds id p
  · obtain ⟨q, hq⟩ := hh
    rw [release_some hq]
    unfold St.Holds
    dsimp only
    by_cases he : id' = id
    · subst he
      rw [upd_self]
      constructor
      · rintro ⟨h1, h2⟩; cases h1; cases h2
      · rintro ⟨h1, _⟩; exact absurd rfl h1
    · rw [upd_ne _ _ he]; simp [he]
  · rw [release_none (fun p hp => hh ⟨p, hp⟩)]
    constructor
    · intro h
      refine ⟨?_, h⟩
      rintro rfl; exact hh ⟨p, h⟩
    · exact fun h => h.2

theorem next_release (s : St) (id : Nat) : (release s id).next = s.next := by
  unfold release; split
  · split
    · exact next_setFlag ..
    · rfl
  · rfl

theorem val_release (s : St) (id : Nat) (cell : Cell) (pos : Nat) : (release s id).val cell pos = s.val cell pos := by
  unfold release; split
  · split
    · rename_i p _ _
      rw [← val_setFlag s false p.cell cell p.pos pos]; cases cell <;> rfl
    · rfl
  · rfl

theorem log_release (s : St) (id : Nat) : (release s id).log = s.log := by
  unfold release; split
  · split
    · exact log_setFlag ..
    · rfl
  · rfl

theorem dead_release (s : St) (id : Nat) : (release s id).dead = s.dead := by
  unfold release; split
  · split
    · exact dead_setFlag ..
    · rfl
  · rfl

theorem flag_release_keep {c : Cfg} {s : St} (h : Inv c s) {id : Nat} {cell : Cell} {pos : Nat} (hf : s.flag cell pos = true)
    (hne : ∀ p, s.Holds id p → ¬ (p.cell = cell ∧ p.pos = pos)) : (release s id).flag cell pos = true := by
  by_cases hh : ∃ p, s.Holds id p
  · obtain ⟨p, hp⟩ := hh
    rw [release_some hp]
    have : (s.setFlag false p.cell p.pos).flag cell pos = true := by
      rw [flag_setFlag, if_neg (fun he => hne p hp ⟨he.1.symm, he.2.symm⟩)]; exact hf
    cases cell <;> exact this
  · rw [release_none (fun p hp => hh ⟨p, hp⟩)]; exact hf

theorem inv_release {c : Cfg} {s : St} (h : Inv c s) (id : Nat) : Inv c (release s id) := by
  refine ⟨fun x p g => ?_, fun cell pos g => ?_, fun x p x' p' g g' => ?_, fun x g => ?_⟩
  · obtain ⟨hne, g⟩ := (holds_release s id x p).mp g
    obtain ⟨h1, h2, h3, h4⟩ := h.held x p g
    refine ⟨flag_release_keep h h1 (fun q hq he => hne ?_), h2, by rw [val_release]; exact h3, h4⟩
    exact h.once x p id q g hq he.1.symm he.2.symm
  · obtain ⟨g1, g2⟩ := flag_release s id cell pos g
    obtain ⟨x, p, h1, h2, h3⟩ := h.ex cell pos g1
    refine ⟨x, p, (holds_release s id x p).mpr ⟨?_, h1⟩, h2, h3⟩
    rintro rfl
    exact g2 p h1 ⟨h2, h3⟩
  · exact h.once x p x' p' ((holds_release s id x p).mp g).2 ((holds_release s id x' p').mp g').2
  · rw [next_release] at g
    by_cases hh : ∃ p, s.Holds id p
    · obtain ⟨p, hp⟩ := hh
      rw [release_some hp]
      dsimp only
      rw [upd_ne _ _ ?_]; exact h.fresh x g
      rintro rfl
      have := h.fresh x g
      rw [hp.1] at this; cases this
    · rw [release_none (fun p hp => hh ⟨p, hp⟩)]; exact h.fresh x g

theorem inv_releaseAll {c : Cfg} (ids : List Nat) : ∀ {s : St}, Inv c s → Inv c (releaseAll s ids) := by
  induction ids with
  | nil => exact fun h => h
  | cons id ids ih => exact fun h => ih (inv_release h id)

theorem holds_releaseAll (ids : List Nat) : ∀ (s : St) (id : Nat) (p : Ptr),
    (releaseAll s ids).Holds id p ↔ (id ∉ ids ∧ s.Holds id p) := by
  induction ids with
  | nil => intro s id p; simp [releaseAll]
  | cons x ids ih =>
    intro s id p
    rw [releaseAll, ih, holds_release]
    simp only [List.mem_cons, not_or]
    constructor
    · rintro ⟨h1, h2, h3⟩; exact ⟨⟨h2, h1⟩, h3⟩
    · rintro ⟨⟨h2, h1⟩, h3⟩; exact ⟨h1, h2, h3⟩

theorem log_releaseAll (ids : List Nat) : ∀ s : St, (releaseAll s ids).log = s.log := by
  induction ids with
  | nil => exact fun _ => rfl
  | cons x ids ih => intro s; rw [releaseAll, ih, log_release]

theorem dead_releaseAll (ids : List Nat) : ∀ s : St, (releaseAll s ids).dead = s.dead := by
  induction ids with
  | nil => exact fun _ => rfl
  | cons x ids ih => intro s; rw [releaseAll, ih, dead_release]

theorem flag_releaseAll (ids : List Nat) : ∀ (s : St) (cell : Cell) (pos : Nat),
    (releaseAll s ids).flag cell pos = true → s.flag cell pos = true := by
  induction ids with
  | nil => exact fun _ _ _ h => h
  | cons x ids ih => intro s cell pos h; exact (flag_release _ _ _ _ (ih _ _ _ h)).1

theorem excl_releaseAll {ids : List Nat} {s : St} (h : Excl s) : Excl (releaseAll s ids) := by
  intro pos i hf
  have h1 := flag_releaseAll ids s (.arg i) pos hf
  have h2 := h pos i h1
  cases hr : (releaseAll s ids).retFlag pos with
  | false => rfl
  | true =>
    have h3 : s.retFlag pos = true := flag_releaseAll ids s .ret pos hr
    rw [h2] at h3; cases h3

/-! ### Finding a position -/

theorem free_iff (c : Cfg) (s : St) (pos : Nat) :
    free c s pos = true ↔ (∀ i < c.k, s.flag (.arg i) pos = false) ∧ s.flag .ret pos = false := by
  unfold free St.flag
  simp [List.all_eq_true]

/-- A free position is one at which the application holds no pointer. -/
theorem free_iff_not_held {c : Cfg} {s : St} (h : Inv c s) (pos : Nat) :
    free c s pos = true ↔ ∀ id p, s.Holds id p → p.pos ≠ pos := by
  rw [free_iff]
  constructor
  · rintro ⟨h1, h2⟩ id p hp rfl
    obtain ⟨g1, _, _, g4⟩ := h.held id p hp
    cases hc : p.cell with
    | arg i => rw [hc] at g1; rw [h1 i (g4 i hc)] at g1; cases g1
    | ret => rw [hc, h2] at g1; cases g1
  · intro hn
    constructor
    · intro i _
      cases hf : s.flag (.arg i) pos with
      | false => rfl
      | true => obtain ⟨id, p, h1, _, h3⟩ := h.ex _ _ hf; exact absurd h3 (hn id p h1)
    · cases hf : s.flag .ret pos with
      | false => rfl
      | true => obtain ⟨id, p, h1, _, h3⟩ := h.ex _ _ hf; exact absurd h3 (hn id p h1)

theorem findSlot_some {c : Cfg} {s : St} {pos : Nat} (h : findSlot c s = some pos) : pos < c.n ∧ free c s pos = true :=
  ⟨List.mem_range.mp (List.mem_of_find?_eq_some h), List.find?_some h⟩

theorem findSlot_none {c : Cfg} {s : St} : findSlot c s = none ↔ ∀ pos < c.n, free c s pos = false := by
  unfold findSlot
  rw [List.find?_eq_none]
  simp

/-- If a position is free, none of its flags is set, also for arguments that do not exist. -/
theorem free_flags {c : Cfg} {s : St} (h : Inv c s) {pos : Nat} (hf : free c s pos = true) (cell : Cell) :
    s.flag cell pos = false := by
  cases hc : s.flag cell pos with
  | false => rfl
  | true => obtain ⟨id, p, h1, _, h3⟩ := h.ex _ _ hc; exact absurd h3 ((free_iff_not_held h pos).mp hf id p h1)

/-! ### Allocating and calling -/

theorem inv_createArgs {c : Cfg} {pos : Nat} (hp : pos < c.n) (is : List Nat) : ∀ {s : St}, Inv c s → is.Nodup →
    (∀ i ∈ is, i < c.k) → (∀ i ∈ is, s.flag (.arg i) pos = false) → s.flag .ret pos = false → Excl s →
    Inv c (createArgs s pos is) ∧ Excl (createArgs s pos is) ∧ (createArgs s pos is).dead = s.dead ∧
      (createArgs s pos is).log = s.log := by
  induction is with
  | nil => exact fun h _ _ _ _ he => ⟨h, he, rfl, rfl⟩
  | cons i is ih =>
    intro s h hnd hk hf hr he
    rw [List.nodup_cons] at hnd
    have h1 := inv_create h (hf i (List.mem_cons_self ..)) hp (fun j hj => by cases hj; exact hk i (List.mem_cons_self ..))
    have := @ih (create s (.arg i) pos) h1 hnd.2 (fun j hj => hk j (List.mem_cons_of_mem _ hj))
      (fun j hj => by
        rw [flag_create, if_neg]
        · exact hf j (List.mem_cons_of_mem _ hj)
        · rintro ⟨h1, _⟩; cases h1; exact hnd.1 hj)
      (by rw [flag_create, if_neg]; exact hr; rintro ⟨h1, _⟩; cases h1)
      (by
        intro q j hq
        have e : (create s (.arg i) pos).retFlag q = s.retFlag q := rfl
        rw [e]
        replace hq : (create s (.arg i) pos).flag (.arg j) q = true := hq
        rw [flag_create] at hq
        split at hq
        · rename_i heq; rw [heq.2]; exact hr
        · exact he q j hq)
    exact this

theorem flag_doCall (c : Cfg) (s : St) (pos : Nat) (b : Bind) (cell : Cell) (q : Nat) :
    (doCall c s pos b).flag cell q = s.flag cell q := by cases cell <;> rfl

theorem inv_doCall {c : Cfg} {s : St} (h : Inv c s) {pos : Nat} (b : Bind) (hr : s.retFlag pos = false) :
    Inv c (doCall c s pos b) := by
  refine h.change (flag_doCall c s pos b) rfl rfl ?_
  intro cell q hq
  cases cell with
  | arg i => rfl
  | ret =>
    have hne : q ≠ pos := by
      rintro rfl
      have : s.retFlag q = true := hq
      rw [hr] at this; cases this
    show (match b.wrote with | some v => if c.hasRet then upd s.retVal pos v else s.retVal | none => s.retVal) q = s.retVal q
    cases b.wrote with
    | none => rfl
    | some v =>
      dsimp only
      split
      · rw [upd_ne _ _ hne]
      · rfl

theorem inv_callAt {c : Cfg} {s : St} (h : Inv c s) {pos : Nat} (hp : pos < c.n) (b : Bind) (hr : s.retFlag pos = false) :
    Inv c (callAt c s pos b) := by
  unfold callAt
  split
  · exact h
  · dsimp only
    split
    · exact inv_create (inv_doCall h b hr) hr hp (fun i hi => by cases hi)
    · exact inv_doCall h b hr

theorem argFlag_callAt (c : Cfg) (s : St) (pos : Nat) (b : Bind) : (callAt c s pos b).argFlag = s.argFlag := by
  unfold callAt
  split
  · rfl
  · dsimp only; split <;> rfl

theorem retFlag_callAt (c : Cfg) (s : St) (pos : Nat) (b : Bind) {q : Nat} (hq : q ≠ pos) :
    (callAt c s pos b).retFlag q = s.retFlag q := by
  unfold callAt
  split
  · rfl
  · dsimp only
    split
    · show upd s.retFlag pos true q = _; rw [upd_ne _ _ hq]
    · rfl

theorem log_callAt (c : Cfg) (s : St) (pos : Nat) (b : Bind) : (callAt c s pos b).log =
    if c.hasRet && !b.buf then s.log else .called pos ((List.range c.k).map (s.argVal pos)) :: s.log := by
  unfold callAt
  split
  · rfl
  · dsimp only; split <;> rfl

theorem dead_callAt (c : Cfg) (s : St) (pos : Nat) (b : Bind) : (callAt c s pos b).dead = s.dead := by
  unfold callAt
  split
  · rfl
  · dsimp only; split <;> rfl

theorem excl_callAt {c : Cfg} {s : St} (he : Excl s) {pos : Nat} (b : Bind) (ha : ∀ i, s.argFlag pos i = false) :
    Excl (callAt c s pos b) := by
  intro q i hq
  rw [argFlag_callAt] at hq
  have hne : q ≠ pos := by rintro rfl; rw [ha i] at hq; cases hq
  rw [retFlag_callAt c s pos b hne]; exact he q i hq

theorem writeArgs_other (vs : List Nat) : ∀ (s : St) (pos i : Nat),
    (writeArgs s pos i vs).flag = s.flag ∧ (writeArgs s pos i vs).ptr = s.ptr ∧ (writeArgs s pos i vs).next = s.next ∧
    (writeArgs s pos i vs).log = s.log ∧ (writeArgs s pos i vs).dead = s.dead ∧
    (∀ cell q, q ≠ pos → (writeArgs s pos i vs).val cell q = s.val cell q) ∧
    (writeArgs s pos i vs).retVal = s.retVal ∧ (∀ j < i, (writeArgs s pos i vs).argVal pos j = s.argVal pos j) ∧
    ∀ j v, vs[j]? = some v → (writeArgs s pos i vs).argVal pos (i + j) = v := by
  induction vs with
  | nil => intro s pos i; refine ⟨rfl, rfl, rfl, rfl, rfl, fun _ _ _ => rfl, rfl, fun _ _ => rfl, fun j v h => by simp at h⟩
  | cons v vs ih =>
    intro s pos i
    obtain ⟨h1, h2, h3, h4, h5, h6, h7, h8, h9⟩ := ih (s.setVal v (.arg i) pos) pos (i + 1)
    rw [writeArgs]
    refine ⟨?_, ?_, ?_, ?_, ?_, ?_, ?_, ?_, ?_⟩
    · rw [h1]; funext cell q; exact flag_setVal ..
    · rw [h2, ptr_setVal]
    · rw [h3, next_setVal]
    · rw [h4, log_setVal]
    · rw [h5, dead_setVal]
    · intro cell q hq
      rw [h6 cell q hq, val_setVal, if_neg (fun h => hq h.2)]
    · rw [h7]; rfl
    · intro j hj
      rw [h8 j (by omega)]
      show upd s.argVal pos (upd (s.argVal pos) i v) pos j = _
      rw [upd_self, upd_ne _ _ (by omega)]
    · intro j w hj
      cases j with
      | zero =>
        simp only [List.getElem?_cons_zero, Option.some.injEq] at hj
        subst hj
        rw [show i + 0 = i from rfl, h8 i (by omega)]
        show upd s.argVal pos (upd (s.argVal pos) i v) pos i = _
        rw [upd_self, upd_self]
      | succ j =>
        rw [List.getElem?_cons_succ] at hj
        have := h9 j w hj
        rw [show i + (j + 1) = i + 1 + j by omega]; exact this

theorem inv_writeArgs {c : Cfg} {s : St} (h : Inv c s) {pos : Nat} (hf : ∀ cell, s.flag cell pos = false) (vs : List Nat) :
    Inv c (writeArgs s pos 0 vs) := by
  obtain ⟨h1, h2, h3, h4, h5, h6, h7, h8, h9⟩ := writeArgs_other vs s pos 0
  refine h.change (fun cell q => by rw [h1]) h2 h3 ?_
  intro cell q hq
  apply h6
  rintro rfl
  rw [hf cell] at hq; cases hq

theorem mapM_ptr {f : Nat → Option Ptr} (ids : List Nat) : ∀ {ps : List Ptr}, ids.mapM f = some ps →
    ps.length = ids.length ∧ ∀ (i : Nat) (p : Ptr), ps[i]? = some p → ∃ id, ids[i]? = some id ∧ f id = some p := by
  induction ids with
  | nil =>
    intro ps h
    simp only [List.mapM_nil, Option.pure_def, Option.some.injEq] at h
    subst h; exact ⟨rfl, fun i p h => by simp at h⟩
  | cons x ids ih =>
    intro ps h
    rw [List.mapM_cons] at h
    cases hx : f x with
    | none => rw [hx] at h; simp at h
    | some q =>
      rw [hx] at h
      cases hm : ids.mapM f with
      | none => rw [hm] at h; simp at h
      | some qs =>
        rw [hm] at h
        simp only [Option.pure_def, Option.bind_eq_bind, Option.bind_some, Option.some.injEq] at h
        subst h
        obtain ⟨h1, h2⟩ := ih hm
        refine ⟨by simp [h1], fun i p hi => ?_⟩
        cases i with
        | zero => simp only [List.getElem?_cons_zero, Option.some.injEq] at hi ⊢; subst hi; exact ⟨x, rfl, hx⟩
        | succ i => simp only [List.getElem?_cons_succ] at hi ⊢; exact h2 i p hi

theorem mapM_some {f : Nat → Option Ptr} (ids : List Nat) (h : ∀ id ∈ ids, f id ≠ none) : ∃ ps, ids.mapM f = some ps := by
  induction ids with
  | nil => exact ⟨[], rfl⟩
  | cons x ids ih =>
    obtain ⟨ps, hps⟩ := ih (fun id hid => h id (List.mem_cons_of_mem _ hid))
    obtain ⟨q, hx⟩ := Option.ne_none_iff_exists'.mp (h x (List.mem_cons_self ..))
    exact ⟨q :: ps, by rw [List.mapM_cons, hx, hps]; rfl⟩

theorem commonPos_some {ps : List Ptr} {pos : Nat} (h : commonPos ps = some pos) : ps ≠ [] ∧ ∀ p ∈ ps, p.pos = pos := by
  cases ps with
  | nil => cases h
  | cons p ps =>
    rw [show commonPos (p :: ps) = if ps.all (fun q => q.pos == p.pos) then some p.pos else none from rfl] at h
    split at h
    · rename_i ha
      cases h
      refine ⟨by simp, fun q hq => ?_⟩
      rcases List.mem_cons.mp hq with rfl | hq
      · rfl
      · have := List.all_eq_true.mp ha q hq
        simpa using this
    · cases h

theorem commonPos_none {ps : List Ptr} (h : commonPos ps = none) : ps = [] ∨ ∃ p ∈ ps, ∃ q ∈ ps, p.pos ≠ q.pos := by
  cases ps with
  | nil => exact .inl rfl
  | cons p ps =>
    right
    rw [show commonPos (p :: ps) = if ps.all (fun q => q.pos == p.pos) then some p.pos else none from rfl] at h
    split at h
    · cases h
    · rename_i ha
      simp only [List.all_eq_true, beq_iff_eq] at ha
      obtain ⟨q, hq⟩ := Classical.not_forall.mp ha
      obtain ⟨h1, h2⟩ := Classical.not_imp.mp hq
      exact ⟨p, List.mem_cons_self .., q, List.mem_cons_of_mem _ h1, fun h => h2 h.symm⟩

/-- The pointers of a proper call. -/
theorem proper_ptrs {c : Cfg} {s : St} {ids : List Nat} {b : Bind} (h : Proper c s (.call ids b)) :
    ∃ ps, ids.mapM s.ptr = some ps ∧ ps.length = c.k ∧
      ∀ i p, ps[i]? = some p → ∃ id, ids[i]? = some id ∧ s.Holds id p ∧ p.cell = .arg i := by
  obtain ⟨hk, hl, hp⟩ := h
  have : ∀ id ∈ ids, s.ptr id ≠ none := by
    intro id hid hn
    obtain ⟨i, hi⟩ := List.mem_iff_getElem?.mp hid
    obtain ⟨p, h1, _⟩ := hp i id hi
    rw [h1.1] at hn; cases hn
  obtain ⟨ps, hps⟩ := mapM_some ids this
  obtain ⟨h1, h2⟩ := mapM_ptr ids hps
  refine ⟨ps, hps, by rw [h1, hl], fun i p hi => ?_⟩
  obtain ⟨id, h3, h4⟩ := h2 i p hi
  obtain ⟨q, h5, h6⟩ := hp i id h3
  have : q = p := by have := h5.1; rw [h4] at this; cases this; rfl
  subst this
  exact ⟨id, h3, h5, h6⟩

theorem call_eq {c : Cfg} {s : St} {ids : List Nat} {ps : List Ptr} (b : Bind) (h : ids.mapM s.ptr = some ps) :
    call c s ids b = match commonPos ps with
      | none => { s with dead := true }
      | some pos => releaseAll (callAt c s pos b) ids := by
  unfold call; rw [h]; rfl

/-- In a proper call all flags of the arguments at the position are those of the pointers that are consumed. -/
theorem proper_flags {c : Cfg} {s : St} (hi : Inv c s) (he : Excl s) {ids : List Nat} {b : Bind} (h : Proper c s (.call ids b))
    {ps : List Ptr} (hps : ids.mapM s.ptr = some ps) {pos : Nat} (hc : commonPos ps = some pos) :
    pos < c.n ∧ s.retFlag pos = false ∧ ∀ i id p, s.Holds id p → p.cell = .arg i → p.pos = pos → id ∈ ids := by
  obtain ⟨ps', hps', hl, hp⟩ := proper_ptrs h
  rw [hps] at hps'; cases hps'
  obtain ⟨hne, hpos⟩ := commonPos_some hc
  have h0 : 0 < ps.length := List.length_pos_iff.mpr hne
  obtain ⟨id, g1, g2, g3⟩ := hp 0 ps[0] (by rw [List.getElem?_eq_getElem h0])
  have hpp := hpos _ (List.getElem_mem h0)
  obtain ⟨k1, k2, _, _⟩ := hi.held _ _ g2
  rw [g3, hpp] at k1
  refine ⟨hpp ▸ k2, he pos 0 k1, ?_⟩
  intro i x p hx hcell hq
  obtain ⟨_, _, _, k4⟩ := hi.held x p hx
  have hik := k4 i hcell
  have hil : i < ps.length := by omega
  obtain ⟨y, q1, q2, q3⟩ := hp i ps[i] (by rw [List.getElem?_eq_getElem hil])
  have hyp := hpos _ (List.getElem_mem hil)
  have : x = y := hi.once x p y _ hx q2 (by rw [hcell, q3]) (by rw [hq, hyp])
  rw [this]
  exact List.mem_of_getElem? q1

theorem inv_step {c : Cfg} {s : St} (hi : Inv c s) (he : Excl s) (o : Op) (ho : Proper c s o) :
    Inv c (step c s o) ∧ Excl (step c s o) := by
  unfold step
  split
  · exact ⟨hi, he⟩
  · cases o with
    | allocate buf =>
      show Inv c (allocate c s buf) ∧ Excl (allocate c s buf)
      unfold allocate
      split
      · exact ⟨hi.change (fun _ _ => by cases ‹Cell› <;> rfl) rfl rfl (fun cell _ _ => by cases cell <;> rfl), he⟩
      · rename_i pos hpos
        obtain ⟨h1, h2⟩ := findSlot_some hpos
        split
        · have hi' : Inv c { s with log := .allocated pos :: s.log } :=
            hi.change (fun _ _ => by cases ‹Cell› <;> rfl) rfl rfl (fun cell _ _ => by cases cell <;> rfl)
          have := inv_createArgs h1 (List.range c.k) hi' List.nodup_range (fun i hi => List.mem_range.mp hi)
            (fun i _ => free_flags hi h2 (.arg i)) (free_flags hi h2 .ret) he
          exact ⟨this.1, this.2.1⟩
        · exact ⟨hi, he⟩
    | call ids b =>
      show Inv c (call c s ids b) ∧ Excl (call c s ids b)
      obtain ⟨ps, hps, hl, hp⟩ := proper_ptrs ho
      rw [call_eq b hps]
      split
      · exact ⟨hi.change (fun _ _ => by cases ‹Cell› <;> rfl) rfl rfl (fun cell _ _ => by cases cell <;> rfl), he⟩
      · rename_i pos hc
        obtain ⟨h1, h2, h3⟩ := proper_flags hi he ho hps hc
        have hinv := inv_callAt hi h1 b h2
        refine ⟨inv_releaseAll ids hinv, ?_⟩
        have hfin := inv_releaseAll ids hinv
        intro q i hq
        obtain ⟨id, p, g1, g2, g3⟩ := hfin.ex (.arg i) q hq
        obtain ⟨g4, g5⟩ := (holds_releaseAll ids _ id p).mp g1
        obtain ⟨g6, _⟩ := hinv.held id p g5
        rw [g2, g3] at g6
        replace g6 : s.argFlag q i = true := by
          have := congrFun (congrFun (argFlag_callAt c s pos b) q) i
          rw [← this]; exact g6
        have hne : q ≠ pos := by
          rintro rfl
          obtain ⟨x, p', k1, k2, k3⟩ := hi.ex (.arg i) q g6
          have hx := h3 i x p' k1 k2 k3
          -- the same pointer is held after the call, so it is not among the consumed ones
          have : (callAt c s q b).ptr x = s.ptr x := by
            unfold callAt
            split
            · rfl
            · dsimp only
              split
              · rw [ptr_create]
                show upd s.ptr s.next _ x = _
                rw [upd_ne]
                intro hx
                have := hi.fresh x (by omega)
                rw [k1.1] at this; cases this
              · rfl
          have hh : (callAt c s q b).Holds x p' := ⟨by rw [this]; exact k1.1, k1.2⟩
          have := hinv.once id p x p' g5 hh (by rw [g2, k2]) (by rw [g3, k3])
          rw [this] at g4; exact g4 hx
        cases hr : (releaseAll (callAt c s pos b) ids).retFlag q with
        | false => rfl
        | true =>
          have hr' := flag_releaseAll ids (callAt c s pos b) .ret q hr
          have hr'' : s.retFlag q = true := by rw [← retFlag_callAt c s pos b hne]; exact hr'
          rw [he q i g6] at hr''; cases hr''
    | callCopy vals inBuf b =>
      show Inv c (callCopy c s vals inBuf b) ∧ Excl (callCopy c s vals inBuf b)
      unfold callCopy
      split
      · exact ⟨hi.change (fun _ _ => by cases ‹Cell› <;> rfl) rfl rfl (fun cell _ _ => by cases cell <;> rfl), he⟩
      · rename_i pos hpos
        obtain ⟨h1, h2⟩ := findSlot_some hpos
        split
        · have hf := free_flags hi h2
          obtain ⟨w1, _⟩ := writeArgs_other vals s pos 0
          have wf : ∀ cell q, (writeArgs s pos 0 vals).flag cell q = s.flag cell q := fun cell q => by rw [w1]
          have hr : (writeArgs s pos 0 vals).retFlag pos = false := (wf .ret pos).trans (hf .ret)
          refine ⟨inv_callAt (inv_writeArgs hi hf vals) h1 b hr, excl_callAt ?_ b ?_⟩
          · intro q i hq
            have h3 : s.argFlag q i = true := (wf (.arg i) q).symm.trans hq
            exact (wf .ret q).trans (he q i h3)
          · exact fun i => (wf (.arg i) pos).trans (hf (.arg i))
        · exact ⟨hi, he⟩
    | callNoArgs b =>
      show Inv c (callNoArgs c s b) ∧ Excl (callNoArgs c s b)
      unfold callNoArgs
      split
      · exact ⟨hi.change (fun _ _ => by cases ‹Cell› <;> rfl) rfl rfl (fun cell _ _ => by cases cell <;> rfl), he⟩
      · rename_i pos hpos
        obtain ⟨h1, h2⟩ := findSlot_some hpos
        have hf := free_flags hi h2
        exact ⟨inv_callAt hi h1 b (hf .ret), excl_callAt he b (fun i => hf (.arg i))⟩
    | write id v =>
      unfold stepCore; dsimp only
      split
      · exact ⟨hi, he⟩
      · rename_i p hp
        split
        · rename_i hown
          refine ⟨?_, ?_⟩
          · have hh : ∀ x q, (upd (s.setVal v p.cell p.pos).ptr id (some { p with seen := v })) x = some q ∧ q.owns = true →
                (x = id ∧ q = { p with seen := v }) ∨ (x ≠ id ∧ s.Holds x q) := by
              intro x q hx
              rw [ptr_setVal] at hx
              by_cases hxe : x = id
              · subst hxe; rw [upd_self] at hx; exact .inl ⟨rfl, by simpa using hx.1.symm⟩
              · rw [upd_ne _ _ hxe] at hx; exact .inr ⟨hxe, hx⟩
            have hval : ∀ cell q, St.val { s.setVal v p.cell p.pos with ptr := upd (s.setVal v p.cell p.pos).ptr id (some { p with seen := v }) } cell q =
                if cell = p.cell ∧ q = p.pos then v else s.val cell q := by
              intro cell q; rw [← val_setVal]; cases cell <;> rfl
            have hfl : ∀ cell q, St.flag { s.setVal v p.cell p.pos with ptr := upd (s.setVal v p.cell p.pos).ptr id (some { p with seen := v }) } cell q =
                s.flag cell q := by
              intro cell q; rw [← flag_setVal s v p.cell cell p.pos q]; cases cell <;> rfl
            have hid := hi.held id p ⟨hp, hown⟩
            refine ⟨fun x q g => ?_, fun cell pos g => ?_, fun x q x' q' g g' e1 e2 => ?_, fun x g => ?_⟩
            · rw [hfl, hval]
              rcases hh x q g with ⟨rfl, rfl⟩ | ⟨hne, g⟩
              · exact ⟨hid.1, hid.2.1, by simp, hid.2.2.2⟩
              · obtain ⟨k1, k2, k3, k4⟩ := hi.held x q g
                refine ⟨k1, k2, ?_, k4⟩
                rw [if_neg]; exact k3
                rintro ⟨e1, e2⟩
                exact hne (hi.once x q id p g ⟨hp, hown⟩ e1 e2)
            · rw [hfl] at g
              obtain ⟨x, q, k1, k2, k3⟩ := hi.ex cell pos g
              by_cases hxe : x = id
              · subst hxe
                have : q = p := by have := k1.1; rw [hp] at this; cases this; rfl
                subst this
                exact ⟨x, { q with seen := v }, ⟨by show upd _ x _ x = _; rw [upd_self], k1.2⟩, k2, k3⟩
              · exact ⟨x, q, ⟨by show upd _ id _ x = _; rw [upd_ne _ _ hxe, ptr_setVal]; exact k1.1, k1.2⟩, k2, k3⟩
            · rcases hh x q g with ⟨rfl, rfl⟩ | ⟨hne, g2⟩ <;> rcases hh x' q' g' with ⟨rfl, rfl⟩ | ⟨hne', g2'⟩
              · rfl
              · exact hi.once _ p x' q' ⟨hp, hown⟩ g2' e1 e2
              · exact hi.once x q _ p g2 ⟨hp, hown⟩ e1 e2
              · exact hi.once x q x' q' g2 g2' e1 e2
            · show upd (s.setVal v p.cell p.pos).ptr id _ x = none
              replace g : (s.setVal v p.cell p.pos).next ≤ x := g
              rw [next_setVal] at g
              rw [ptr_setVal, upd_ne]
              · exact hi.fresh x g
              · rintro rfl
                have := hi.fresh x g
                rw [hp] at this; cases this
          · intro q i hq
            have h1 : s.argFlag q i = true := by
              have := flag_setVal s v p.cell (.arg i) p.pos q
              rw [show s.argFlag q i = s.flag (.arg i) q from rfl, ← this]; exact hq
            have := flag_setVal s v p.cell .ret p.pos q
            exact this.trans (he q i h1)
        · exact ⟨hi.change (fun _ _ => by cases ‹Cell› <;> rfl) rfl rfl (fun cell _ _ => by cases cell <;> rfl), he⟩
    | move id =>
      unfold stepCore; dsimp only
      split
      · exact ⟨hi, he⟩
      · rename_i p hp
        refine ⟨?_, he⟩
        have hne : id ≠ s.next := by
          rintro rfl
          have := hi.fresh s.next (Nat.le_refl _)
          rw [hp] at this; cases this
        have hh : ∀ x q, (upd (upd s.ptr id (some { p with owns := false })) s.next (some p)) x = some q ∧ q.owns = true →
            (x = s.next ∧ q = p ∧ s.Holds id p) ∨ (x ≠ s.next ∧ x ≠ id ∧ s.Holds x q) := by
          intro x q hx
          by_cases h1 : x = s.next
          · subst h1; rw [upd_self] at hx
            have : q = p := by simpa using hx.1.symm
            subst this
            exact .inl ⟨rfl, rfl, hp, hx.2⟩
          · rw [upd_ne _ _ h1] at hx
            by_cases h2 : x = id
            · subst h2; rw [upd_self] at hx; obtain ⟨h3, h4⟩ := hx; cases h3; cases h4
            · rw [upd_ne _ _ h2] at hx; exact .inr ⟨h1, h2, hx⟩
        have hfl : ∀ cell q, St.flag { s with ptr := upd (upd s.ptr id (some { p with owns := false })) s.next (some p), next := s.next + 1 } cell q = s.flag cell q := by
          intro cell q; cases cell <;> rfl
        have hva : ∀ cell q, St.val { s with ptr := upd (upd s.ptr id (some { p with owns := false })) s.next (some p), next := s.next + 1 } cell q = s.val cell q := by
          intro cell q; cases cell <;> rfl
        refine ⟨fun x q g => ?_, fun cell pos g => ?_, fun x q x' q' g g' e1 e2 => ?_, fun x g => ?_⟩
        · rw [hfl, hva]
          rcases hh x q g with ⟨_, rfl, g⟩ | ⟨_, _, g⟩
          · exact hi.held _ _ g
          · exact hi.held _ _ g
        · rw [hfl] at g
          obtain ⟨x, q, k1, k2, k3⟩ := hi.ex cell pos g
          by_cases hxe : x = id
          · subst hxe
            have : q = p := by have := k1.1; rw [hp] at this; cases this; rfl
            subst this
            exact ⟨s.next, q, ⟨by show upd _ s.next _ s.next = _; rw [upd_self], k1.2⟩, k2, k3⟩
          · refine ⟨x, q, ⟨?_, k1.2⟩, k2, k3⟩
            show upd _ s.next _ x = _
            rw [upd_ne, upd_ne _ _ hxe]; exact k1.1
            rintro rfl
            have := hi.fresh s.next (Nat.le_refl _)
            rw [k1.1] at this; cases this
        · rcases hh x q g with ⟨rfl, rfl, g2⟩ | ⟨n1, n2, g2⟩ <;> rcases hh x' q' g' with ⟨rfl, rfl, g2'⟩ | ⟨n3, n4, g2'⟩
          · rfl
          · exact absurd (hi.once _ _ _ _ g2 g2' e1 e2).symm n4
          · exact absurd (hi.once _ _ _ _ g2 g2' e1 e2) n2
          · exact hi.once _ _ _ _ g2 g2' e1 e2
        · show upd _ s.next _ x = none
          replace g : s.next + 1 ≤ x := g
          rw [upd_ne _ _ (by omega), upd_ne]
          · exact hi.fresh x (by omega)
          · rintro rfl
            have := hi.fresh x (by omega)
            rw [hp] at this; cases this
    | drop id =>
      unfold stepCore; dsimp only
      have h1 := inv_release hi id
      have hfl : ∀ cell q, St.flag { release s id with ptr := upd (release s id).ptr id none } cell q = (release s id).flag cell q := by
        intro cell q; cases cell <;> rfl
      have hva : ∀ cell q, St.val { release s id with ptr := upd (release s id).ptr id none } cell q = (release s id).val cell q := by
        intro cell q; cases cell <;> rfl
      have hh : ∀ x q, St.Holds { release s id with ptr := upd (release s id).ptr id none } x q ↔ (release s id).Holds x q := by
        intro x q
        by_cases hx : x = id
        · subst hx
          constructor
          · intro h; have := h.1; replace this : upd (release s x).ptr x none x = some q := this; rw [upd_self] at this; cases this
          · intro h; exact absurd rfl ((holds_release s x x q).mp h).1
        · unfold St.Holds; dsimp only; rw [upd_ne _ _ hx]
      refine ⟨⟨fun x q g => ?_, fun cell pos g => ?_, fun x q x' q' g g' => ?_, fun x g => ?_⟩, ?_⟩
      · rw [hfl, hva]; exact h1.held x q ((hh x q).mp g)
      · rw [hfl] at g
        obtain ⟨x, q, k1, k2⟩ := h1.ex cell pos g
        exact ⟨x, q, (hh x q).mpr k1, k2⟩
      · exact h1.once x q x' q' ((hh x q).mp g) ((hh x' q').mp g')
      · show upd (release s id).ptr id none x = none
        by_cases hx : x = id
        · subst hx; rw [upd_self]
        · rw [upd_ne _ _ hx]; exact h1.fresh x g
      · have := excl_releaseAll (ids := [id]) he
        exact this

theorem inv_run {c : Cfg} (ops : List Op) : ∀ {s : St}, Inv c s → Excl s → ProperRun c s ops →
    Inv c (run c s ops) ∧ Excl (run c s ops) := by
  induction ops with
  | nil => exact fun h he _ => ⟨h, he⟩
  | cons o os ih =>
    intro s h he hp
    obtain ⟨h1, h2⟩ := inv_step h he o hp.1
    exact ih h1 h2 hp.2

theorem Reach.inv {c : Cfg} {s : St} (h : Reach c s) : Inv c s ∧ Excl s := by
  obtain ⟨ops, hp, rfl⟩ := h
  exact inv_run ops (inv_init c) excl_init hp

/-- A pointer that is still held after an operation is unchanged. -/
def Same (s s' : St) (id : Nat) : Prop := ∀ p', s'.Holds id p' → s'.ptr id = s.ptr id

theorem ptr_createArgs {pos : Nat} (is : List Nat) : ∀ {s : St} {id : Nat}, id < s.next → (createArgs s pos is).ptr id = s.ptr id := by
  induction is with
  | nil => exact fun _ => rfl
  | cons i is ih =>
    intro s id h
    rw [createArgs, ih (by rw [next_create]; omega), ptr_create, upd_ne _ _ (by omega)]

theorem ptr_callAt {c : Cfg} {s : St} {pos : Nat} {b : Bind} {id : Nat} (h : id < s.next) : (callAt c s pos b).ptr id = s.ptr id := by
  unfold callAt
  split
  · rfl
  · dsimp only
    split
    · rw [ptr_create]; show upd s.ptr s.next _ id = _; rw [upd_ne _ _ (by omega)]
    · rfl

theorem ptr_release_held {s : St} {x id : Nat} {p : Ptr} (h : (release s x).Holds id p) : (release s x).ptr id = s.ptr id := by
  rw [h.1, ((holds_release s x id p).mp h).2.1]

theorem ptr_releaseAll_held {s : St} {ids : List Nat} {id : Nat} {p : Ptr} (h : (releaseAll s ids).Holds id p) :
    (releaseAll s ids).ptr id = s.ptr id := by
  rw [h.1, ((holds_releaseAll ids s id p).mp h).2.1]

theorem held_same {c : Cfg} {s : St} (hi : Inv c s) (o : Op) {id : Nat} {p : Ptr} (h : s.Holds id p)
    (hw : ∀ v, o ≠ .write id v) {p' : Ptr} (h' : (step c s o).Holds id p') : p' = p := by
  have hlt : id < s.next := by
    apply Decidable.byContradiction
    intro hn
    have := hi.fresh id (by omega)
    rw [h.1] at this; cases this
  suffices (step c s o).ptr id = s.ptr id by
    have h2 := h'.1
    rw [this, h.1] at h2; cases h2; rfl
  revert h'
  unfold step
  split
  · exact fun _ => rfl
  · intro h'
    cases o with
    | allocate buf =>
      show (allocate c s buf).ptr id = _
      unfold allocate
      split
      · rfl
      · split
        · rename_i pos _ _
          exact ptr_createArgs (s := { s with log := .allocated pos :: s.log }) _ hlt
        · rfl
    | call ids b =>
      replace h' : (call c s ids b).Holds id p' := h'
      show (call c s ids b).ptr id = _
      unfold call at h' ⊢
      split
      · rfl
      · split
        · rfl
        · rename_i ps hps _ pos hc
          rw [hps] at h'
          dsimp only at h'
          rw [hc] at h'
          dsimp only at h'
          rw [ptr_releaseAll_held h', ptr_callAt hlt]
    | callCopy vals inBuf b =>
      show (callCopy c s vals inBuf b).ptr id = _
      unfold callCopy
      split
      · rfl
      · split
        · obtain ⟨_, w2, w3, _⟩ := writeArgs_other vals s ‹Nat› 0
          rw [ptr_callAt (by rw [w3]; exact hlt), w2]
        · rfl
    | callNoArgs b =>
      show (callNoArgs c s b).ptr id = _
      unfold callNoArgs
      split
      · rfl
      · rw [ptr_callAt hlt]
    | write x v =>
      have hx : id ≠ x := fun he => hw v (by rw [he])
      unfold stepCore; dsimp only
      split
      · rfl
      · split
        · show upd _ x _ id = _
          rw [upd_ne _ _ hx, ptr_setVal]
        · rfl
    | move x =>
      by_cases hx : id = x
      · subst hx
        exfalso
        obtain ⟨h1, h2⟩ := h'
        unfold stepCore at h1; dsimp only at h1
        rw [h.1] at h1
        dsimp only at h1
        rw [upd_ne _ _ (by omega), upd_self] at h1
        cases h1
        cases h2
      · unfold stepCore; dsimp only
        split
        · rfl
        · show upd _ s.next _ id = _
          rw [upd_ne _ _ (by omega), upd_ne _ _ hx]
    | drop x =>
      by_cases hx : id = x
      · subst hx
        have := h'.1
        replace this : upd (release s id).ptr id none id = _ := this
        rw [upd_self] at this; cases this
      · replace h' : (release s x).Holds id p' := by
          have h1 := h'.1
          replace h1 : upd (release s x).ptr x none id = _ := h1
          rw [upd_ne _ _ hx] at h1
          exact ⟨h1, h'.2⟩
        show upd (release s x).ptr x none id = _
        rw [upd_ne _ _ hx]; exact ptr_release_held h'

end Verif.ProxyCalls
