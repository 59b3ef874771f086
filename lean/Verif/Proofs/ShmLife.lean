import Verif.Spec.ShmLife
namespace Verif.ShmLife

@[simp] theorem setP_self {α : Type} (f : Part → α) (p : Part) (v : α) : setP f p v p = v := by simp [setP]
theorem setP_apply {α : Type} (f : Part → α) (p q : Part) (v : α) : setP f p v q = if q = p then v else f q := rfl

def PPc.act : PPc → Bool
  | .pLk _ | .pShm _ | .pEnd | .conn => true
  | _ => false

def PPc.hasCtl : PPc → Bool
  | .pLk .dat | .pShm .dat | .pEnd | .conn => true
  | _ => false

def PPc.hasDat : PPc → Bool
  | .pEnd | .conn => true
  | _ => false

/-- A single consumer. -/
structure POk (usage : Option Nat) (shm : Part → Option Nat) (ready : Nat → Bool) (a : Px) : Prop where
  none : a.pc = .none → a = noPx
  try_ : ∀ k, a.pc = .pTry k → a.lk = false ∧ (∀ p, a.held p = Option.none) ∧ a.u = usage ∧ usage ≠ Option.none
  act : a.pc.act = true → a.lk = true ∧ a.u = usage ∧ usage ≠ Option.none
  gone : a.pc = .gone → a.lk = false
  held : a.lk = true → ∀ p o, a.held p = some o → shm p = some o
  rdy : a.lk = true → ∀ o, a.held .dat = some o → ready o = true
  ctl : a.pc.hasCtl = true → a.held .ctl ≠ Option.none
  dat : a.pc.hasDat = true → a.held .dat ≠ Option.none

def SPc.locked : SPc → Bool
  | .oStaleL _ | .oStaleS _ | .oMk _ | .oShm _ | .oInit _ _ | .sRm _ | .sUnlock => true
  | _ => false

/-- The provider need not hold the lock here. -/
def SPc.free : SPc → Bool
  | .none | .idle | .offered | .oOpen | .oTry | .rLk _ | .rShm _ | .sTry | .sUnlink => true
  | _ => false

def SPc.fileOk : SPc → Bool
  | .none | .idle | .oOpen | .sUnlink => false
  | _ => true

def SPc.noCtl : SPc → Bool
  | .oStaleS _ | .oStaleL .dat | .oMk .ctl | .oShm .ctl | .oInit .ctl _ | .sUnlock | .sUnlink => true
  | _ => false

def SPc.noDat : SPc → Bool
  | .oStaleS .dat | .oMk _ | .oShm _ | .oInit _ _ | .sUnlock | .sUnlink => true
  | _ => false

def SPc.hasCtl : SPc → Bool
  | .oMk .dat | .oShm .dat | .oInit .dat _ | .rLk .dat | .rShm .dat | .oEnd | .offered | .sTry | .sRm .ctl => true
  | _ => false

def SPc.hasDat : SPc → Bool
  | .oEnd | .offered | .sTry | .sRm _ => true
  | _ => false

/-- There is no control object here. -/
def SPc.gapC : SPc → Bool
  | .oStaleL .dat | .oStaleS .dat | .oMk .ctl | .oShm .ctl => true
  | _ => false

/-- There is no data object here. -/
def SPc.gapD : SPc → Bool
  | .oMk _ | .oShm _ | .oInit .ctl _ => true
  | _ => false

/-- The provider. -/
structure SOk (usage : Option Nat) (shm : Part → Option Nat) (lockf : Part → Bool) (ready : Nat → Bool)
    (cache : Nat → Part → Option Nat) (k : Sk) : Prop where
  none : k.pc = .none → k = noSk
  locked : k.pc.locked = true → k.lk = true
  free : k.pc.free = true → k.lk = false
  file : k.pc.fileOk = true → k.u = usage ∧ usage ≠ Option.none
  held : ∀ p o, k.pc ≠ .sRm .dat ∨ p = .dat → k.held p = some o → shm p = some o ∧ cache k.proc p = some o
  rdy : ∀ o, k.held .dat = some o → ready o = true
  noCtl : k.pc.noCtl = true → k.held .ctl = Option.none
  noDat : k.pc.noDat = true → k.held .dat = Option.none
  ctl : k.pc.hasCtl = true → k.held .ctl ≠ Option.none
  dat : k.pc.hasDat = true → k.held .dat ≠ Option.none
  ini : ∀ p o, k.pc = .oInit p o → shm p = some o ∧ lockf p = true
  mk_ : ∀ p, k.pc = .oShm p → lockf p = true
  gapC : k.pc.gapC = true → shm .ctl = Option.none
  gapD : k.pc.gapD = true → shm .dat = Option.none
  mid : k.pc = .oMk .dat ∨ k.pc = .oShm .dat → ∀ o, shm .ctl = some o → ready o = true

/-- Objects without contents: there is no data object beside such a control object; such a data object is protected by its lock file, or
has no control object beside it. -/
structure Unr (s : St) : Prop where
  ctl : ∀ o, s.shm .ctl = some o → s.ready o = false → s.shm .dat = none
  dat : ∀ o, s.shm .dat = some o → s.ready o = false →
    (s.lockf .dat = true ∧ (∀ x, (s.px x).pc ≠ .pShm .dat) ∧ s.sk.pc ≠ .rShm .dat ∧ s.sk.pc ≠ .oShm .dat) ∨ s.shm .ctl = none

structure Inv (c : Cfg) (s : St) : Prop where
  out : ∀ x, c.n ≤ x → s.px x = noPx
  px : ∀ x, POk s.usage s.shm s.ready (s.px x)
  sk : SOk s.usage s.shm s.lockf s.ready s.cache s.sk
  excl : s.sk.lk = true ∨ s.sk.pc = .sUnlink → ∀ x, (s.px x).lk = false
  unr : Unr s

theorem inv_init (c : Cfg) : Inv c init := by
  refine ⟨fun _ _ => rfl, fun _ => ?_, ?_, fun _ _ => rfl, ?_⟩
  · constructor <;> simp [init, noPx, PPc.act, PPc.hasCtl, PPc.hasDat]
  · constructor <;> simp [init, noSk, SPc.locked, SPc.fileOk, SPc.noCtl, SPc.noDat, SPc.hasCtl, SPc.hasDat, SPc.gapC, SPc.gapD]
  · constructor <;> simp [init]

/-! ### Frames -/

theorem POk.mono {usage shm ready ready'} {a : Px} (h : POk usage shm ready a) (hr : ∀ o, ready o = true → ready' o = true) :
    POk usage shm ready' a :=
  ⟨h.none, h.try_, h.act, h.gone, h.held, fun l o e => hr _ (h.rdy l o e), h.ctl, h.dat⟩

theorem POk.unlocked {usage shm ready shm' ready'} {a : Px} (h : POk usage shm ready a) (hl : a.lk = false) :
    POk usage shm' ready' a :=
  ⟨h.none, h.try_, h.act, h.gone, (fun l => by rw [hl] at l; cases l), (fun l => by rw [hl] at l; cases l),
    h.ctl, h.dat⟩

theorem POk.noPx {usage shm ready} : POk usage shm ready noPx := by
  constructor <;> simp [ShmLife.noPx, PPc.act, PPc.hasCtl, PPc.hasDat]

/-- A consumer that has not opened the marker file does not care about it. -/
theorem POk.away {usage shm ready usage' shm' ready'} {a : Px} (h : POk usage shm ready a) (hl : a.lk = false)
    (ht : ∀ k, a.pc ≠ .pTry k) : POk usage' shm' ready' a := by
  refine ⟨h.none, fun k e => absurd e (ht k), fun e => ?_, h.gone, (fun l => by rw [hl] at l; cases l), (fun l => by rw [hl] at l; cases l),
    h.ctl, h.dat⟩
  have := (h.act e).1
  rw [hl] at this; cases this

theorem noMark {shm ready} {a : Px} (h : POk none shm ready a) : a.lk = false ∧ ∀ k, a.pc ≠ .pTry k := by
  have h2 : ∀ k, a.pc ≠ .pTry k := fun k e => (h.try_ k e).2.2.2 rfl
  refine ⟨?_, h2⟩
  cases e : a.pc with
  | none => rw [h.none e]; rfl
  | pTry k => exact absurd e (h2 k)
  | gone => exact h.gone e
  | _ => exact absurd rfl (h.act (by rw [e]; rfl)).2.2

theorem live_iff {c : Cfg} {s : St} {q : Nat} {p : Part} {o : Nat} :
    live c s q p o = true ↔ (s.sk.proc = q ∧ s.sk.held p = some o) ∨ ∃ x, x < c.n ∧ c.proc x = q ∧ (s.px x).held p = some o := by
  simp [live, List.any_eq_true]

theorem cached_some {c : Cfg} {s : St} {q : Nat} {p : Part} {o : Nat} :
    cached c s q p = some o ↔ s.cache q p = some o ∧
      ((s.sk.proc = q ∧ s.sk.held p = some o) ∨ ∃ x, x < c.n ∧ c.proc x = q ∧ (s.px x).held p = some o) := by
  rw [← live_iff]
  unfold cached
  cases s.cache q p with
  | none => simp
  | some o' =>
    simp only [Option.some.injEq]
    constructor
    · intro h
      split at h
      · cases h; exact ⟨rfl, by assumption⟩
      · cases h
    · rintro ⟨rfl, h⟩; rw [if_pos h]

theorem inUse_false {c : Cfg} {s : St} : inUse c s = false ↔ ∀ x, x < c.n → (s.px x).lk = true → (s.px x).u ≠ s.sk.u := by
  simp [inUse, List.any_eq_false]

theorem inUse_true {c : Cfg} {s : St} : inUse c s = true ↔ ∃ x, x < c.n ∧ (s.px x).lk = true ∧ (s.px x).u = s.sk.u := by
  simp [inUse, List.any_eq_true]

/-- A locked consumer has locked the file that the path names. -/
theorem Inv.lkU {c : Cfg} {s : St} (h : Inv c s) {x : Nat} (hl : (s.px x).lk = true) :
    (s.px x).u = s.usage ∧ s.usage ≠ none := by
  have hx := h.px x
  cases e : (s.px x).pc with
  | none => rw [hx.none e] at hl; cases hl
  | pTry k => rw [(hx.try_ k e).1] at hl; cases hl
  | gone => rw [hx.gone e] at hl; cases hl
  | _ => exact (hx.act (by rw [e]; rfl)).2

theorem Inv.lkN {c : Cfg} {s : St} (h : Inv c s) {x : Nat} (hl : (s.px x).lk = true) : x < c.n := by
  rcases Nat.lt_or_ge x c.n with hx | hx
  · exact hx
  · rw [h.out x hx] at hl; cases hl

theorem Inv.excl_of_notInUse {c : Cfg} {s : St} (h : Inv c s) (hu : s.sk.u = s.usage) (hn : inUse c s = false) (x : Nat) :
    (s.px x).lk = false := by
  cases e : (s.px x).lk with
  | false => rfl
  | true => exact absurd (((h.lkU e).1).trans hu.symm) (inUse_false.mp hn x (h.lkN e) e)

/-- What somebody who may open the memory finds already open is what the path names. -/
theorem Inv.hit {c : Cfg} {s : St} (h : Inv c s) {q : Nat} {p : Part} {o : Nat} (hc : cached c s q p = some o)
    (hg : ∀ x, (s.px x).pc = .gone → c.proc x ≠ q) (hs : s.sk.pc ≠ .sRm .dat) :
    s.shm p = some o ∧ (p = .dat → s.ready o = true) := by
  obtain ⟨_, ⟨h1, h2⟩ | ⟨y, -, h3, h4⟩⟩ := cached_some.mp hc
  · have := h.sk.held p o (Or.inl hs) h2
    exact ⟨this.1, fun e => h.sk.rdy o (e ▸ h2)⟩
  · have hy := h.px y
    cases e : (s.px y).pc with
    | none => rw [hy.none e] at h4; cases h4
    | pTry k => rw [(hy.try_ k e).2.1] at h4; cases h4
    | gone => exact absurd h3 (hg y e)
    | _ =>
      have hl := (hy.act (by rw [e]; rfl)).1
      exact ⟨hy.held hl p o h4, fun e => hy.rdy hl o (e ▸ h4)⟩

/-! ### Crashes -/

theorem inv_crash {c : Cfg} {s : St} (h : Inv c s) (q : Nat) :
    Inv c (crash c s q) := by
  have hp : ∀ x, (crash c s q).px x = noPx ∨ (crash c s q).px x = s.px x := by
    intro x; simp only [crash]; split
    · exact Or.inl rfl
    · exact Or.inr rfl
  refine ⟨fun x hx => ?_, fun x => ?_, ?_, ?_, ?_⟩
  · rcases hp x with e | e
    · exact e
    · rw [e]; exact h.out x hx
  · rcases hp x with e | e
    · rw [e]; exact POk.noPx
    · rw [e]; exact h.px x
  · simp only [crash]
    split
    · constructor <;> simp [noSk, SPc.locked, SPc.fileOk, SPc.noCtl, SPc.noDat, SPc.hasCtl, SPc.hasDat, SPc.gapC, SPc.gapD]
    · rename_i hq
      have hk := h.sk
      refine ⟨hk.none, hk.locked, hk.free, hk.file, ?_, hk.rdy, hk.noCtl, hk.noDat, hk.ctl, hk.dat, hk.ini, hk.mk_, hk.gapC,
        hk.gapD, hk.mid⟩
      intro p o a b
      have := hk.held p o a b
      refine ⟨this.1, ?_⟩
      rw [upd_ne _ _ hq]; exact this.2
  · intro hl x
    rcases hp x with e | e
    · rw [e]; rfl
    · rw [e]; refine h.excl ?_ x
      simp only [crash] at hl
      split at hl
      · simp [noSk] at hl
      · exact hl
  · refine ⟨h.unr.ctl, fun o h1 h2 => ?_⟩
    rcases h.unr.dat o h1 h2 with ⟨a, b, d, e⟩ | a
    · refine Or.inl ⟨a, ?_, ?_, ?_⟩
      · intro x; rcases hp x with e | e
        · rw [e]; simp [noPx]
        · rw [e]; exact b x
      · simp only [crash]; split
        · simp [noSk]
        · exact d
      · simp only [crash]; split
        · simp [noSk]
        · exact e
    · exact Or.inr a

theorem inv_terminate {c : Cfg} {s : St} (h : Inv c s) (q : Nat) :
    Inv c (terminate c s q) := by
  have := inv_crash h q
  exact ⟨this.out, this.px, this.sk, this.excl, ⟨this.unr.ctl, this.unr.dat⟩⟩

end Verif.ShmLife
