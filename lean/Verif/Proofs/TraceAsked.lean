import Verif.Proofs.TraceTurns

/-! Which calls of the program lead to which calls of the subsystem. -/
namespace Verif.TraceCall
open Verif.TraceCallSpec

/-- The address of the data. -/
def Data.address : Data → Option Nat
  | .loc => none
  | .shm _ _ x => some x

/-- The trace that a thread is making. -/
def origin : Pc → Option (Point × Option Nat)
  | .enter p x => some (p, x)
  | .info p d => some (p, d.address)
  | .slot p d _ => some (p, d.address)
  | .call p d _ => some (p, d.address)
  | _ => none

/-- An event has its reason in what the program did. -/
def AskedEv (done : List Op) : Ev → Prop
  | .called p d _ _ => ∃ u, Op.trace u p d.address ∈ done
  | .registered i g st => ∃ fd, Op.register i fd st g .ok ∈ done
  | _ => True

structure Asked (done : List Op) (s : St) : Prop where
  pcs : ∀ t p x, origin (s.pc t) = some (p, x) → ∃ u, Op.trace u p x ∈ done
  evs : ∀ e ∈ s.log, AskedEv done e
  before : ∀ l p d loss a r, s.log = l ++ Ev.called p d loss a :: r → Known l p d

theorem asked_start (on : Point → Bool) : Asked [] (start on) :=
  ⟨fun t p x h => (by cases h), fun e h => (by cases h), fun l p d loss a r h => (by
    have := congrArg List.length h
    simp [start] at this)⟩

theorem askedEv_mono {done : List Op} (o : Op) {e : Ev} (h : AskedEv done e) : AskedEv (done ++ [o]) e := by
  cases e with
  | called p d l a => obtain ⟨u, k⟩ := h; exact ⟨u, List.mem_append_left _ k⟩
  | registered i g st => obtain ⟨u, k⟩ := h; exact ⟨u, List.mem_append_left _ k⟩
  | _ => trivial

theorem before_append {log : List Ev} {e : Ev} (h : ∀ l p d loss a r, log = l ++ Ev.called p d loss a :: r → Known l p d)
    (he : ∀ p d loss a, e = .called p d loss a → Known log p d) :
    ∀ l p d loss a r, log ++ [e] = l ++ Ev.called p d loss a :: r → Known l p d := by
  intro l p d loss a r heq
  rcases List.append_eq_append_iff.1 heq with ⟨m, h1, h2⟩ | ⟨m, h1, h2⟩
  · cases m with
    | nil =>
      simp only [List.append_nil] at h1
      simp only [List.nil_append, List.cons.injEq] at h2
      rw [h1]; exact he p d loss a h2.1
    | cons y m =>
      rw [List.cons_append] at h2
      have := congrArg List.length h2
      simp at this
  · cases m with
    | nil =>
      simp only [List.append_nil] at h1
      simp only [List.nil_append, List.cons.injEq] at h2
      rw [← h1]; exact he p d loss a h2.1.symm
    | cons y m =>
      rw [List.cons_append, List.cons.injEq] at h2
      exact h l p d loss a m (by rw [h1, h2.1])

theorem asked_op {done : List Op} {s : St} (ob : Objects s) (so : Sourced s) (h : Asked done s) (o : Op) :
    Asked (done ++ [o]) (s.op o) := by
  have hd := does_op s o
  generalize s.op o = s' at hd
  have keep : s'.pc = s.pc → s'.log = s.log → Asked (done ++ [o]) s' := by
    intro h1 h2
    refine ⟨fun t p x ht => ?_, fun e he => askedEv_mono o (h.evs e (h2 ▸ he)), h2 ▸ h.before⟩
    obtain ⟨u, k⟩ := h.pcs t p x (h1 ▸ ht)
    exact ⟨u, List.mem_append_left _ k⟩
  have pcs : ∀ (t : Nat) (q : Pc), (∀ u, s'.pc u = if u = t then q else s.pc u) →
      (∀ p x, origin q = some (p, x) → ∃ u, Op.trace u p x ∈ done ++ [o]) →
      ∀ t p x, origin (s'.pc t) = some (p, x) → ∃ u, Op.trace u p x ∈ done ++ [o] := by
    intro t q h1 h2 u p x hu
    rw [h1] at hu
    split at hu
    · exact h2 p x hu
    · obtain ⟨v, k⟩ := h.pcs u p x hu
      exact ⟨v, List.mem_append_left _ k⟩
  -- a thread moves on and the history stays
  have move : ∀ (t : Nat) (q : Pc), (∀ u, s'.pc u = if u = t then q else s.pc u) → s'.log = s.log →
      (∀ p x, origin q = some (p, x) → origin (s.pc t) = some (p, x)) → Asked (done ++ [o]) s' := by
    intro t q h1 h2 h3
    refine ⟨pcs t q h1 (fun p x hq => ?_), fun e he => askedEv_mono o (h.evs e (h2 ▸ he)), h2 ▸ h.before⟩
    obtain ⟨u, k⟩ := h.pcs t p x (h3 p x hq)
    exact ⟨u, List.mem_append_left _ k⟩
  -- one event
  have add : ∀ (e : Ev), s'.log = s.log ++ [e] → AskedEv (done ++ [o]) e →
      (∀ p d loss a, e = .called p d loss a → Known s.log p d) →
      (∀ t p x, origin (s'.pc t) = some (p, x) → ∃ u, Op.trace u p x ∈ done ++ [o]) → Asked (done ++ [o]) s' := by
    intro e h1 h2 h3 h4
    refine ⟨h4, fun e' he => ?_, ?_⟩
    · rw [h1] at he
      rcases List.mem_append.1 he with he | he
      · exact askedEv_mono o (h.evs e' he)
      · rw [List.mem_singleton.1 he]; exact h2
    · rw [h1]; exact before_append h.before h3
  have old : s'.pc = s.pc → ∀ t p x, origin (s'.pc t) = some (p, x) → ∃ u, Op.trace u p x ∈ done ++ [o] := by
    intro h1 t p x ht
    obtain ⟨u, k⟩ := h.pcs t p x (h1 ▸ ht)
    exact ⟨u, List.mem_append_left _ k⟩
  have quiet : ∀ (t : Nat) (q : Pc), (∀ u, s'.pc u = if u = t then q else s.pc u) → origin q = none →
      ∀ t p x, origin (s'.pc t) = some (p, x) → ∃ u, Op.trace u p x ∈ done ++ [o] := by
    intro t q h1 h2
    exact pcs t q h1 (fun p x hq => by rw [h2] at hq; cases hq)
  have asked : ∀ (t : Nat) (p : Point) (d : Data) (l : Bool) (a : Answer), s.pc t = .call p d l →
      AskedEv (done ++ [o]) (.called p d l a) := by
    intro t p d l a hp
    obtain ⟨u, k⟩ := h.pcs t p d.address (by rw [hp]; rfl)
    exact ⟨u, List.mem_append_left _ k⟩
  have known : ∀ (t : Nat) (p : Point) (d : Data) (l : Bool), s.pc t = .call p d l → Known s.log p d :=
    fun t p d l hp => so.pcs t p d (by rw [hp]; rfl)
  cases hd with
  | same => exact keep rfl rfl
  | died => exact keep rfl rfl
  | registered i fd st g he hn =>
    exact add _ rfl ⟨fd, List.mem_append_right _ (List.mem_singleton.2 rfl)⟩ (by simp) (old rfl)
  | registerFatal i fd st g he => exact add _ rfl trivial (by simp) (old rfl)
  | cached i fd st g he => exact add _ rfl trivial (by simp) (old rfl)
  | uncached i a he hn => exact keep rfl rfl
  | unregistered i a he ha => exact add _ rfl trivial (by simp) (old rfl)
  | unregisterFatal i he =>
    refine ⟨old rfl, fun e hm => ?_, before_append (before_append h.before (by simp)) (by simp)⟩
    rcases List.mem_append.1 hm with hm | hm
    · rcases List.mem_append.1 hm with hm | hm
      · exact askedEv_mono _ (h.evs e hm)
      · rw [List.mem_singleton.1 hm]; trivial
    · rw [List.mem_singleton.1 hm]; trivial
  | trace t p x hp hon =>
    refine ⟨pcs t _ (fun u => rfl) (fun q y hq => ?_), fun e he => askedEv_mono _ (h.evs e he), h.before⟩
    cases hq
    exact ⟨t, List.mem_append_right _ (List.mem_singleton.2 rfl)⟩
  | disabled t sl a g p x hp he => exact move t .idle (fun u => rfl) rfl (fun q y hq => by cases hq)
  | enterLocal t sl a g p hp he => exact move t _ (fun u => rfl) rfl (fun q y hq => by rw [hp]; exact hq)
  | enterShm t sl a g' p x g st hp he hh => exact move t _ (fun u => rfl) rfl (fun q y hq => by rw [hp]; exact hq)
  | missing t sl a g p x hp he hh hc => exact add _ rfl trivial (by simp) (quiet t .idle (fun u => rfl) rfl)
  | retryFatal t sl a g p x hp he hc => exact absurd (ob.cache _ _) hc
  | retryFailed t sl a g p x hp he hc => exact absurd (ob.cache _ _) hc
  | infoLocal t sl a g p hp => exact move t _ (fun u => rfl) rfl (fun q y hq => by rw [hp]; exact hq)
  | infoShm t sl a g' p g o x hp => exact move t _ (fun u => rfl) rfl (fun q y hq => by rw [hp]; exact hq)
  | slot t a g p d l hp => exact move t _ (fun u => rfl) rfl (fun q y hq => by rw [hp]; exact hq)
  | noSlot t a g p d l hp => exact add _ rfl trivial (by simp) (quiet t .idle (fun u => rfl) rfl)
  | callOk t sl g p d l hp =>
    exact add _ rfl (asked t p d l _ hp) (by rintro _ _ _ _ heq; cases heq; exact known t p d l hp)
      (quiet t .okFlag (fun u => rfl) rfl)
  | callTerminal t sl g p d l hp =>
    exact add _ rfl (asked t p d l _ hp) (by rintro _ _ _ _ heq; cases heq; exact known t p d l hp)
      (quiet t .idle (fun u => rfl) rfl)
  | callFailed t sl a g p d l hard hp ha =>
    exact add _ rfl (asked t p d l _ hp) (by rintro _ _ _ _ heq; cases heq; exact known t p d l hp)
      (quiet t (.failCount p hard) (fun u => rfl) rfl)
  | okFlag t sl a g hp => exact move t .okCount (fun u => rfl) rfl (fun q y hq => by cases hq)
  | okCount t sl a g hp => exact move t .idle (fun u => rfl) rfl (fun q y hq => by cases hq)
  | failCount t sl a g p hard hp => exact move t (.failFlag p hard) (fun u => rfl) rfl (fun q y hq => by cases hq)
  | failFlag t sl a g p hard hp => exact move t (.failCheck p hard) (fun u => rfl) rfl (fun q y hq => by cases hq)
  | tooMany t sl a g p hard hp hc => exact move t .idle (fun u => rfl) rfl (fun q y hq => by cases hq)
  | hard t sl a g p hp hc => exact move t .idle (fun u => rfl) rfl (fun q y hq => by cases hq)
  | soft t sl a g p hp hc => exact move t .idle (fun u => rfl) rfl (fun q y hq => by cases hq)

theorem asked_run (ops : List Op) : ∀ {done : List Op} {s : St}, Objects s → Sourced s → Asked done s →
    Asked (done ++ ops) (run s ops) := by
  induction ops with
  | nil => intro done s _ _ h; rw [List.append_nil]; exact h
  | cons o ops ih =>
    intro done s ob so h
    have := ih (objects_op ob o) (sourced_op ob so o) (asked_op ob so h o)
    rw [List.append_assoc] at this
    exact this

/-! ## A point that is off is not traced -/

structure Past (p : Point) (s : St) : Prop where
  off : s.on p = false
  pcs : ∀ t x, origin (s.pc t) ≠ some (p, x)

theorem past_op {p : Point} {s : St} (h : Past p s) (o : Op) : Past p (s.op o) ∧ callsFor p (s.op o).log = callsFor p s.log := by
  have hd := does_op s o
  generalize s.op o = s' at hd
  have same : ∀ {l : List Ev} {e : Ev}, (∀ d l a, e ≠ .called p d l a) → callsFor p (l ++ [e]) = callsFor p l := by
    intro l e he
    have hs : callsFor p (l ++ [e]) = callsFor p l ++ callsFor p [e] := List.filter_append ..
    have : callsFor p [e] = [] := by
      unfold callsFor
      rw [List.filter_eq_nil_iff]
      intro x hx
      rw [List.mem_singleton.1 hx]
      cases e with
      | called q d l a => intro hq; exact he d l a (by rw [of_decide_eq_true hq])
      | _ => simp
    rw [hs, this, List.append_nil]
  have keep : s'.on = s.on → s'.pc = s.pc → Past p s' := fun h1 h2 => ⟨h1 ▸ h.off, h2 ▸ h.pcs⟩
  have move : ∀ (t : Nat) (q : Pc), (∀ u, s'.pc u = if u = t then q else s.pc u) → (s.on p = false → s'.on p = false) →
      (∀ y, origin q = some (p, y) → ∃ y, origin (s.pc t) = some (p, y)) → Past p s' := by
    intro t q h1 h2 h3
    refine ⟨h2 h.off, fun u x hu => ?_⟩
    rw [h1] at hu
    split at hu
    · obtain ⟨y, hy⟩ := h3 x hu
      exact h.pcs t y hy
    · exact h.pcs u x hu
  have offE : ∀ (x : St) (r : Point), x.on p = false → (x.elemOff r).on p = false := by
    intro x r hq; simp only [St.elemOff]; split
    · rfl
    · exact hq
  have offP : ∀ (x : St) (r : Point), x.on p = false → (x.pointOff r).on p = false := by
    intro x r hq; simp only [St.pointOff]; split
    · rfl
    · exact hq
  have other : ∀ (t : Nat) (r : Point) (d : Data) (l : Bool), s.pc t = .call r d l → ∀ a d' l' a', Ev.called r d l a ≠ .called p d' l' a' := by
    intro t r d l hp a d' l' a' heq
    cases heq
    exact h.pcs t d.address (by rw [hp]; rfl)
  cases hd with
  | same => exact ⟨h, rfl⟩
  | died => exact ⟨keep rfl rfl, rfl⟩
  | registered i fd st g he hn => exact ⟨keep rfl rfl, same (by simp)⟩
  | registerFatal i fd st g he => exact ⟨keep rfl rfl, same (by simp)⟩
  | cached i fd st g he => exact ⟨keep rfl rfl, same (by simp)⟩
  | uncached i a he hn => exact ⟨keep rfl rfl, rfl⟩
  | unregistered i a he ha => exact ⟨keep rfl rfl, same (by simp)⟩
  | unregisterFatal i he => exact ⟨keep rfl rfl, (same (by simp)).trans (same (by simp))⟩
  | trace t r x hp hon =>
    refine ⟨move t _ (fun u => rfl) (fun hq => hq) (fun y hy => ?_), rfl⟩
    cases hy
    rw [h.off] at hon; cases hon
  | disabled t sl a g r x hp he => exact ⟨move t .idle (fun u => rfl) (offE s r) (fun y hy => by cases hy), rfl⟩
  | enterLocal t sl a g r hp he => exact ⟨move t _ (fun u => rfl) (fun hq => hq) (fun y hy => ⟨y, by rw [hp]; exact hy⟩), rfl⟩
  | enterShm t sl a g' r x g st hp he hh =>
    exact ⟨move t _ (fun u => rfl) (fun hq => hq) (fun y hy => ⟨y, by rw [hp]; exact hy⟩), rfl⟩
  | missing t sl a g r x hp he hh hc =>
    exact ⟨move t .idle (fun u => rfl) (offP s r) (fun y hy => by cases hy), same (by simp)⟩
  | retryFatal t sl a g r x hp he hc =>
    exact ⟨move t .idle (fun u => rfl) (offE s r) (fun y hy => by cases hy), same (by simp)⟩
  | retryFailed t sl a g r x hp he hc =>
    exact ⟨move t .idle (fun u => rfl) (offP s r) (fun y hy => by cases hy), same (by simp)⟩
  | infoLocal t sl a g r hp => exact ⟨move t _ (fun u => rfl) (fun hq => hq) (fun y hy => ⟨y, by rw [hp]; exact hy⟩), rfl⟩
  | infoShm t sl a g' r g o x hp => exact ⟨move t _ (fun u => rfl) (fun hq => hq) (fun y hy => ⟨y, by rw [hp]; exact hy⟩), rfl⟩
  | slot t a g r d l hp => exact ⟨move t _ (fun u => rfl) (fun hq => hq) (fun y hy => ⟨y, by rw [hp]; exact hy⟩), rfl⟩
  | noSlot t a g r d l hp => exact ⟨move t .idle (fun u => rfl) (fun hq => hq) (fun y hy => by cases hy), same (by simp)⟩
  | callOk t sl g r d l hp =>
    exact ⟨move t .okFlag (fun u => rfl) (fun hq => hq) (fun y hy => by cases hy), same (other t r d l hp _)⟩
  | callTerminal t sl g r d l hp =>
    exact ⟨move t .idle (fun u => rfl) (offE s r) (fun y hy => by cases hy), same (other t r d l hp _)⟩
  | callFailed t sl a g r d l hard hp ha =>
    exact ⟨move t (.failCount r hard) (fun u => rfl) (fun hq => hq) (fun y hy => by cases hy), same (other t r d l hp _)⟩
  | okFlag t sl a g hp => exact ⟨move t .okCount (fun u => rfl) (fun hq => hq) (fun y hy => by cases hy), rfl⟩
  | okCount t sl a g hp => exact ⟨move t .idle (fun u => rfl) (fun hq => hq) (fun y hy => by cases hy), rfl⟩
  | failCount t sl a g r hard hp => exact ⟨move t (.failFlag r hard) (fun u => rfl) (fun hq => hq) (fun y hy => by cases hy), rfl⟩
  | failFlag t sl a g r hard hp => exact ⟨move t (.failCheck r hard) (fun u => rfl) (fun hq => hq) (fun y hy => by cases hy), rfl⟩
  | tooMany t sl a g r hard hp hc => exact ⟨move t .idle (fun u => rfl) (offE s r) (fun y hy => by cases hy), rfl⟩
  | hard t sl a g r hp hc => exact ⟨move t .idle (fun u => rfl) (offP s r) (fun y hy => by cases hy), rfl⟩
  | soft t sl a g r hp hc => exact ⟨move t .idle (fun u => rfl) (fun hq => hq) (fun y hy => by cases hy), rfl⟩

theorem past_run {p : Point} (ops : List Op) : ∀ {s : St}, Past p s → callsFor p (run s ops).log = callsFor p s.log := by
  induction ops with
  | nil => exact fun _ => rfl
  | cons o ops ih => exact fun h => (ih (past_op h o).1).trans (past_op h o).2

end Verif.TraceCall
