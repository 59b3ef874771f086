import Verif.Spec.Stamp

namespace Verif.Stamp
open Verif.StampSpec

variable {V : Type}

/-- The kind of a send in progress. -/
def Pc.kind : Pc V → Option Kind
  | .idle => none
  | .wait _ => none
  | .ready k _ => some k
  | .loaded k _ _ => some k
  | .stored k _ => some k
  | .read k _ _ => some k

theorem sending_iff {p : Pc V} : Sending p ↔ p.kind ≠ none := by
  cases p <;> simp [Sending, Pc.kind]

/-- The timestamp fits to the number of samples. -/
def Fits (stamp n : Nat) : Pc V → Prop
  | .idle => True
  | .wait _ => True
  | .ready _ _ => stamp = n % modulus
  | .loaded _ _ r => stamp = n % modulus ∧ r = n % modulus
  | .stored _ _ => stamp = (n + 1) % modulus
  | .read _ _ r => stamp = (n + 1) % modulus ∧ r = (n + 1) % modulus

/-- The samples have consecutive timestamps. -/
def Counted (sent : List (Nat × V)) : Prop :=
  ∀ i p, sent[i]? = some p → p.1 = (i + 1) % modulus

structure Inv (s : St V) : Prop where
  one : ∀ t j, (s.pc t).kind ≠ none → (s.pc j).kind ≠ none → t = j
  holder : ∀ t, (s.pc t).kind = some .set ↔ s.lock = some t
  fits : ∀ t, Fits s.stamp s.sent.length (s.pc t)
  rest : (∀ t, (s.pc t).kind = none) → s.stamp = s.sent.length % modulus
  counted : Counted s.sent

theorem inv_init : Inv ({} : St V) where
  one := by intro t j h; exact absurd rfl h
  holder := by intro t; simp [Pc.kind]
  fits := by intro t; trivial
  rest := by intro _; simp
  counted := by intro i p h; simp at h

theorem at_pc (s : St V) (t j : Nat) (p : Pc V) :
    (s.at t p).pc j = if j = t then p else s.pc j := rfl

/-- A thread that sends goes on sending. -/
theorem inv_go {s : St V} (hi : Inv s) {t : Nat} {p : Pc V} {st : Nat}
    (hk : (s.pc t).kind ≠ none) (hp : p.kind = (s.pc t).kind) (hf : Fits st s.sent.length p) :
    Inv { s.at t p with stamp := st } := by
  have hkind : ∀ j, (if j = t then p else s.pc j).kind = (s.pc j).kind := by
    intro j; by_cases h : j = t
    · subst h; simp [hp]
    · simp [h]
  refine ⟨?_, ?_, ?_, ?_, hi.counted⟩
  · intro a b ha hb
    rw [at_pc, hkind] at ha hb
    exact hi.one a b ha hb
  · intro a
    show ((s.at t p).pc a).kind = some .set ↔ s.lock = some a
    rw [at_pc, hkind]; exact hi.holder a
  · intro a
    show Fits st s.sent.length ((s.at t p).pc a)
    rw [at_pc]
    by_cases h : a = t
    · simp only [h, if_true]; exact hf
    · simp only [h, if_false]
      have hn : (s.pc a).kind = none := by
        cases hx : (s.pc a).kind with
        | none => rfl
        | some k => exact absurd (hi.one a t (by simp [hx]) hk) h
      cases hq : s.pc a <;> rw [hq] at hn <;> first | trivial | (simp [Pc.kind] at hn)
  · intro hall
    have := hall t
    dsimp only at this
    rw [at_pc, hkind] at this
    exact absurd this hk

theorem quiet_kind {s : St V} (h : Quiet s) (t : Nat) : (s.pc t).kind = none := by
  cases hx : (s.pc t).kind with
  | none => rfl
  | some k => exact absurd (sending_iff.2 (by simp [hx])) (h t)

/-- A thread starts to send. -/
theorem inv_enter {s : St V} (hi : Inv s) {t : Nat} {k : Kind} {v : V}
    (hq : ∀ j, (s.pc j).kind = none) :
    Inv { s.at t (.ready k v) with lock := if k = .set then some t else s.lock } := by
  have hl : s.lock = none := by
    cases hx : s.lock with
    | none => rfl
    | some j =>
      have := (hi.holder j).2 hx
      rw [hq j] at this; cases this
  have hkind : ∀ j, (if j = t then Pc.ready k v else s.pc j).kind =
      if j = t then some k else none := by
    intro j; by_cases h : j = t
    · simp [h, Pc.kind]
    · simp [h, hq j]
  refine ⟨?_, ?_, ?_, ?_, hi.counted⟩
  · intro a b ha hb
    dsimp only at ha hb
    rw [at_pc, hkind] at ha hb
    by_cases h1 : a = t
    · by_cases h2 : b = t
      · rw [h1, h2]
      · simp [h2] at hb
    · simp [h1] at ha
  · intro a
    dsimp only
    rw [at_pc, hkind, hl]
    cases k <;> by_cases h : a = t <;> simp [h] <;> exact fun x => h x.symm
  · intro a
    show Fits s.stamp s.sent.length ((s.at t (.ready k v)).pc a)
    rw [at_pc]
    by_cases h : a = t
    · simp only [h, if_true]; exact hi.rest hq
    · simp only [h, if_false]; exact hi.fits a
  · intro hall
    have := hall t
    dsimp only at this
    rw [at_pc, hkind] at this
    simp at this

theorem counted_snoc {sent : List (Nat × V)} {v : V} {r : Nat} (h : Counted sent)
    (hr : r = (sent.length + 1) % modulus) : Counted (sent ++ [(r, v)]) := by
  intro i p hp
  rw [List.getElem?_append] at hp
  split at hp
  · exact h i p hp
  · rename_i hlt
    cases hi : i - sent.length with
    | zero =>
      rw [hi] at hp
      simp only [List.getElem?_cons_zero, Option.some.injEq] at hp
      subst hp
      rw [hr, show i = sent.length by omega]
    | succ j => rw [hi] at hp; simp at hp

/-- A thread publishes its sample. -/
theorem inv_publish {s : St V} (hi : Inv s) {t : Nat} {k : Kind} {v : V} {r : Nat}
    (hp : s.pc t = .read k v r) : Inv { s.leave t k with sent := s.sent ++ [(r, v)] } := by
  have hf := hi.fits t
  rw [hp] at hf
  have hpc : ∀ j, (s.leave t k).pc j = if j = t then .idle else s.pc j := by
    intro j; cases k <;> rfl
  have hst : (s.leave t k).stamp = s.stamp := by cases k <;> rfl
  have hnone : ∀ j, ((s.leave t k).pc j).kind = none := by
    intro j
    rw [hpc]
    by_cases h : j = t
    · simp [h, Pc.kind]
    · simp only [h, if_false]
      cases hx : (s.pc j).kind with
      | none => rfl
      | some q => exact absurd (hi.one j t (by simp [hx]) (by simp [hp, Pc.kind])) h
  have hlock : (s.leave t k).lock = none := by
    cases k with
    | set => rfl
    | update =>
      show s.lock = none
      cases hx : s.lock with
      | none => rfl
      | some j =>
        have h1 := (hi.holder j).2 hx
        have := hi.one j t (by simp [h1]) (by simp [hp, Pc.kind])
        subst this
        rw [hp] at h1
        cases h1
  refine ⟨?_, ?_, ?_, ?_, counted_snoc hi.counted hf.2⟩
  · intro a b ha; exact absurd (hnone a) ha
  · intro a
    show ((s.leave t k).pc a).kind = some .set ↔ (s.leave t k).lock = some a
    rw [hnone, hlock]; simp
  · intro a
    have := hnone a
    show Fits (s.leave t k).stamp (s.sent ++ [(r, v)]).length ((s.leave t k).pc a)
    cases hq : (s.leave t k).pc a <;> rw [hq] at this <;>
      first | trivial | (simp [Pc.kind] at this)
  · intro _
    show (s.leave t k).stamp = (s.sent ++ [(r, v)]).length % modulus
    rw [hst, hf.1]; simp

theorem inv_wait {s : St V} (hi : Inv s) {t : Nat} {v : V} (hp : s.pc t = .idle) :
    Inv (s.at t (.wait v)) := by
  have hkind : ∀ j, ((s.at t (.wait v)).pc j).kind = (s.pc j).kind := by
    intro j; rw [at_pc]; by_cases h : j = t
    · simp [h, hp, Pc.kind]
    · simp [h]
  refine ⟨?_, ?_, ?_, ?_, hi.counted⟩
  · intro a b ha hb; rw [hkind] at ha hb; exact hi.one a b ha hb
  · intro a; rw [hkind]; exact hi.holder a
  · intro a; rw [at_pc]
    by_cases h : a = t
    · simp only [h, if_true]; trivial
    · simp only [h, if_false]; exact hi.fits a
  · intro hall; exact hi.rest fun a => by rw [← hkind]; exact hall a

theorem inv_step {s : St V} (hi : Inv s) {o : Op V} (ha : ApartStep s o) : Inv (s.step o) := by
  cases o with
  | call t k v =>
    simp only [St.step]
    split
    · rename_i hp
      cases k with
      | update =>
        simp only [if_true]
        exact inv_enter (k := .update) hi (quiet_kind ha)
      | set => exact inv_wait hi hp
    · exact hi
  | next t =>
    simp only [St.step, St.next]
    split
    · exact hi
    · rename_i v hp
      split
      · rename_i hl
        have hup := ha ⟨v, hp⟩
        refine inv_enter (k := .set) hi ?_
        intro j
        cases hx : (s.pc j).kind with
        | none => rfl
        | some k =>
          cases k with
          | set => have := (hi.holder j).1 hx; rw [hl] at this; cases this
          | update =>
            exfalso
            cases hq : s.pc j with
            | idle => rw [hq] at hx; cases hx
            | wait w => rw [hq] at hx; cases hx
            | ready k w => rw [hq] at hx; cases hx; exact (hup j w 0).1 hq
            | loaded k w r => rw [hq] at hx; cases hx; exact (hup j w r).2.1 hq
            | stored k w => rw [hq] at hx; cases hx; exact (hup j w 0).2.2.1 hq
            | read k w r => rw [hq] at hx; cases hx; exact (hup j w r).2.2.2 hq
      · exact hi
    · rename_i k v hp
      have hf := hi.fits t
      rw [hp] at hf
      exact inv_go (p := .loaded k v s.stamp) (st := s.stamp) hi (by simp [hp, Pc.kind])
        (by simp [hp, Pc.kind]) ⟨hf, hf⟩
    · rename_i k v r hp
      have hf := hi.fits t
      rw [hp] at hf
      refine inv_go (p := .stored k v) hi (by simp [hp, Pc.kind]) (by simp [hp, Pc.kind]) ?_
      show (r + 1) % modulus = _
      rw [hf.2, Nat.mod_add_mod]
    · rename_i k v hp
      have hf := hi.fits t
      rw [hp] at hf
      exact inv_go (p := .read k v s.stamp) (st := s.stamp) hi (by simp [hp, Pc.kind])
        (by simp [hp, Pc.kind]) ⟨hf, hf⟩
    · rename_i k v r hp
      exact inv_publish hi hp

theorem inv_run : ∀ (ops : List (Op V)) {s : St V}, Inv s → Apart s ops → Inv (run s ops) := by
  intro ops
  induction ops with
  | nil => intro s hi _; exact hi
  | cons o ops ih => intro s hi ha; exact ih (inv_step hi ha.1) ha.2

/-- No thread runs `Update`. -/
def NoUpdate (s : St V) : Prop := ∀ t, (s.pc t).kind ≠ some .update

theorem noUpdate_apart : ∀ (ops : List (Op V)) {s : St V}, NoUpdate s → SetsOnly ops →
    Apart s ops := by
  intro ops
  induction ops with
  | nil => intro s _ _; trivial
  | cons o ops ih =>
    intro s hn hs
    have hk : ∀ (p : Pc V) (t : Nat), p.kind ≠ some .update → NoUpdate (s.at t p) := by
      intro p t hp j
      rw [at_pc]; split
      · exact hp
      · exact hn j
    refine ⟨?_, ih ?_ fun t v h => hs t v (List.mem_cons_of_mem _ h)⟩
    · cases o with
      | call t k v =>
        cases k with
        | update => exact absurd (List.mem_cons_self ..) (hs t v)
        | set => trivial
      | next t =>
        intro _ j v r
        have := hn j
        refine ⟨?_, ?_, ?_, ?_⟩ <;> intro h <;> rw [h] at this <;> exact this rfl
    · cases o with
      | call t k v =>
        cases k with
        | update => exact absurd (List.mem_cons_self ..) (hs t v)
        | set =>
          simp only [St.step]
          split
          · exact hk _ _ (by simp [Pc.kind])
          · exact hn
      | next t =>
        have ht := hn t
        simp only [St.step, St.next]
        split
        · exact hn
        · split
          · exact hk _ _ (by simp [Pc.kind])
          · exact hn
        · rename_i hp; rw [hp] at ht; exact hk _ _ ht
        · rename_i hp; rw [hp] at ht; exact hk _ _ ht
        · rename_i hp; rw [hp] at ht; exact hk _ _ ht
        · rename_i k v r hp
          cases k
          · exact hk _ _ (by simp [Pc.kind])
          · exact hk _ _ (by simp [Pc.kind])

/-- Consecutive timestamps increase as long as the counter does not wrap around. -/
theorem counted_increasing {sent : List (Nat × V)} (h : Counted sent)
    (hl : sent.length < modulus) (i j : Nat) (p q : Nat × V) (hij : i < j)
    (hp : sent[i]? = some p) (hq : sent[j]? = some q) : p.1 < q.1 := by
  have hj : j < sent.length := (List.getElem?_eq_some_iff.1 hq).1
  rw [h i p hp, h j q hq, Nat.mod_eq_of_lt (by omega), Nat.mod_eq_of_lt (by omega)]
  omega

/-- A consumer that has seen the first `n` samples is given all others. -/
theorem counted_unseen {sent : List (Nat × V)} (h : Counted sent) (hl : sent.length < modulus)
    (n : Nat) : unseen n sent = (sent.drop n).map (·.2) := by
  unfold unseen
  congr 1
  have e : sent = sent.take n ++ sent.drop n := (List.take_append_drop n sent).symm
  conv => lhs; rw [e]
  rw [List.filter_append]
  have h1 : (sent.take n).filter (fun p => decide (n < p.1)) = [] := by
    rw [List.filter_eq_nil_iff]
    intro p hp
    obtain ⟨i, hi⟩ := List.mem_iff_getElem?.1 hp
    have hlt : i < n := by
      have := (List.getElem?_eq_some_iff.1 hi).1
      rw [List.length_take] at this; omega
    rw [List.getElem?_take, if_pos hlt] at hi
    have hb : i < sent.length := (List.getElem?_eq_some_iff.1 hi).1
    rw [h i p hi, Nat.mod_eq_of_lt (by omega)]
    simp; omega
  have h2 : (sent.drop n).filter (fun p => decide (n < p.1)) = sent.drop n := by
    rw [List.filter_eq_self]
    intro p hp
    obtain ⟨i, hi⟩ := List.mem_iff_getElem?.1 hp
    rw [List.getElem?_drop] at hi
    have hb : n + i < sent.length := (List.getElem?_eq_some_iff.1 hi).1
    rw [h _ p hi, Nat.mod_eq_of_lt (by omega)]
    simp; omega
  rw [h1, h2, List.nil_append]

end Verif.Stamp
