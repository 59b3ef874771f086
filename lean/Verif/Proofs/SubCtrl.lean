import Verif.Model.SubCtrl
/-! Invariant of the shared subscription state. -/
namespace Verif.Sub
open Verif

theorem create_toNat (a : BitVec 8) (c : BitVec 16) : (create a c).toNat = a.toNat * 65536 + c.toNat := by
  have := a.isLt
  have := c.isLt
  simp only [create, BitVec.toNat_add, BitVec.toNat_shiftLeft, BitVec.toNat_setWidth, Nat.shiftLeft_eq]
  omega

theorem subsOf_toNat (w : Word) : (subsOf w).toNat = w.toNat / 65536 % 256 := by
  simp only [subsOf, BitVec.toNat_setWidth, BitVec.toNat_ushiftRight, Nat.shiftRight_eq_div_pow]

theorem samplesOf_toNat (w : Word) : (samplesOf w).toNat = w.toNat % 65536 := by
  simp only [samplesOf, BitVec.toNat_setWidth, BitVec.toNat_and, BitVec.toNat_ofNat]
  have h : (65535 % 2 ^ 32 : Nat) = 2 ^ 16 - 1 := by decide
  rw [h, Nat.and_two_pow_sub_one_eq_mod, Nat.mod_mod]

theorem subsOf_create (a : BitVec 8) (c : BitVec 16) : subsOf (create a c) = a := by
  apply BitVec.eq_of_toNat_eq
  have := a.isLt
  have := c.isLt
  rw [subsOf_toNat, create_toNat]; omega

theorem samplesOf_create (a : BitVec 8) (c : BitVec 16) : samplesOf (create a c) = c := by
  apply BitVec.eq_of_toNat_eq
  have := a.isLt
  have := c.isLt
  rw [samplesOf_toNat, create_toNat]; omega

/-- Proxies accounted for in the shared word. -/
def subs (s : St) : Nat := count (fun p => (s.px p).counted) s.m
/-- Their sample counts. -/
def samples (s : St) : Nat := sumTo (fun p => if (s.px p).counted then (s.px p).logged else 0) s.m

/-- Invariant of one proxy. -/
def PInv (s : St) (x : Proxy) : Prop :=
  match x.pc with
  | .idle =>
    match x.want with
    | none => x.b = false ∧ x.e = false ∧ x.counted = false
    | some n => x.b = true ∧ x.e = true ∧ x.counted = true ∧ x.logged = n ∧ n ≤ 255
  | .subLoad _ n => x.b = true ∧ x.e = false ∧ x.counted = false ∧ x.want = none ∧ x.logged = n ∧ n ≤ 255
  | .subCas _ n w => x.b = true ∧ x.e = false ∧ x.counted = false ∧ x.want = none ∧ x.logged = n ∧ n ≤ 255 ∧
      (subsOf w).toNat < s.maxSubs.toNat ∧ (s.enforce = true → (samplesOf w).toNat + n ≤ s.maxSlots.toNat)
  | .subCommit => x.b = true ∧ x.e = false ∧ x.counted = true ∧ x.want = none ∧ x.logged ≤ 255
  | .subAbort => x.b = true ∧ x.e = false ∧ x.counted = false ∧ x.want = none
  | .unLoad _ n => x.b = false ∧ x.e = true ∧ x.counted = true ∧ x.logged = n ∧ n ≤ 255
  | .unCas _ n _ => x.b = false ∧ x.e = true ∧ x.counted = true ∧ x.logged = n ∧ n ≤ 255
  | .unCommit => x.b = false ∧ x.e = true ∧ x.counted = false
  | .underflow => False
  | _ => (x.counted = true → x.logged ≤ 255) ∧ (x.b = true → x.e = true → x.counted = true) ∧
      (x.b = false → x.e = false → x.counted = false)

structure Inv (s : St) : Prop where
  px : ∀ p, p < s.m → PInv s (s.px p)
  subs : (subsOf s.word).toNat = subs s
  samples : (samplesOf s.word).toNat = samples s
  maxSubs : Sub.subs s ≤ s.maxSubs.toNat
  maxSlots : s.enforce = true → Sub.samples s ≤ s.maxSlots.toNat

theorem init_inv (a : BitVec 16) (c : BitVec 8) (en : Bool) (m : Nat) : Inv (init a c en m) := by
  have h1 : subs (init a c en m) = 0 := count_eq_zero.mpr (fun j _ => rfl)
  have h2 : samples (init a c en m) = 0 := by
    unfold samples
    simp only [init, Proxy.fresh, Bool.false_eq_true, if_false]
    generalize m = k
    induction k with
    | zero => rfl
    | succ k ih => simp [sumTo, ih]
  refine ⟨fun p _ => ?_, ?_, ?_, by omega, fun _ => by omega⟩
  · simp [PInv, init, Proxy.fresh]
  · rw [h1]; show (subsOf 0#32).toNat = 0; decide
  · rw [h2]; show (samplesOf 0#32).toNat = 0; decide

theorem PInv.logged_le {s : St} {x : Proxy} (h : PInv s x) (hc : x.counted = true) : x.logged ≤ 255 := by
  unfold PInv at h
  split at h
  · split at h
    · simp [hc] at h
    · rw [h.2.2.2.1]; exact h.2.2.2.2
  all_goals first
    | (exfalso; simp [hc] at h; done)
    | (have := h.1 hc; exact this)
    | (have := h.2.2.2.2; omega)
    | exact h.2.2.2.2
    | (rw [h.2.2.2.1]; exact h.2.2.2.2)

/-- 255 subscribers with 255 samples each fit into 16 bits. -/
theorem Inv.samples_lt {s : St} (h : Inv s) : Sub.samples s ≤ 255 * Sub.subs s := by
  apply sumTo_le_count
  intro j hj
  split
  · exact (h.px j hj).logged_le (by assumption)
  · exact Nat.le_refl _

/-- Parameters do not change. -/
theorem step_const (s : St) (op : Op) : (step s op).m = s.m ∧ (step s op).maxSubs = s.maxSubs ∧
    (step s op).maxSlots = s.maxSlots ∧ (step s op).enforce = s.enforce := by
  cases op <;> simp only [step]
  · split <;> exact ⟨rfl, rfl, rfl, rfl⟩
  · split
    · split <;> exact ⟨rfl, rfl, rfl, rfl⟩
    · exact ⟨rfl, rfl, rfl, rfl⟩
  all_goals split <;> exact ⟨rfl, rfl, rfl, rfl⟩

theorem run_const (s : St) (ops : List Op) : (run s ops).m = s.m ∧ (run s ops).maxSubs = s.maxSubs ∧
    (run s ops).maxSlots = s.maxSlots ∧ (run s ops).enforce = s.enforce := by
  induction ops generalizing s with
  | nil => exact ⟨rfl, rfl, rfl, rfl⟩
  | cons op ops ih =>
    have h1 := step_const s op
    have h2 := ih (step s op)
    exact ⟨h2.1.trans h1.1, h2.2.1.trans h1.2.1, h2.2.2.1.trans h1.2.2.1, h2.2.2.2.trans h1.2.2.2⟩

/-- Replace proxy `p` and the word. -/
def put (s : St) (p : Nat) (x : Proxy) (w : Word) : St := { s with px := upd s.px p x, word := w }

theorem subs_put {s : St} {p : Nat} (hp : p < s.m) (x : Proxy) (w : Word) :
    subs (put s p x w) + (if (s.px p).counted then 1 else 0) = subs s + (if x.counted then 1 else 0) := by
  have := count_upd (p := fun q => (s.px q).counted) (q := fun q => (upd s.px p x q).counted) hp
    (fun j hj => by simp only [upd_ne _ _ hj])
  simp only [upd_self] at this
  exact this

theorem samples_put {s : St} {p : Nat} (hp : p < s.m) (x : Proxy) (w : Word) :
    samples (put s p x w) + (if (s.px p).counted then (s.px p).logged else 0) =
      samples s + (if x.counted then x.logged else 0) := by
  have := sumTo_upd (f := fun q => if (s.px q).counted then (s.px q).logged else 0)
    (g := fun q => if (upd s.px p x q).counted then (upd s.px p x q).logged else 0) hp
    (fun j hj => by simp only [upd_ne _ _ hj])
  simp only [upd_self] at this
  exact this

theorem PInv.put {s : St} {p : Nat} {x y : Proxy} {w : Word} (h : PInv s y) : PInv (put s p x w) y := h

/-- A step of one proxy that does not change the accounting. -/
theorem Inv.keep {s : St} (h : Inv s) {p : Nat} (hp : p < s.m) {x : Proxy} (hx : PInv s x)
    (hc : x.counted = (s.px p).counted) (hl : x.counted = true → x.logged = (s.px p).logged) :
    Inv (put s p x s.word) := by
  have h1 := subs_put hp x s.word
  have h2 := samples_put hp x s.word
  have e1 : Sub.subs (Sub.put s p x s.word) = Sub.subs s := by rw [hc] at h1; omega
  have e2 : Sub.samples (Sub.put s p x s.word) = Sub.samples s := by
    cases hcc : x.counted
    · rw [← hc, hcc] at h2; simpa using h2
    · rw [← hc, hcc, hl hcc] at h2; simp at h2; omega
  refine ⟨?_, by rw [e1]; exact h.subs, by rw [e2]; exact h.samples, by rw [e1]; exact h.maxSubs,
    fun he => by rw [e2]; exact h.maxSlots he⟩
  intro q hq
  show PInv _ (upd s.px p x q)
  unfold upd; split
  · exact hx
  · exact h.px q hq

theorem subNext_inv {s : St} {r n : Nat} {x : Proxy}
    (h : x.b = true ∧ x.e = false ∧ x.counted = false ∧ x.want = none ∧ x.logged = n ∧ n ≤ 255) :
    PInv s (subNext s r n x) := by
  unfold subNext
  split
  · exact h
  · exact ⟨h.1, h.2.1, h.2.2.1, h.2.2.2.1⟩

theorem unNext_inv {s : St} {r n : Nat} {x : Proxy}
    (h : x.b = false ∧ x.e = true ∧ x.counted = true ∧ x.logged = n ∧ n ≤ 255) : PInv s (unNext s r n x) := by
  unfold unNext
  split
  · exact h
  · refine ⟨fun _ => ?_, fun hb => ?_, fun _ he => ?_⟩
    · rw [h.2.2.2.1]; exact h.2.2.2.2
    · exact absurd hb (by simp [h.1])
    · exact absurd he (by simp [h.2.1])

theorem subNext_acc (s : St) (r n : Nat) (x : Proxy) :
    (subNext s r n x).counted = x.counted ∧ (subNext s r n x).logged = x.logged := by
  unfold subNext; split <;> exact ⟨rfl, rfl⟩

theorem unNext_acc (s : St) (r n : Nat) (x : Proxy) :
    (unNext s r n x).counted = x.counted ∧ (unNext s r n x).logged = x.logged := by
  unfold unNext; split <;> exact ⟨rfl, rfl⟩

/-- A successful subscribe CAS. -/
theorem Inv.add {s : St} (h : Inv s) {p n : Nat} (hp : p < s.m) {x : Proxy} (hx : PInv s x)
    (hc : (s.px p).counted = false) (hc' : x.counted = true) (hl : x.logged = n) (hn : n ≤ 255)
    (hms : (subsOf s.word).toNat < s.maxSubs.toNat)
    (hmx : s.enforce = true → (samplesOf s.word).toNat + n ≤ s.maxSlots.toNat) :
    Inv (put s p x (create (subsOf s.word + 1#8) (samplesOf s.word + BitVec.ofNat 16 n))) := by
  have h1 := subs_put hp x (create (subsOf s.word + 1#8) (samplesOf s.word + BitVec.ofNat 16 n))
  have h2 := samples_put hp x (create (subsOf s.word + 1#8) (samplesOf s.word + BitVec.ofNat 16 n))
  simp only [hc, hc', Bool.false_eq_true, if_false, if_true, hl, Nat.add_zero] at h1 h2
  have hs1 := h.subs
  have hs2 := h.samples
  have hlim := h.samples_lt
  have hm8 := s.maxSubs.isLt
  refine ⟨?_, ?_, ?_, ?_, ?_⟩
  · intro q hq
    show PInv _ (upd s.px p x q)
    unfold upd; split
    · exact hx
    · exact h.px q hq
  · rw [h1]
    show (subsOf (create _ _)).toNat = _
    rw [subsOf_create, BitVec.toNat_add, hs1]
    have : (1#8).toNat = 1 := rfl
    rw [this]; omega
  · rw [h2]
    show (samplesOf (create _ _)).toNat = _
    rw [samplesOf_create, BitVec.toNat_add, hs2, BitVec.toNat_ofNat]
    omega
  · rw [h1]; show _ ≤ s.maxSubs.toNat; omega
  · intro hen
    rw [h2]
    have := hmx hen
    show _ ≤ s.maxSlots.toNat
    omega

/-- A successful unsubscribe CAS. -/
theorem Inv.rem {s : St} (h : Inv s) {p n : Nat} (hp : p < s.m) {x : Proxy} (hx : PInv s x)
    (hc : (s.px p).counted = true) (hc' : x.counted = false) (hl : (s.px p).logged = n) (hn : n ≤ 255) :
    Inv (put s p x (create (subsOf s.word - 1#8) (samplesOf s.word - BitVec.ofNat 16 n))) := by
  have h1 := subs_put hp x (create (subsOf s.word - 1#8) (samplesOf s.word - BitVec.ofNat 16 n))
  have h2 := samples_put hp x (create (subsOf s.word - 1#8) (samplesOf s.word - BitVec.ofNat 16 n))
  simp only [hc, hc', Bool.false_eq_true, if_false, if_true, hl, Nat.add_zero] at h1 h2
  have hs1 := h.subs
  have hs2 := h.samples
  have hlim := h.samples_lt
  have hm8 := s.maxSubs.isLt
  have hmax := h.maxSubs
  refine ⟨?_, ?_, ?_, ?_, ?_⟩
  · intro q hq
    show PInv _ (upd s.px p x q)
    unfold upd; split
    · exact hx
    · exact h.px q hq
  · show (subsOf (create _ _)).toNat = _
    rw [subsOf_create, BitVec.toNat_sub, hs1]
    have : (1#8).toNat = 1 := rfl
    rw [this]; omega
  · show (samplesOf (create _ _)).toNat = _
    rw [samplesOf_create, BitVec.toNat_sub, hs2, BitVec.toNat_ofNat]
    omega
  · show _ ≤ s.maxSubs.toNat; omega
  · intro hen
    have := h.maxSlots hen
    show _ ≤ s.maxSlots.toNat
    omega

theorem proxyStep_inv {s : St} (h : Inv s) {p : Nat} (hp : p < s.m) (sp : Bool) :
    Inv (put s p (proxyStep s (s.px p) sp).1 (proxyStep s (s.px p) sp).2) := by
  have hx := h.px p hp
  have hself : ∀ y : Proxy, PInv s y → y.counted = (s.px p).counted → y.logged = (s.px p).logged →
      Inv (put s p y s.word) := fun y hy hc hl => h.keep hp hy hc (fun _ => hl)
  unfold PInv at hx
  unfold proxyStep
  split
  · rename_i r n hpc
    simp only [hpc] at hx
    split
    · exact hself _ ⟨hx.1, hx.2.1, hx.2.2.1, hx.2.2.2.1⟩ rfl rfl
    · split
      · exact hself _ ⟨hx.1, hx.2.1, hx.2.2.1, hx.2.2.2.1⟩ rfl rfl
      · rename_i h1 h2
        exact hself _ ⟨hx.1, hx.2.1, hx.2.2.1, hx.2.2.2.1, hx.2.2.2.2.1, hx.2.2.2.2.2, by omega,
          fun he => by have : ¬ (samplesOf s.word).toNat + n > s.maxSlots.toNat := fun hh => h2 ⟨he, hh⟩
                       omega⟩ rfl rfl
  · rename_i r n w hpc
    simp only [hpc] at hx
    obtain ⟨hb, he, hc, hw, hl, hn, hms, hmx⟩ := hx
    split
    · rename_i hcas
      obtain ⟨hcas, _⟩ := hcas
      subst hcas
      exact h.add hp (x := { s.px p with pc := .subCommit, res := some .success, counted := true })
        ⟨hb, he, rfl, hw, by show (s.px p).logged ≤ 255; omega⟩ hc rfl hl hn hms hmx
    · exact hself _ (subNext_inv ⟨hb, he, hc, hw, hl, hn⟩) (subNext_acc ..).1 (subNext_acc ..).2
  · rename_i hpc
    simp only [hpc] at hx
    obtain ⟨hb, he, hc, hw, hl⟩ := hx
    rw [if_pos ⟨hb, he⟩]
    exact hself _ ⟨hb, rfl, hc, rfl, hl⟩ rfl rfl
  · rename_i hpc
    simp only [hpc] at hx
    obtain ⟨hb, he, hc, hw⟩ := hx
    rw [if_pos ⟨hb, he⟩]
    refine hself _ ?_ rfl rfl
    simp only [PInv, hw]
    exact ⟨trivial, he, hc⟩
  · rename_i r n hpc
    simp only [hpc] at hx
    have hpos := count_pos (p := fun q => (s.px q).counted) hp hx.2.2.1
    have hge := sumTo_ge (f := fun q => if (s.px q).counted then (s.px q).logged else 0) hp
    simp only [hx.2.2.1, if_true, hx.2.2.2.1] at hge
    have hs1 := h.subs
    have hs2 := h.samples
    unfold Sub.subs at hs1
    unfold Sub.samples at hs2
    rw [if_neg (by omega), if_neg (by omega)]
    exact hself _ hx rfl rfl
  · rename_i r n w hpc
    simp only [hpc] at hx
    obtain ⟨hb, he, hc, hl, hn⟩ := hx
    split
    · rename_i hcas
      obtain ⟨hcas, _⟩ := hcas
      subst hcas
      exact h.rem hp (x := { s.px p with pc := .unCommit, counted := false }) ⟨hb, he, rfl⟩ hc rfl hl hn
    · exact hself _ (unNext_inv ⟨hb, he, hc, hl, hn⟩) (unNext_acc ..).1 (unNext_acc ..).2
  · rename_i hpc
    simp only [hpc] at hx
    rw [if_pos ⟨hx.1, hx.2.1⟩]
    refine h.keep hp ?_ rfl ?_
    · exact ⟨hx.1, rfl, hx.2.2⟩
    · intro hc; exact absurd hc (by simp [hx.2.2])
  · exact hself _ (h.px p hp) rfl rfl

theorem dead_inv {s : St} {x : Proxy} (h : PInv s x) :
    (x.counted = true → x.logged ≤ 255) ∧ (x.b = true → x.e = true → x.counted = true) ∧
      (x.b = false → x.e = false → x.counted = false) := by
  refine ⟨h.logged_le, ?_, ?_⟩
  all_goals
    unfold PInv at h
    split at h
    · split at h <;> simp_all
    all_goals first | exact h.2.1 | exact h.2.2 | simp_all

theorem step_inv {s : St} (h : Inv s) (op : Op) : Inv (step s op) := by
  cases op with
  | subscribe p n =>
    simp only [step]
    split
    · rename_i hc
      have hx := h.px p hc.1
      unfold PInv at hx
      simp only [hc.2.1, hc.2.2] at hx
      have hac : (startSub s n (s.px p)).counted = (s.px p).counted := by
        unfold startSub; split
        · rfl
        · split
          · exact (subNext_acc ..).1
          · rfl
      refine h.keep hc.1 ?_ hac (fun hh => absurd hh (by rw [hac, hx.2.2]; simp))
      unfold startSub
      split
      · exact ⟨fun hh => absurd hh (by simp [hx.2.2]), fun hh => absurd hh (by simp [hx.1]), fun _ _ => hx.2.2⟩
      · rename_i hn
        rw [if_pos ⟨hx.1, hx.2.1⟩]
        exact subNext_inv ⟨rfl, hx.2.1, hx.2.2, hc.2.2, rfl, by omega⟩
    · exact h
  | unsubscribe p =>
    simp only [step]
    split
    · rename_i hc
      split
      · rename_i n hw
        have hx := h.px p hc.1
        unfold PInv at hx
        simp only [hc.2, hw] at hx
        have he : startUn s n (s.px p) = unNext s 0 n { s.px p with b := false } := if_pos ⟨hx.1, hx.2.1⟩
        rw [he]
        exact h.keep hc.1 (unNext_inv ⟨rfl, hx.2.1, hx.2.2⟩) (unNext_acc ..).1 (fun _ => (unNext_acc ..).2)
      · exact h
    · exact h
  | go p sp =>
    simp only [step]
    split
    · exact proxyStep_inv h (by assumption) sp
    · exact h
  | crash p =>
    simp only [step]
    split
    · rename_i hc
      have hd := dead_inv (h.px p hc.1)
      exact h.keep hc.1 (x := { s.px p with pc := .crashed, want := none }) hd rfl (fun _ => rfl)
    · exact h
  | recover p =>
    simp only [step]
    split
    · rename_i hc
      have hx := dead_inv (h.px p hc.1)
      unfold rollback
      dsimp only
      split
      · rename_i hbe
        have he : startUn s (s.px p).logged { s.px p with want := none } =
            unNext s 0 (s.px p).logged { s.px p with want := none, b := false } := if_pos hbe
        rw [he]
        refine h.keep hc.1 (unNext_inv ⟨rfl, hbe.2, hx.2.1 hbe.1 hbe.2, rfl, hx.1 (hx.2.1 hbe.1 hbe.2)⟩)
          (unNext_acc ..).1 (fun _ => (unNext_acc ..).2)
      · split
        · exact h.keep hc.1 hx rfl (fun _ => rfl)
        · split
          · exact h.keep hc.1 hx rfl (fun _ => rfl)
          · rename_i h1 h2 h3
            have hb : (s.px p).b = false := by cases hb : (s.px p).b <;> cases he : (s.px p).e <;> simp_all
            have he : (s.px p).e = false := by cases he : (s.px p).e <;> simp_all
            exact h.keep hc.1 ⟨hb, he, hx.2.2 hb he⟩ rfl (fun _ => rfl)
    · exact h

theorem run_inv {s : St} (h : Inv s) (ops : List Op) : Inv (run s ops) := by
  induction ops generalizing s with
  | nil => exact h
  | cons op ops ih => exact ih (step_inv h op)

theorem count_lt {p : Nat → Bool} {m c : Nat} (hc : c < m) (h : p c = false) : count p m < m := by
  induction m with
  | zero => omega
  | succ m ih =>
    simp only [count]
    rcases Nat.lt_succ_iff_lt_or_eq.mp hc with h1 | h1
    · have := ih h1; split <;> omega
    · subst h1; have := count_le p c; simp [h]; omega

theorem subNext_res {s : St} {r n : Nat} {x : Proxy} (h : x.res ≠ some .maxSubscribersOverflow) :
    (subNext s r n x).res ≠ some .maxSubscribersOverflow := by
  unfold subNext; split
  · exact h
  · simp

theorem unNext_res {s : St} {r n : Nat} {x : Proxy} (h : x.res ≠ some .maxSubscribersOverflow) :
    (unNext s r n x).res ≠ some .maxSubscribersOverflow := by
  unfold unNext; split <;> exact h

/-- With one log per proxy and at most `max_subscribers` logs, the subscriber limit is never hit. -/
theorem step_no_overflow {s : St} (h : Inv s) (hm : s.m ≤ s.maxSubs.toNat)
    (hres : ∀ p, p < s.m → (s.px p).res ≠ some .maxSubscribersOverflow) (op : Op) :
    ∀ p, p < s.m → ((step s op).px p).res ≠ some .maxSubscribersOverflow := by
  have key : ∀ (p : Nat) (x : Proxy), (p < s.m → x.res ≠ some .maxSubscribersOverflow) →
      ∀ q, q < s.m → (upd s.px p x q).res ≠ some .maxSubscribersOverflow := by
    intro p x hx q hq
    unfold upd; split
    · rename_i e; subst e; exact hx hq
    · exact hres q hq
  cases op with
  | subscribe p n =>
    simp only [step]; split
    · refine key _ _ (fun hp => ?_)
      unfold startSub
      split
      · exact hres p hp
      · split
        · exact subNext_res (by simp)
        · exact hres p hp
    · exact hres
  | unsubscribe p =>
    simp only [step]; split
    · split
      · refine key _ _ (fun hp => ?_)
        unfold startUn; split
        · exact unNext_res (hres p hp)
        · exact hres p hp
      · exact hres
    · exact hres
  | go p sp =>
    simp only [step]; split
    · rename_i hp
      refine key _ _ (fun _ => ?_)
      have hx := h.px p hp
      unfold PInv at hx
      unfold proxyStep
      split
      · rename_i r n hpc
        simp only [hpc] at hx
        have hlt := count_lt (p := fun q => (s.px q).counted) hp hx.2.2.1
        have hs := h.subs
        unfold Sub.subs at hs
        rw [if_neg (by omega)]
        split
        · simp
        · exact hres p hp
      · split
        · simp
        · exact subNext_res (hres p hp)
      · split <;> exact hres p hp
      · split <;> exact hres p hp
      · split
        · exact hres p hp
        · split <;> exact hres p hp
      · split
        · exact hres p hp
        · exact unNext_res (hres p hp)
      · split <;> exact hres p hp
      · exact hres p hp
    · exact hres
  | crash p =>
    simp only [step]; split
    · exact key _ _ (fun hp => hres p hp)
    · exact hres
  | recover p =>
    simp only [step]; split
    · refine key _ _ (fun hp => ?_)
      unfold rollback startUn
      repeat' split
      all_goals first | exact hres p hp | exact unNext_res (hres p hp)
    · exact hres

end Verif.Sub
