import Verif.Proofs.SizingMain
/-! A size is found as long as the sizes are far from the limits of 64 bits. -/
namespace Verif.Sizing
open Verif.Arith Verif.Props.ArithSpec

theorem alignedSize_ok {s a : Nat} (ha : 0 < a) (h : up a s < 2 ^ 62) : alignedSize s a = some (up a s) := by
  have hW := W_eq
  obtain ⟨h1, h2, h3⟩ := up_spec ha s
  cases e : alignedSize s a with
  | some r => rw [alignedSize_up (by omega) e]
  | none =>
    exfalso
    unfold alignedSize at e
    rw [if_neg (by omega)] at e
    split at e
    · cases e
    · split at e
      · split at e
        · cases e
        · omega
      · cases e

theorem sequence_ok {b : Nat} : ∀ (l : List Req) (p : Nat), (∀ x, l.head? = some x → x.2 ∣ p) → Div b l → ideal p l < 2 ^ 62 →
    alignedSequenceFrom p l = some (ideal p l)
  | [], p, _, _, _ => rfl
  | [(s, a)], p, hd, hb, h => by
    have hW := W_eq
    have ha := hb.head.1
    simp only [ideal] at h ⊢
    rw [up_self ha (hd (s, a) rfl)] at h ⊢
    simp only [alignedSequenceFrom]
    rw [if_neg (by omega), if_pos (by omega)]
  | (s, a) :: (s', a') :: l, p, hd, hb, h => by
    have hW := W_eq
    have ha := hb.head.1
    have ha' := hb.tail.head.1
    have hle := ideal_le ((s', a') :: l) (up a p + s) hb.tail
    rw [ideal] at h ⊢
    rw [up_self ha (hd (s, a) rfl)] at h hle ⊢
    have hup : up a' (p + s) < 2 ^ 62 := by
      have := ideal_le l (up a' (p + s) + s') hb.tail.tail
      simp only [ideal] at h
      omega
    simp only [alignedSequenceFrom]
    rw [if_neg (by omega), if_pos (by omega), if_neg (by omega), alignedSize_ok ha' hup]
    dsimp only
    have hself := up_self ha' (up_spec ha' (p + s)).1
    have heq : ideal (up a' (p + s)) ((s', a') :: l) = ideal (p + s) ((s', a') :: l) := by simp only [ideal]; rw [hself]
    rw [← heq]
    exact sequence_ok ((s', a') :: l) (up a' (p + s)) (by intro x hx; cases hx; exact (up_spec ha' _).1) hb.tail (by rw [heq]; exact h)

theorem simulateOne_ok {sum bytes align : Nat} (ha : 0 < align) (hd : align ∣ 4096) (h : up align sum + bytes < 2 ^ 62) :
    simulateOne sum bytes align = some (up align sum + bytes) := by
  have hW : W = 2 ^ 64 := by decide
  have hH : H = 2 ^ 63 := by decide
  obtain ⟨u1, u2, u3⟩ := up_spec ha sum
  have hal : align ≤ 4096 := Nat.le_of_dvd (by omega) hd
  have e1 : addOffset 4096 sum = some (4096 + sum) := by
    unfold addOffset
    rw [if_pos (by omega), Nat.mod_eq_of_lt (by omega)]
  have e2 : ShmAlloc.safeAdd bytes align = some (bytes + align) := if_pos (by omega)
  have e3 : addOffset (4096 + sum) (bytes + align - 1) = some (4096 + sum + (bytes + align - 1)) := by
    unfold addOffset
    rw [if_pos (by omega), Nat.mod_eq_of_lt (by omega)]
  have e4 : ShmAlloc.algorithm (4096 + sum) (4096 + sum + (bytes + align - 1)) bytes align = some (some (4096 + up align sum)) := by
    unfold ShmAlloc.algorithm
    rw [ShmAlloc.subPointers_ge (by omega) (by omega)]
    simp only [Option.map_some, Option.some.injEq]
    have hu : ShmAlloc.alignUp (4096 + sum) align = 4096 + up align sum := by
      have : ShmAlloc.alignUp (4096 + sum) align = up align (4096 + sum) % W := rfl
      rw [this, up_add ha hd, Nat.mod_eq_of_lt (by omega)]
    have hsp : toUnsigned (((4096 + sum + (bytes + align - 1) : Nat) : Int) - (4096 + sum : Nat)) = bytes + align - 1 := by
      rw [ShmAlloc.toUnsigned_sub (by omega) (by omega)]; omega
    have hdf : (4096 + up align sum + W - (4096 + sum)) % W = up align sum - sum := by
      rw [show 4096 + up align sum + W - (4096 + sum) = (up align sum - sum) + W by omega, Nat.add_mod_right]
      exact Nat.mod_eq_of_lt (by omega)
    unfold ShmAlloc.stdAlign
    dsimp only
    rw [hu, hsp, hdf]
    rw [if_neg (by omega), if_neg (by omega), if_neg (by omega)]
  have e5 : subPointers (4096 + up align sum) (4096 + sum) = some (((4096 + up align sum : Nat) : Int) - (4096 + sum : Nat)) :=
    ShmAlloc.subPointers_ge (by omega) (by omega)
  have e6 : ((((4096 + up align sum : Nat) : Int) - (4096 + sum : Nat))).toNat = up align sum - sum := by omega
  have e7 : ShmAlloc.safeAdd bytes (up align sum - sum) = some (bytes + (up align sum - sum)) := if_pos (by omega)
  have e8 : ShmAlloc.safeAdd sum (bytes + (up align sum - sum)) = some (sum + (bytes + (up align sum - sum))) := if_pos (by omega)
  unfold simulateOne
  simp only [Option.bind_eq_bind, e1, e2, Option.bind_some]
  rw [if_neg (by omega)]
  simp only [e3, e4, e5, Option.bind_some]
  rw [if_neg (by omega)]
  simp only [e6, e7, e8, Option.bind_some]
  congr 1
  omega

theorem simulate_ok : ∀ (l : List Req) (sum : Nat), Div 4096 l → ideal sum l < 2 ^ 62 → simulate sum l = some (ideal sum l)
  | [], _, _, _ => rfl
  | (s, a) :: l, sum, hd, h => by
    obtain ⟨ha, had⟩ := hd.head
    have hle := ideal_le l (up a sum + s) hd.tail
    simp only [ideal] at h ⊢
    simp only [simulate]
    rw [simulateOne_ok ha had (by omega)]
    exact simulate_ok l _ hd.tail h

theorem up_lt {a p b : Nat} (ha : 0 < a) (hb : a ≤ b) : up a p ≤ p + b := by
  have := (up_spec ha p).2.2
  omega

theorem ideal_bound {b K : Nat} : ∀ (l : List Req) (p : Nat), (∀ x ∈ l, 0 < x.2 ∧ x.2 ≤ b ∧ x.1 ≤ K) → ideal p l ≤ p + l.length * (K + b)
  | [], p, _ => by simp [ideal]
  | (s, a) :: l, p, h => by
    have h0 := h (s, a) (by simp)
    dsimp only at h0
    obtain ⟨h1, h2, h3⟩ := h0
    have h4 := up_lt (p := p) h1 h2
    have := ideal_bound l (up a p + s) (fun x hx => h x (List.mem_cons_of_mem _ hx))
    simp only [ideal, List.length_cons]
    rw [Nat.succ_mul]
    omega

theorem ideal_flatMap {α : Type} {g : α → List Req} {K : Nat} : ∀ (es : List α) (p : Nat), (∀ e ∈ es, ∀ q, ideal q (g e) ≤ q + K) →
    ideal p (es.flatMap g) ≤ p + es.length * K
  | [], p, _ => by simp [ideal]
  | e :: es, p, h => by
    have h1 := h e (by simp) p
    have h2 := ideal_flatMap es (ideal p (g e)) (fun x hx => h x (by simp [hx]))
    rw [List.flatMap_cons, ideal_append, List.length_cons, Nat.succ_mul]
    omega

theorem mul_le_pow {n s i j : Nat} (hn : n ≤ 2 ^ i) (hs : s ≤ 2 ^ j) : n * s ≤ 2 ^ (i + j) := by
  rw [Nat.pow_add]; exact Nat.mul_le_mul hn hs

theorem Div.le {lib : Lib} (hl : lib.Valid) {l : List Req} (h : Div lib.maxAlign.align l) : ∀ x ∈ l, 0 < x.2 ∧ x.2 ≤ 4096 := by
  intro x hx
  have := Nat.le_of_dvd hl.max.pos (h x hx).2
  have := hl.page
  exact ⟨(h x hx).1, by omega⟩

theorem Modest.mem {lib : Lib} {svc : Svc} (h : Modest lib svc) {t : Ty} (ht : t ∈ [lib.maxAlign, lib.storage, lib.eventEntry, lib.metaEntry, lib.eventStorage,
    lib.control, lib.controlEntry, lib.pidEntry, lib.slot, lib.logSlot, lib.logNode]) : t.size ≤ 2 ^ 12 := h.types t ht

theorem allData_bound {lib : Lib} (hl : lib.Valid) {svc : Svc} (hv : svc.Valid) (hm : Modest lib svc)
    (hf : ∀ e ∈ svc.elems, e.sample.Fundamental lib) (hp : ∀ e ∈ svc.elems, ∃ x, properties e = some x) : ideal 0 (allData lib svc) < 2 ^ 62 := by
  have hc : svc.elems.length ≤ 2 ^ 17 := hv.count
  have hdiv := (allData_div hl hv hf).le hl
  have t1 := hm.mem (t := lib.storage) (by simp)
  have t2 := mul_le_pow hc (hm.mem (t := lib.eventEntry) (by simp))
  have t3 := mul_le_pow hc (hm.mem (t := lib.metaEntry) (by simp))
  have t4 := hm.mem (t := lib.eventStorage) (by simp)
  have t5 := hm.mem (t := lib.maxAlign) (by simp)
  unfold allData at hdiv ⊢
  rw [ideal_append]
  have h1 := ideal_bound (b := 4096) (K := 2 ^ 29) [(lib.storage.size, lib.storage.align), (svc.elems.length * lib.eventEntry.size, lib.eventEntry.align),
    (svc.elems.length * lib.metaEntry.size, lib.metaEntry.align)] 0 (by
      intro x hx
      have h2 := hdiv x (List.mem_append_left _ hx)
      refine ⟨h2.1, h2.2, ?_⟩
      simp only [List.mem_cons, List.not_mem_nil, or_false] at hx
      rcases hx with rfl | rfl | rfl <;> dsimp only <;> omega)
  have h2 := ideal_flatMap (g := elemData lib svc.generic) (K := 2 ^ 42) svc.elems (ideal 0 [(lib.storage.size, lib.storage.align),
      (svc.elems.length * lib.eventEntry.size, lib.eventEntry.align), (svc.elems.length * lib.metaEntry.size, lib.metaEntry.align)]) (by
    intro e he q
    have h3 := ideal_bound (b := 4096) (K := 2 ^ 40 + 2 ^ 12) (elemData lib svc.generic e) q (by
      intro x hx
      have h4 := hdiv x (List.mem_append_right _ (List.mem_flatMap.2 ⟨e, he, hx⟩))
      refine ⟨h4.1, h4.2, ?_⟩
      unfold elemData at hx
      simp only [List.mem_cons, List.not_mem_nil, or_false] at hx
      rcases hx with rfl | rfl
      · dsimp only; omega
      · obtain ⟨⟨n, s⟩, hpe⟩ := hp e he
        obtain ⟨k, hk, hn⟩ := properties_slots hpe
        have hs := hm.samples e he k hk
        have hx : extraSlots e ≤ 2 := by
          unfold extraSlots
          split
          · omega
          · split <;> split <;> simp [getterSlots]
        have hle : n * e.sample.size ≤ 2 ^ 40 := Nat.le_trans (Nat.mul_le_mul_right _ (by omega)) hs
        rw [hpe]
        simp only [Option.getD_some]
        unfold slotReq
        split
        · dsimp only
          have hW := W_eq
          unfold chunks
          rw [Nat.mod_eq_of_lt (by omega)]
          have := Nat.div_mul_le_self (n * e.sample.size + lib.maxAlign.size - 1) lib.maxAlign.size
          omega
        · dsimp only; omega)
    have : (elemData lib svc.generic e).length = 2 := rfl
    rw [this] at h3
    omega)
  have h3 : svc.elems.length * 2 ^ 42 ≤ 2 ^ 59 := mul_le_pow (j := 42) hc (Nat.le_refl _)
  simp only [List.length_cons, List.length_nil] at h1
  omega

theorem allControl_bound {lib : Lib} (hl : lib.Valid) {svc : Svc} (hv : svc.Valid) (hm : Modest lib svc)
    (hp : ∀ e ∈ svc.elems, ∃ x, properties e = some x) : ideal 0 (allControl lib svc) < 2 ^ 62 := by
  have hc : svc.elems.length ≤ 2 ^ 17 := hv.count
  have hdiv := (allControl_div hl (svc := svc)).le hl
  have hW := W_eq
  have t1 := hm.mem (t := lib.control) (by simp)
  have t2 := mul_le_pow hc (hm.mem (t := lib.controlEntry) (by simp))
  have t3 := mul_le_pow (i := 6) (show maxPids ≤ 2 ^ 6 by decide) (hm.mem (t := lib.pidEntry) (by simp))
  unfold allControl at hdiv ⊢
  rw [ideal_append]
  have h1 := ideal_bound (b := 4096) (K := 2 ^ 29) [(lib.control.size, lib.control.align), (svc.elems.length * lib.controlEntry.size, lib.controlEntry.align),
    (maxPids * lib.pidEntry.size, lib.pidEntry.align)] 0 (by
      intro x hx
      have h2 := hdiv x (List.mem_append_left _ hx)
      refine ⟨h2.1, h2.2, ?_⟩
      simp only [List.mem_cons, List.not_mem_nil, or_false] at hx
      rcases hx with rfl | rfl | rfl <;> dsimp only <;> omega)
  have h2 := ideal_flatMap (g := elemControl lib) (K := 2 ^ 38) svc.elems (ideal 0 [(lib.control.size, lib.control.align),
      (svc.elems.length * lib.controlEntry.size, lib.controlEntry.align), (maxPids * lib.pidEntry.size, lib.pidEntry.align)]) (by
    intro e he q
    obtain ⟨⟨n, s⟩, hpe⟩ := hp e he
    have hsub := (properties_small (hv.elems e he) hpe).2
    have hn : n % 65536 ≤ 2 ^ 16 := Nat.le_of_lt (Nat.mod_lt _ (by omega))
    have s1 := mul_le_pow hn (hm.mem (t := lib.slot) (by simp))
    have s2 := mul_le_pow hn (hm.mem (t := lib.logSlot) (by simp))
    have s3 := mul_le_pow (i := 8) (show s ≤ 2 ^ 8 by omega) (hm.mem (t := lib.logNode) (by simp))
    have heq : elemControl lib e = controlArrays lib (n % 65536) s := by unfold elemControl; rw [hpe]; rfl
    have h3 := ideal_bound (b := 4096) (K := 2 ^ 28) (elemControl lib e) q (by
      intro x hx
      have h4 := hdiv x (List.mem_append_right _ (List.mem_flatMap.2 ⟨e, he, hx⟩))
      refine ⟨h4.1, h4.2, ?_⟩
      rw [heq] at hx
      simp only [controlArrays, List.mem_append, List.mem_cons, List.mem_replicate, List.not_mem_nil, or_false] at hx
      rcases hx with ((h | h | h) | h) | h
      · rw [h]; exact Nat.le_trans (Nat.mod_le _ _) (by omega)
      · rw [h]; exact Nat.le_trans (Nat.mod_le _ _) (by omega)
      · rw [h]; exact Nat.le_trans (Nat.mod_le _ _) (by omega)
      · rw [h.2]; exact Nat.le_trans (Nat.mod_le _ _) (by omega)
      · rw [h]; exact Nat.le_trans (Nat.mod_le _ _) (by omega))
    have hlen : (elemControl lib e).length = s + 4 := by
      rw [heq]
      simp only [controlArrays, List.length_append, List.length_cons, List.length_nil, List.length_replicate]
      omega
    rw [hlen] at h3
    omega)
  have h3 : svc.elems.length * 2 ^ 38 ≤ 2 ^ 55 := mul_le_pow (j := 38) hc (Nat.le_refl _)
  simp only [List.length_cons, List.length_nil] at h1
  omega

theorem mapM_ok {α β : Type} {f : α → Option β} : ∀ (es : List α), (∀ e ∈ es, ∃ a, f e = some a) → ∃ ls, es.mapM f = some ls
  | [], _ => ⟨[], rfl⟩
  | e :: es, h => by
    obtain ⟨a, ha⟩ := h e (by simp)
    obtain ⟨ls, hl⟩ := mapM_ok es (fun x hx => h x (by simp [hx]))
    exact ⟨a :: ls, by simp [List.mapM_cons, ha, hl]⟩

theorem analyseData_eq {lib : Lib} (hl : lib.Valid) {svc : Svc} (hv : svc.Valid) (ha : ∀ e ∈ svc.elems, ¬ e.Accessor)
    (hcs : ∀ e ∈ svc.elems, ∃ n m, cfgSlots e = some n ∧ cfgSubs e = some m) :
    alignedSequence (allData lib svc) = analyseData lib svc := by
  have hW := W_eq
  have hcount := hv.count
  have hall : ∀ e ∈ svc.elems, ∃ n m, cfgSlots e = some n ∧ properties e = some (n, m) ∧ n < 65536 := by
    intro e he
    obtain ⟨n, m, hn, hm⟩ := hcs e he
    obtain ⟨h1, h2⟩ := not_accessor (hv.elems e he) (ha e he) hn hm
    exact ⟨n, m, hn, h1, h2⟩
  obtain ⟨arrays, hm⟩ := mapM_ok (f := slotArray lib svc.generic) svc.elems (by
    intro e he
    obtain ⟨n, m, h1, -⟩ := hall e he
    unfold slotArray
    rw [h1]
    dsimp only [Option.bind_eq_bind, Option.bind_some]
    split
    · exact ⟨_, rfl⟩
    · exact ⟨_, rfl⟩)
  have k2 := mul_small (show svc.elems.length < 2 ^ 18 by omega) (hl.mem (t := lib.eventEntry) (by simp)).2.2.1
  have k3 := mul_small (show svc.elems.length < 2 ^ 18 by omega) (hl.mem (t := lib.metaEntry) (by simp)).2.2.1
  unfold analyseData
  rw [hm]
  dsimp only [Option.bind_eq_bind, Option.bind_some]
  rw [Nat.mod_eq_of_lt (a := svc.elems.length * lib.eventEntry.size) (by omega),
    Nat.mod_eq_of_lt (a := svc.elems.length * lib.metaEntry.size) (by omega),
    mapM_flatMap (g := elemData lib svc.generic) hm (by
      intro e he a hea
      obtain ⟨n, m, h1, h3, h4⟩ := hall e he
      have s1 := mul_small (show n < 2 ^ 18 by omega) (hv.elems e he).sample.modest
      have s2 := chunks_le hl s1
      unfold slotArray at hea
      rw [h1] at hea
      dsimp only [Option.bind_eq_bind, Option.bind_some] at hea
      unfold elemData slotReq
      rw [h3]
      simp only [Option.getD_some]
      rw [Nat.mod_eq_of_lt (a := n * e.sample.size) (by omega), Nat.mod_eq_of_lt (a := chunks lib (n * e.sample.size) * lib.maxAlign.size) (by omega)] at hea
      split at hea
      · rename_i hg; cases hea; rw [if_pos hg]
      · rename_i hg; cases hea; rw [if_neg hg])]
  rfl

theorem analyseControl_eq {lib : Lib} (hl : lib.Valid) {svc : Svc} (hv : svc.Valid) (ha : ∀ e ∈ svc.elems, ¬ e.Accessor)
    (hcs : ∀ e ∈ svc.elems, ∃ n m, cfgSlots e = some n ∧ cfgSubs e = some m) :
    alignedSequence (allControl lib svc) = analyseControl lib svc := by
  have hW := W_eq
  have hcount := hv.count
  obtain ⟨infos, hi⟩ := mapM_ok (f := fun e => (cfgSlots e).bind fun n => (cfgSubs e).bind fun m => some (n, m)) svc.elems (by
    intro e he
    obtain ⟨n, m, hn, hm⟩ := hcs e he
    exact ⟨(n, m), by simp [hn, hm]⟩)
  have k2 := mul_small (show svc.elems.length < 2 ^ 18 by omega) (hl.mem (t := lib.controlEntry) (by simp)).2.2.1
  have k3 := mul_small (show maxPids < 2 ^ 18 by decide) (hl.mem (t := lib.pidEntry) (by simp)).2.2.1
  have hun : analyseControl lib svc = (svc.elems.mapM (fun e => (cfgSlots e).bind fun n => (cfgSubs e).bind fun m => some (n, m))).bind fun infos =>
      alignedSequence ([(lib.control.size, lib.control.align), ((svc.elems.length * lib.controlEntry.size) % W, lib.controlEntry.align),
        ((maxPids * lib.pidEntry.size) % W, lib.pidEntry.align)] ++ infos.flatMap (fun x => controlArrays lib x.1 x.2)) := rfl
  rw [hun, hi]
  dsimp only [Option.bind_some]
  rw [Nat.mod_eq_of_lt (a := svc.elems.length * lib.controlEntry.size) (by omega),
    Nat.mod_eq_of_lt (a := maxPids * lib.pidEntry.size) (by omega),
    mapM_flatMap (g := elemControl lib) hi (by
      intro e he a hea
      obtain ⟨n, m, hn, hm⟩ := hcs e he
      obtain ⟨h3, h4⟩ := not_accessor (hv.elems e he) (ha e he) hn hm
      rw [hn, hm] at hea
      dsimp only [Option.bind_some] at hea
      cases hea
      unfold elemControl
      rw [h3]
      simp only [Option.getD_some]
      rw [Nat.mod_eq_of_lt h4])]
  rfl

theorem found {lib : Lib} (hl : lib.Valid) {svc : Svc} (hv : svc.Valid) (hm : Modest lib svc) (hf : ∀ e ∈ svc.elems, e.sample.Fundamental lib)
    (hc : ∀ e ∈ svc.elems, e.Configured) {mode : Mode} (ha : mode = .analysis → ∀ e ∈ svc.elems, ¬ e.Accessor) (skip : Bool) :
    ∃ d c, calculate lib skip svc mode = some (d, c) := by
  have hp : ∀ e ∈ svc.elems, ∃ x, properties e = some x := by
    intro e he
    obtain ⟨n, m, h1, h2, h3⟩ := hc e he
    have : ∃ s, subscribers e = some s := by
      unfold subscribers
      split
      · exact ⟨m, h3⟩
      · split
        · exact ⟨m, h3⟩
        · exact ⟨0, rfl⟩
    obtain ⟨s, hs⟩ := this
    unfold properties
    rw [h1, hs]
    exact ⟨_, rfl⟩
  have b1 := allData_bound hl hv hm hf hp
  have b2 := allControl_bound hl hv hm hp
  have g1 := allData_div hl hv hf
  have g2 := allControl_div hl (svc := svc)
  obtain ⟨ld, c1, s1, -⟩ := createData_spec hl hv hf hp skip
  obtain ⟨lc, c2, s2, -⟩ := createControl_spec hl hv hp skip
  cases mode with
  | simulation =>
    simp only [calculate, c1, c2, Option.bind_eq_bind, Option.bind_some]
    rw [simulate_ok ld 0 ((g1.sublist s1).of_dvd hl.page_dvd) (Nat.lt_of_le_of_lt (ideal_sublist s1 0 0 g1 (Nat.le_refl _)) b1),
      simulate_ok lc 0 ((g2.sublist s2).of_dvd hl.page_dvd) (Nat.lt_of_le_of_lt (ideal_sublist s2 0 0 g2 (Nat.le_refl _)) b2)]
    exact ⟨_, _, rfl⟩
  | analysis =>
    have hcs : ∀ e ∈ svc.elems, ∃ n m, cfgSlots e = some n ∧ cfgSubs e = some m := by
      intro e he
      obtain ⟨n, m, h1, h2, h3⟩ := hc e he
      refine ⟨n + e.tracing, m, ?_, h3⟩
      unfold cfgSlots
      rw [h1]
      exact if_neg (by omega)
    have hd : ∃ d, analyseData lib svc = some d := by
      rw [← analyseData_eq hl hv (ha rfl) hcs]
      exact ⟨_, sequence_ok _ 0 (fun x _ => Nat.dvd_zero _) g1 b1⟩
    have hcc : ∃ c, analyseControl lib svc = some c := by
      rw [← analyseControl_eq hl hv (ha rfl) hcs]
      exact ⟨_, sequence_ok _ 0 (fun x _ => Nat.dvd_zero _) g2 b2⟩
    obtain ⟨d, hd⟩ := hd
    obtain ⟨c, hcc⟩ := hcc
    exact ⟨d, c, by simp only [calculate, hd, hcc, Option.bind_eq_bind, Option.bind_some]; rfl⟩

end Verif.Sizing
