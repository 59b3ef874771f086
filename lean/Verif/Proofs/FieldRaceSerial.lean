import Verif.Proofs.FieldRace

namespace Verif.FieldRace
open Verif.FieldRaceSpec
variable {V : Type}

/-- Not a step of a `Send`. -/
def Op.other : Op V → Bool
  | .send _ _ => false
  | .sendStep _ => false
  | _ => true

/-- What `Get` and the consumers change. -/
structure Refs (s t : St V) : Prop where
  n : t.n = s.n
  pc : ∀ b, t.pc b = s.pc b
  sent : t.sent = s.sent
  cur : t.cur = s.cur
  slots : ∀ i, t.slots i = s.slots i ∨
    ∃ ts rc rc', s.slots i = .ready ts rc ∧ t.slots i = .ready ts rc' ∧ (InUse s i ∨ InUse t i)

theorem refs_put {s t : St V} (i ts rc rc' : Nat) (hi : s.slots i = .ready ts rc)
    (h1 : t.slots = put s.slots i (.ready ts rc')) (hn : t.n = s.n) (hp : ∀ b, t.pc b = s.pc b)
    (hs : t.sent = s.sent) (hc : t.cur = s.cur) (hu : (∃ k, rc = k + 1) ∨ ∃ k, rc' = k + 1) : Refs s t := by
  refine ⟨hn, hp, hs, hc, fun j => ?_⟩
  by_cases e : j = i
  · subst e
    refine .inr ⟨ts, rc, rc', hi, by rw [h1, put_same], ?_⟩
    rcases hu with ⟨k, rfl⟩ | ⟨k, rfl⟩
    · exact .inl ⟨ts, k, hi⟩
    · exact .inr ⟨ts, k, by rw [h1, put_same]⟩
  · exact .inl (by rw [h1, put_other _ _ _ _ e])

theorem refs_same {s t : St V} (h1 : t.slots = s.slots) (hn : t.n = s.n) (hp : ∀ b, t.pc b = s.pc b)
    (hs : t.sent = s.sent) (hc : t.cur = s.cur) : Refs s t := ⟨hn, hp, hs, hc, fun j => .inl (by rw [h1])⟩

theorem refs_step {s : St V} (h : Good s) (o : Op V) (ho : o.other = true) : Refs s (step s o) := by
  have hpc : ∀ t : St V, t.upd = s.upd → t.set = s.set → ∀ b, t.pc b = s.pc b := by
    intro t h1 h2 b; cases b
    · exact h1
    · exact h2
  cases o with
  | send b v => cases ho
  | sendStep b => cases ho
  | get =>
    unfold step
    dsimp only
    split
    · exact refs_same rfl rfl (hpc _ rfl rfl) rfl rfl
    · exact refs_same rfl rfl (hpc _ rfl rfl) rfl rfl
  | getStep sp =>
    have hgf := h.gfine
    unfold step
    dsimp only
    unfold St.getStep
    cases hg : s.get with
    | idle => exact refs_same rfl rfl (hpc _ rfl rfl) rfl rfl
    | find r k best =>
      dsimp only
      unfold St.findNewest
      split
      · split
        · split <;> exact refs_same rfl rfl (hpc _ rfl rfl) rfl rfl
        · exact refs_same rfl rfl (hpc _ rfl rfl) rfl rfl
      · split <;> exact refs_same rfl rfl (hpc _ rfl rfl) rfl rfl
    | cas r i ts rc =>
      dsimp only
      split
      · rename_i hc
        exact refs_put i ts rc (rc + 1) hc.1 rfl rfl (hpc _ rfl rfl) rfl rfl (.inr ⟨rc, rfl⟩)
      · split <;> exact refs_same rfl rfl (hpc _ rfl rfl) rfl rfl
    | copy i ts => exact refs_same rfl rfl (hpc _ rfl rfl) rfl rfl
    | release i ts v =>
      rw [hg] at hgf
      obtain ⟨⟨rc, hrc⟩, _⟩ := hgf
      dsimp only
      rw [hrc]
      exact refs_put i ts (rc + 1) (rc + 1 - 1) hrc rfl rfl (hpc _ rfl rfl) rfl rfl (.inl ⟨rc, rfl⟩)
  | take i =>
    unfold step
    dsimp only
    split
    · rename_i ts rc hi
      exact refs_put i ts rc (rc + 1) hi rfl rfl (hpc _ rfl rfl) rfl rfl (.inr ⟨rc, rfl⟩)
    · exact refs_same rfl rfl (hpc _ rfl rfl) rfl rfl
  | drop i =>
    unfold step
    dsimp only
    split
    · rename_i ts rc hi
      by_cases h0 : s.held i = 0
      · rw [if_pos h0]; exact refs_same rfl rfl (hpc _ rfl rfl) rfl rfl
      rw [if_neg h0]
      have := h.rc i ts rc hi
      exact refs_put i ts rc (rc - 1) hi rfl rfl (hpc _ rfl rfl) rfl rfl (.inl ⟨rc - 1, by omega⟩)
    · exact refs_same rfl rfl (hpc _ rfl rfl) rfl rfl

theorem refs_ready {s t : St V} (h : Refs s t) {i ts rc : Nat} (hi : s.slots i = .ready ts rc) :
    ∃ rc', t.slots i = .ready ts rc' := by
  rcases h.slots i with e | ⟨u, k, k', h1, h2, _⟩
  · exact ⟨rc, by rw [e]; exact hi⟩
  · rw [hi] at h1; cases h1; exact ⟨k', h2⟩

theorem refs_ready' {s t : St V} (h : Refs s t) {i ts rc : Nat} (hi : t.slots i = .ready ts rc) :
    ∃ rc', s.slots i = .ready ts rc' := by
  rcases h.slots i with e | ⟨u, k, k', h1, h2, _⟩
  · exact ⟨rc, by rw [← e]; exact hi⟩
  · rw [hi] at h2; cases h2; exact ⟨k, h1⟩

/-- Where the `Send` is says how far `current_timestamp_` is ahead. -/
def WPc.stamp : WPc V → Nat → Nat → Prop
  | .store _ _ x, cur, len => x = cur ∧ cur = len
  | .reload _ _, cur, len => cur = len + 1
  | .ready _ _ x, cur, len => cur = len + 1 ∧ x = cur
  | _, cur, len => cur = len

/-- Holds as long as `Update` and set handlers do not overlap. -/
structure Ser (s : St V) : Prop where
  one : ∀ b, s.pc b ≠ .idle → s.pc (!b) = .idle
  num : ∀ i t v, s.sent[i]? = some (t, v) → t + i = s.sent.length
  cur : ∀ b, s.pc (!b) = .idle → (s.pc b).stamp s.cur s.sent.length
  uniq : ∀ i j t r r', s.slots i = .ready t r → s.slots j = .ready t r' → i = j
  last : (∀ b i, ¬ (s.pc b).owns i) → 0 < s.sent.length → ∃ i rc, s.slots i = .ready s.sent.length rc

theorem ser_start (n : Nat) (v0 : V) : Ser (start n v0) where
  one := by intro b h; cases b <;> rfl
  num := by intro i t v h; simp [start] at h
  cur := by intro b _; cases b <;> rfl
  uniq := by intro i j t r r' h; cases h
  last := by intro _ h; exact absurd h (by simp [start])

theorem num_mem {s : St V} (h : Ser s) {t : Nat} {v : V} (hm : (t, v) ∈ s.sent) : 0 < t ∧ t ≤ s.sent.length := by
  obtain ⟨i, hi⟩ := List.getElem?_of_mem hm
  have h1 := h.num i t v hi
  obtain ⟨h2, _⟩ := List.getElem?_eq_some_iff.1 hi
  omega

theorem ts_le {s : St V} (hg : Good s) (h : Ser s) {i t r : Nat} (hi : s.slots i = .ready t r) :
    0 < t ∧ t ≤ s.sent.length := num_mem h (hg.sent i t r hi)

theorem ser_refs {s t : St V} (hs : Ser s) (h : Refs s t) : Ser t where
  one := by intro b; rw [h.pc, h.pc]; exact hs.one b
  num := by rw [h.sent]; exact hs.num
  cur := by intro b; rw [h.pc, h.pc, h.cur, h.sent]; exact hs.cur b
  uniq := by
    intro i j u r r' hi hj
    obtain ⟨k, hk⟩ := refs_ready' h hi
    obtain ⟨k', hk'⟩ := refs_ready' h hj
    exact hs.uniq i j u k k' hk hk'
  last := by
    intro ho hl
    rw [h.sent] at hl ⊢
    obtain ⟨i, rc, hi⟩ := hs.last (fun b i => by have := ho b i; rwa [h.pc] at this) hl
    obtain ⟨rc', hr⟩ := refs_ready h hi
    exact ⟨i, rc', hr⟩

theorem ser_goto {s : St V} (h : Ser s) (b : Bool) (p : WPc V) (hb : s.pc (!b) = .idle)
    (hst : p.stamp s.cur s.sent.length)
    (ho : (∀ i, ¬ p.owns i) → ∀ i, ¬ (s.pc b).owns i) : Ser (s.goto b p) := by
  have hnb : ∀ q : WPc V, (s.goto b q).pc (!b) = .idle := fun q => by
    rw [goto_pc_other _ _ _ _ (by cases b <;> decide)]; exact hb
  have hcase : ∀ c : Bool, c = b ∨ c = !b := by intro c; cases b <;> cases c <;> simp
  refine ⟨?_, by simpa using h.num, ?_, by simpa using h.uniq, ?_⟩
  · intro c hc
    rcases hcase c with rfl | rfl
    · exact hnb p
    · exact absurd (hnb p) hc
  · intro c hc
    rw [goto_cur, goto_sent]
    rcases hcase c with rfl | rfl
    · rw [goto_pc_same]; exact hst
    · rw [Bool.not_not, goto_pc_same] at hc
      subst hc
      rw [hnb]; exact hst
  · intro hno hl
    rw [goto_sent] at hl ⊢
    rw [goto_slots]
    refine h.last (fun c i hc => ?_) hl
    rcases hcase c with rfl | rfl
    · exact ho (fun j => by have := hno c j; rwa [goto_pc_same] at this) i hc
    · rw [hb] at hc; cases hc

theorem again_stamp (v : V) (r cur len : Nat) (h : cur = len) : (again v r).stamp cur len := by
  unfold again; split <;> exact h

theorem findOldest_stamp (n : Nat) (sl : Nat → W) (v : V) (r k : Nat) (best : Option (Nat × W)) (cur len : Nat)
    (h : cur = len) : (findOldest n sl v r k best).stamp cur len := by
  unfold findOldest
  split
  · split
    · exact h
    · exact h
    · split <;> exact h
  · split
    · exact h
    · exact again_stamp v r cur len h

theorem ser_send {s : St V} (hg : Good s) (h : Ser s) (b : Bool) : Ser (s.send b) := by
  unfold St.send
  by_cases hid : s.pc b = .idle
  · rw [hid]; exact h
  have hb := h.one b hid
  have hst := h.cur b hb
  have hcase : ∀ c : Bool, c = b ∨ c = !b := by intro c; cases b <;> cases c <;> simp
  cases hp : s.pc b with
  | idle => exact absurd hp hid
  | find v r k best =>
    rw [hp] at hst
    exact ser_goto h b _ hb (findOldest_stamp _ _ _ _ _ _ _ _ hst) (fun _ i x => by rw [hp] at x; cases x)
  | cas v r i w =>
    rw [hp] at hst
    dsimp only
    by_cases e : s.slots i = w
    · rw [if_pos e]
      have hu := hg.fine b
      rw [hp] at hu
      have hs : Ser (({ s with slots := put s.slots i .writing } : St V).goto b (.write v i)) := by
        refine ⟨?_, by simpa using h.num, ?_, ?_, ?_⟩
        · intro c hc
          rcases hcase c with rfl | rfl
          · rw [goto_pc_other _ _ _ _ (by cases c <;> decide)]; exact hb
          · rw [goto_pc_other _ _ _ _ (by cases b <;> decide)] at hc; exact absurd hb hc
        · intro c hc
          rw [goto_cur, goto_sent]
          rcases hcase c with rfl | rfl
          · rw [goto_pc_same]; exact hst
          · rw [Bool.not_not, goto_pc_same] at hc; cases hc
        · intro j k t r r' hj hk
          rw [goto_slots] at hj hk
          by_cases ej : j = i
          · subst ej; simp only [put_same] at hj; cases hj
          by_cases ek : k = i
          · subst ek; simp only [put_same] at hk; cases hk
          simp only [put_other _ _ _ _ ej] at hj
          simp only [put_other _ _ _ _ ek] at hk
          exact h.uniq j k t r r' hj hk
        · intro hno
          exact absurd (show ((({ s with slots := put s.slots i .writing } : St V).goto b (.write v i)).pc b).owns i by
            rw [goto_pc_same]; exact rfl) (hno b i)
      exact hs
    · rw [if_neg e]
      exact ser_goto h b _ hb (again_stamp _ _ _ _ hst) (fun _ j x => by rw [hp] at x; cases x)
  | write v i =>
    rw [hp] at hst
    have hs : Ser ({ s with data := put s.data i v } : St V) := ⟨h.one, h.num, h.cur, h.uniq, h.last⟩
    exact ser_goto hs b _ hb hst (fun x => absurd rfl (x i))
  | load v i =>
    rw [hp] at hst
    exact ser_goto h b _ hb ⟨rfl, hst⟩ (fun x => absurd rfl (x i))
  | store v i x =>
    rw [hp] at hst
    dsimp only
    refine ⟨?_, by simpa using h.num, ?_, by simpa using h.uniq, ?_⟩
    · intro c hc
      rcases hcase c with rfl | rfl
      · rw [goto_pc_other _ _ _ _ (by cases c <;> decide)]; exact hb
      · rw [goto_pc_other _ _ _ _ (by cases b <;> decide)] at hc; exact absurd hb hc
    · intro c hc
      rw [goto_cur, goto_sent]
      rcases hcase c with rfl | rfl
      · rw [goto_pc_same]
        show x + 1 = s.sent.length + 1
        have h1 := hst.1; have h2 := hst.2; omega
      · rw [Bool.not_not, goto_pc_same] at hc; cases hc
    · intro hno
      exact absurd (show ((({ s with cur := x + 1 } : St V).goto b (.reload v i)).pc b).owns i by
        rw [goto_pc_same]; exact rfl) (hno b i)
  | reload v i =>
    rw [hp] at hst
    exact ser_goto h b _ hb ⟨hst, rfl⟩ (fun x => absurd rfl (x i))
  | ready v i x =>
    rw [hp] at hst
    obtain ⟨h1, h2⟩ := hst
    dsimp only
    refine ⟨?_, ?_, ?_, ?_, ?_⟩
    · intro c hc
      rcases hcase c with rfl | rfl
      · rw [goto_pc_other _ _ _ _ (by cases c <;> decide)]; exact hb
      · rw [goto_pc_other _ _ _ _ (by cases b <;> decide)] at hc; exact absurd hb hc
    · intro j t u hj
      rw [goto_sent] at hj ⊢
      simp only [List.length_cons]
      cases j with
      | zero => simp at hj; omega
      | succ j => simp only [List.getElem?_cons_succ] at hj; have := h.num j t u hj; omega
    · intro c hc
      rw [goto_cur, goto_sent]
      have : ∀ p : WPc V, p = .idle → p.stamp s.cur ((x, v) :: s.sent).length := by
        intro p e; subst e; show s.cur = _; simp; omega
      refine this _ ?_
      rcases hcase c with rfl | rfl
      · rw [goto_pc_same]
      · rw [goto_pc_other _ _ _ _ (by cases b <;> decide)]; exact hb
    · intro j k t r r' hj hk
      rw [goto_slots] at hj hk
      by_cases ej : j = i
      · by_cases ek : k = i
        · rw [ej, ek]
        · subst ej
          simp only [put_same] at hj; simp only [put_other _ _ _ _ ek] at hk
          cases hj
          have := (ts_le hg h hk).2; omega
      · by_cases ek : k = i
        · subst ek
          simp only [put_same] at hk; simp only [put_other _ _ _ _ ej] at hj
          cases hk
          have := (ts_le hg h hj).2; omega
        · simp only [put_other _ _ _ _ ej] at hj
          simp only [put_other _ _ _ _ ek] at hk
          exact h.uniq j k t r r' hj hk
    · intro _ _
      refine ⟨i, 0, ?_⟩
      rw [goto_slots, goto_sent]
      simp only [put_same, List.length_cons]
      rw [h2, h1]

theorem ser_step {s : St V} (hg : Good s) (h : Ser s) (o : Op V)
    (ho : ∀ b v, o = .send b v → s.upd = .idle ∧ s.set = .idle) : Ser (step s o) := by
  cases o with
  | send b v =>
    obtain ⟨h1, h2⟩ := ho b v rfl
    have hid : ∀ c, s.pc c = .idle := by intro c; cases c; exact h1; exact h2
    unfold step
    dsimp only
    rw [hid b]
    have hst := h.cur b (hid _)
    rw [hid b] at hst
    exact ser_goto h b _ (hid _) hst (fun _ i x => by rw [hid] at x; cases x)
  | sendStep b => exact ser_send hg h b
  | get => exact ser_refs h (refs_step hg _ rfl)
  | getStep sp => exact ser_refs h (refs_step hg _ rfl)
  | take i => exact ser_refs h (refs_step hg _ rfl)
  | drop i => exact ser_refs h (refs_step hg _ rfl)

theorem serial_cons {s : St V} {o : Op V} {ops : List (Op V)} (h : Serial s (o :: ops)) :
    (∀ b v, o = .send b v → s.upd = .idle ∧ s.set = .idle) ∧ Serial (step s o) ops := by
  refine ⟨fun b v e => ?_, fun pre b v post e => ?_⟩
  · subst e; exact h [] b v ops rfl
  · exact h (o :: pre) b v post (by rw [e]; rfl)

theorem serial_append {s : St V} {a b : List (Op V)} (h : Serial s (a ++ b)) : Serial s a ∧ Serial (run s a) b := by
  refine ⟨fun pre c v post e => h pre c v (post ++ b) (by rw [e]; simp), fun pre c v post e => ?_⟩
  have := h (a ++ pre) c v post (by rw [e]; simp)
  rwa [run_append] at this

theorem ser_run {s : St V} (hg : Good s) (h : Ser s) (ops : List (Op V)) (hs : Serial s ops) : Ser (run s ops) := by
  induction ops generalizing s with
  | nil => exact h
  | cons o ops ih =>
    obtain ⟨h1, h2⟩ := serial_cons hs
    exact ih (good_step hg o) (ser_step hg h o h1) h2

end Verif.FieldRace
