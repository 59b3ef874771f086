import Verif.Proofs.FieldRaceSerial

namespace Verif.FieldRace
open Verif.FieldRaceSpec
variable {V : Type}

theorem length_le_of_nodup {l l' : List Nat} (h : l.Nodup) (hs : ∀ x ∈ l, x ∈ l') : l.length ≤ l'.length := by
  induction l generalizing l' with
  | nil => simp
  | cons a l ih =>
    obtain ⟨ha, hl⟩ := List.nodup_cons.mp h
    have h1 : ∀ x ∈ l, x ∈ l'.erase a := by
      intro x hx
      have hne : x ≠ a := by rintro rfl; exact ha hx
      exact (List.mem_erase_of_ne hne).mpr (hs x (by simp [hx]))
    have h2 := ih hl h1
    have h3 : a ∈ l' := hs a (by simp)
    rw [List.length_erase_of_mem h3] at h2
    have := List.length_pos_of_mem h3
    simp only [List.length_cons]; omega

theorem nodup_map {l : List Nat} (f : Nat → Nat) (h : l.Nodup)
    (hf : ∀ x ∈ l, ∀ y ∈ l, f x = f y → x = y) : (l.map f).Nodup := by
  induction l with
  | nil => simp
  | cons a l ih =>
    obtain ⟨ha, hl⟩ := List.nodup_cons.mp h
    rw [List.map_cons, List.nodup_cons]
    refine ⟨?_, ih hl (fun x hx y hy => hf x (by simp [hx]) y (by simp [hy]))⟩
    intro hm
    obtain ⟨x, hx, e⟩ := List.mem_map.1 hm
    have := hf x (by simp [hx]) a (by simp) e
    subst this; exact ha hx

/-- The slots below `n` that are not in `l` have different timestamps from `lo` to `hi`, so there are not more. -/
theorem count_slots (n lo hi : Nat) (l : List Nat) (f : Nat → Nat)
    (hf : ∀ i j, i < n → j < n → i ∉ l → j ∉ l → f i = f j → i = j)
    (hlo : ∀ i, i < n → i ∉ l → lo ≤ f i ∧ f i ≤ hi) : n ≤ l.length + (hi + 1 - lo) := by
  have h1 : (List.range n).length ≤ (l ++ (List.range n).filter (fun i => !l.contains i)).length := by
    refine length_le_of_nodup List.nodup_range (fun x hx => ?_)
    by_cases e : x ∈ l
    · simp [e]
    · simp at hx; simp [e, hx]
  have hn : ((List.range n).filter (fun i => !l.contains i)).Nodup := List.nodup_range.filter _
  have hm : ∀ x, x ∈ (List.range n).filter (fun i => !l.contains i) → x < n ∧ x ∉ l := by
    intro x hx; simp at hx; exact hx
  generalize (List.range n).filter (fun i => !l.contains i) = r at *
  have h2 : (r.map f).length ≤ ((List.range (hi + 1 - lo)).map (· + lo)).length := by
    refine length_le_of_nodup (nodup_map f hn (fun x hx y hy e => ?_)) (fun y hy => ?_)
    · exact hf x y (hm x hx).1 (hm y hy).1 (hm x hx).2 (hm y hy).2 e
    · obtain ⟨x, hx, rfl⟩ := List.mem_map.1 hy
      obtain ⟨h3, h4⟩ := hlo x (hm x hx).1 (hm x hx).2
      refine List.mem_map.2 ⟨f x - lo, ?_, by omega⟩
      simp; omega
  simp at h1 h2
  omega

/-- What a search for the oldest slot knows of the slots that are not in `l`. -/
def WPc.scan (p : WPc V) (l : List Nat) (n : Nat) (slots : Nat → W) : Prop :=
  match p with
  | .find _ _ k best => ∀ i, i < k → i < n → i ∉ l → ∃ t, slots i = .ready t 0 ∧ ∃ j τ, best = some (j, .ready τ 0) ∧ τ ≤ t
  | .cas _ _ _ w => w = .invalid ∨ ∃ τ, w = .ready τ 0 ∧ ∀ i, i < n → i ∉ l → ∃ t, slots i = .ready t 0 ∧ τ ≤ t
  | _ => True

/-- From a moment on when no `Send` was running and `lo` had been sent, `c` more were begun and at most the
slots in `l` were in use. -/
structure Keep (l : List Nat) (lo c : Nat) (s : St V) : Prop where
  from_ : lo ≤ s.sent.length
  idle : s.sent.length ≤ lo + c
  busy : ∀ b, s.pc b ≠ .idle → s.sent.length + 1 ≤ lo + c
  scan : ∀ b, (s.pc b).scan l s.n s.slots
  used : ∀ i, InUse s i → i ∈ l

theorem scan_congr {p : WPc V} {l : List Nat} {n : Nat} {f g : Nat → W} (h : p.scan l n f)
    (e : ∀ i, i ∉ l → g i = f i) : p.scan l n g := by
  cases p with
  | find v r k best =>
    intro i hk hn hl
    rw [e i hl]; exact h i hk hn hl
  | cas v r j w =>
    rcases h with h | ⟨τ, h1, h2⟩
    · exact .inl h
    · exact .inr ⟨τ, h1, fun i hn hl => by rw [e i hl]; exact h2 i hn hl⟩
  | _ => trivial

/-- Slots that are ready with at least that timestamp stay. -/
def Stays (lo : Nat) (s t : St V) : Prop :=
  ∀ i ts rc, lo ≤ ts → s.slots i = .ready ts rc → ∃ rc', t.slots i = .ready ts rc'

theorem keep_refs {s t : St V} {l : List Nat} {lo c : Nat} (h : Keep l lo c s) (hr : Refs s t)
    (hu : ∀ i, InUse t i → i ∈ l) : Keep l lo c t where
  from_ := by rw [hr.sent]; exact h.from_
  idle := by rw [hr.sent]; exact h.idle
  busy := by intro b; rw [hr.pc, hr.sent]; exact h.busy b
  scan := by
    intro b
    rw [hr.pc, hr.n]
    refine scan_congr (h.scan b) (fun i hi => ?_)
    rcases hr.slots i with e | ⟨_, _, _, _, _, hx | hx⟩
    · exact e
    · exact absurd (h.used i hx) hi
    · exact absurd (hu i hx) hi
  used := hu

theorem again_scan (v : V) (r : Nat) (l : List Nat) (n : Nat) (sl : Nat → W) : (again v r).scan l n sl := by
  unfold again
  split
  · intro i hi; exact absurd hi (by omega)
  · trivial

theorem findOldest_scan {s : St V} (hg : Good s) {l : List Nat} (hu : ∀ i, InUse s i → i ∈ l)
    (hw : ∀ i, s.slots i ≠ .writing) (v : V) (r k : Nat) (best : Option (Nat × W))
    (hf : (WPc.find v r k best).fine s.n s.data)
    (h : (WPc.find v r k best).scan l s.n s.slots) : (findOldest s.n s.slots v r k best).scan l s.n s.slots := by
  unfold findOldest
  by_cases hk : k < s.n
  · rw [if_pos hk]
    cases hs : s.slots k with
    | invalid => exact .inl rfl
    | writing => exact absurd hs (hw k)
    | ready ts rc =>
      dsimp only
      by_cases hb : rc = 0 ∧ older ts best = true
      · rw [if_pos hb]
        obtain ⟨rfl, ho⟩ := hb
        intro i hi hn hl
        by_cases e : i = k
        · subst e; exact ⟨ts, hs, i, ts, rfl, Nat.le_refl _⟩
        · obtain ⟨t, h1, j, τ, h2, h3⟩ := h i (by omega) hn hl
          refine ⟨t, h1, k, ts, rfl, ?_⟩
          rw [h2] at ho
          simp [older] at ho; omega
      · rw [if_neg hb]
        intro i hi hn hl
        by_cases e : i = k
        · subst e
          have hrc : rc = 0 := by
            cases rc with
            | zero => rfl
            | succ rc => exact absurd (hu i ⟨ts, rc, hs⟩) hl
          subst hrc
          have ho : ¬ older ts best = true := fun x => hb ⟨rfl, x⟩
          refine ⟨ts, hs, ?_⟩
          cases best with
          | none => simp [older] at ho
          | some x =>
            obtain ⟨j, w⟩ := x
            rcases hf.2 with rfl | ⟨τ, rfl⟩
            · simp [older] at ho
            · exact ⟨j, τ, rfl, by simp [older] at ho; omega⟩
        · exact h i (by omega) hn hl
  · rw [if_neg hk]
    cases best with
    | none => exact again_scan v r l s.n s.slots
    | some x =>
      obtain ⟨j, w⟩ := x
      rcases hf.2 with rfl | ⟨τ, rfl⟩
      · exact .inl rfl
      · refine .inr ⟨τ, rfl, fun i hn hl => ?_⟩
        obtain ⟨t, h1, j', τ', h2, h3⟩ := h i (by omega) hn hl
        cases h2
        exact ⟨t, h1, h3⟩

/-- Only where the `Send` is changes. -/
theorem keep_goto {s : St V} {l : List Nat} {lo c : Nat} (h : Keep l lo c s) (b : Bool) (p : WPc V)
    (hb : s.pc b ≠ .idle) (hp : p.scan l s.n s.slots) : Keep l lo c (s.goto b p) where
  from_ := by simpa using h.from_
  idle := by simpa using h.idle
  busy := by
    intro d hd
    rw [goto_sent]
    by_cases e : d = b
    · exact h.busy b hb
    · rw [goto_pc_other _ _ _ _ e] at hd; exact h.busy d hd
  scan := by
    intro d
    rw [goto_n, goto_slots]
    by_cases e : d = b
    · subst e; rw [goto_pc_same]; exact hp
    · rw [goto_pc_other _ _ _ _ e]; exact h.scan d
  used := by
    intro i hi
    refine h.used i ?_
    simpa [InUse] using hi

theorem stays_slots {lo : Nat} {s t : St V} (h : t.slots = s.slots) : Stays lo s t :=
  fun _ _ rc _ hi => ⟨rc, by rw [h]; exact hi⟩

theorem keep_send {s : St V} (hg : Good s) (hs : Ser s) {l : List Nat} {lo c : Nat} (h : Keep l lo c s)
    (hn : c + l.length < s.n) (b : Bool) : Keep l lo c (s.send b) ∧ Stays lo s (s.send b) := by
  unfold St.send
  by_cases hid : s.pc b = .idle
  · rw [hid]; exact ⟨h, stays_slots rfl⟩
  have hb := hs.one b hid
  have hcase : ∀ d : Bool, d = b ∨ d = !b := by intro d; cases b <;> cases d <;> simp
  have hfine := hg.fine b
  have hscan := h.scan b
  cases hp : s.pc b with
  | idle => exact absurd hp hid
  | find v r k best =>
    rw [hp] at hfine hscan
    refine ⟨keep_goto h b _ hid ?_, stays_slots (goto_slots _ _ _)⟩
    refine findOldest_scan hg h.used (fun i hi => ?_) v r k best hfine hscan
    obtain ⟨d, hd⟩ := hg.owned i hi
    rcases hcase d with rfl | rfl
    · rw [hp] at hd; cases hd
    · rw [hb] at hd; cases hd
  | cas v r i w =>
    rw [hp] at hfine hscan
    dsimp only
    by_cases e : s.slots i = w
    · rw [if_pos e]
      refine ⟨⟨?_, ?_, ?_, ?_, ?_⟩, ?_⟩
      · simpa using h.from_
      · simpa using h.idle
      · intro d hd
        rw [goto_sent]
        exact h.busy b hid
      · intro d
        rcases hcase d with rfl | rfl
        · rw [goto_pc_same]; trivial
        · rw [goto_pc_other _ _ _ _ (by cases b <;> decide)]
          show (s.pc (!b)).scan _ _ _
          rw [hb]; trivial
      · intro j hj
        obtain ⟨ts, rc, hj⟩ := hj
        rw [goto_slots] at hj
        by_cases ej : j = i
        · subst ej; simp only [put_same] at hj; cases hj
        · simp only [put_other _ _ _ _ ej] at hj; exact h.used j ⟨ts, rc, hj⟩
      · intro j ts rc hts hj
        refine ⟨rc, ?_⟩
        rw [goto_slots]
        by_cases ej : j = i
        · exfalso
          subst ej
          rcases hscan with hx | ⟨τ, hx, hall⟩
          · rw [e, hx] at hj; cases hj
          rw [e, hx] at hj; cases hj
          have hcount := count_slots s.n ts s.sent.length l (fun j => match s.slots j with | .ready t _ => t | _ => 0)
            (fun i j hi hj hil hjl heq => by
              obtain ⟨t, h1, _⟩ := hall i hi hil
              obtain ⟨t', h2, _⟩ := hall j hj hjl
              simp only [h1, h2] at heq
              subst heq
              exact hs.uniq i j t 0 0 h1 h2)
            (fun i hi hil => by
              obtain ⟨t, h1, h2⟩ := hall i hi hil
              simp only [h1]
              exact ⟨h2, (ts_le hg hs h1).2⟩)
          have := h.busy b hid
          omega
        · simp only [put_other _ _ _ _ ej]; exact hj
    · rw [if_neg e]
      exact ⟨keep_goto h b _ hid (again_scan v r l _ _), stays_slots (goto_slots _ _ _)⟩
  | write v i =>
    have h' : Keep l lo c ({ s with data := put s.data i v } : St V) := ⟨h.from_, h.idle, h.busy, h.scan, h.used⟩
    exact ⟨keep_goto h' b _ hid trivial, stays_slots (goto_slots _ _ _)⟩
  | load v i => exact ⟨keep_goto h b _ hid trivial, stays_slots (goto_slots _ _ _)⟩
  | store v i x =>
    have h' : Keep l lo c ({ s with cur := x + 1 } : St V) := ⟨h.from_, h.idle, h.busy, h.scan, h.used⟩
    exact ⟨keep_goto h' b _ hid trivial, stays_slots (goto_slots _ _ _)⟩
  | reload v i => exact ⟨keep_goto h b _ hid trivial, stays_slots (goto_slots _ _ _)⟩
  | ready v i x =>
    have hw : s.slots i = .writing := hg.own b i (by rw [hp]; exact rfl)
    have hbusy := h.busy b hid
    dsimp only
    refine ⟨⟨?_, ?_, ?_, ?_, ?_⟩, ?_⟩
    · rw [goto_sent]; have := h.from_; simp; omega
    · rw [goto_sent]; simp; omega
    · intro d hd
      rcases hcase d with rfl | rfl
      · rw [goto_pc_same] at hd; exact absurd rfl hd
      · rw [goto_pc_other _ _ _ _ (by cases b <;> decide)] at hd; exact absurd hb hd
    · intro d
      rcases hcase d with rfl | rfl
      · rw [goto_pc_same]; trivial
      · rw [goto_pc_other _ _ _ _ (by cases b <;> decide)]
        show (s.pc (!b)).scan _ _ _
        rw [hb]; trivial
    · intro j hj
      obtain ⟨ts, rc, hj⟩ := hj
      rw [goto_slots] at hj
      by_cases ej : j = i
      · subst ej; simp only [put_same] at hj; cases hj
      · simp only [put_other _ _ _ _ ej] at hj; exact h.used j ⟨ts, rc, hj⟩
    · intro j ts rc hts hj
      refine ⟨rc, ?_⟩
      have ej : j ≠ i := by intro e; subst e; rw [hw] at hj; cases hj
      rw [goto_slots]
      simp only [put_other _ _ _ _ ej]; exact hj

theorem keep_step {s : St V} (hg : Good s) (hs : Ser s) {l : List Nat} {lo c : Nat} (h : Keep l lo c s) (o : Op V)
    (ho : ∀ b v, o = .send b v → s.upd = .idle ∧ s.set = .idle)
    (hn : c + sends [o] + l.length < s.n) (hu : ∀ i, InUse (step s o) i → i ∈ l) :
    Keep l lo (c + sends [o]) (step s o) ∧ Stays lo s (step s o) := by
  cases o with
  | send b v =>
    obtain ⟨h1, h2⟩ := ho b v rfl
    have hid : ∀ c, s.pc c = .idle := by intro c; cases c; exact h1; exact h2
    have e : step s (.send b v) = s.goto b (.find v 0 0 none) := by unfold step; dsimp only; rw [hid b]
    rw [e] at hu ⊢
    refine ⟨⟨?_, ?_, ?_, ?_, hu⟩, stays_slots (goto_slots _ _ _)⟩
    · rw [goto_sent]; exact h.from_
    · rw [goto_sent]; have := h.idle; omega
    · intro d hd
      rw [goto_sent]
      have := h.idle
      simp [sends]; omega
    · intro d
      by_cases ed : d = b
      · subst ed; rw [goto_pc_same]; intro i hi; exact absurd hi (by omega)
      · rw [goto_pc_other _ _ _ _ ed, hid]; trivial
  | sendStep b => exact keep_send hg hs h (by simpa [sends] using hn) b
  | get =>
    have hr := refs_step hg (.get : Op V) rfl
    exact ⟨keep_refs h hr hu, fun _ _ _ _ hi => refs_ready hr hi⟩
  | getStep sp =>
    have hr := refs_step hg (.getStep sp : Op V) rfl
    exact ⟨keep_refs h hr hu, fun _ _ _ _ hi => refs_ready hr hi⟩
  | take i =>
    have hr := refs_step hg (.take i : Op V) rfl
    exact ⟨keep_refs h hr hu, fun _ _ _ _ hi => refs_ready hr hi⟩
  | drop i =>
    have hr := refs_step hg (.drop i : Op V) rfl
    exact ⟨keep_refs h hr hu, fun _ _ _ _ hi => refs_ready hr hi⟩

/-- Without a `Send` all slots stay. -/
theorem quiet_step {s : St V} (hg : Good s) (hid : ∀ b, s.pc b = .idle) (o : Op V) (ho : sends [o] = 0) (lo : Nat) :
    (∀ b, (step s o).pc b = .idle) ∧ Stays lo s (step s o) := by
  cases o with
  | send b v => simp [sends] at ho
  | sendStep b =>
    have e : step s (.sendStep b) = s := by unfold step; dsimp only; unfold St.send; rw [hid b]
    rw [e]; exact ⟨hid, stays_slots rfl⟩
  | get =>
    have hr := refs_step hg (.get : Op V) rfl
    exact ⟨fun b => by rw [hr.pc]; exact hid b, fun _ _ _ _ hi => refs_ready hr hi⟩
  | getStep sp =>
    have hr := refs_step hg (.getStep sp : Op V) rfl
    exact ⟨fun b => by rw [hr.pc]; exact hid b, fun _ _ _ _ hi => refs_ready hr hi⟩
  | take i =>
    have hr := refs_step hg (.take i : Op V) rfl
    exact ⟨fun b => by rw [hr.pc]; exact hid b, fun _ _ _ _ hi => refs_ready hr hi⟩
  | drop i =>
    have hr := refs_step hg (.drop i : Op V) rfl
    exact ⟨fun b => by rw [hr.pc]; exact hid b, fun _ _ _ _ hi => refs_ready hr hi⟩

end Verif.FieldRace
