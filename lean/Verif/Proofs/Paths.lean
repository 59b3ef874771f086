import Verif.Spec.Paths

/-! Names determine what they name. -/
namespace Verif.Paths
open Verif.PathsSpec

/-- The name does not start with a digit. -/
def NoDig : Name → Prop
  | [] => True
  | c :: _ => c.isDigit = false

theorem dec_digits (n : Nat) : ∀ c ∈ dec n, c.isDigit = true :=
  fun _ h => Nat.isDigit_of_mem_toDigits (by decide) (by decide) h

theorem pad_digits (w n : Nat) : ∀ c ∈ pad w n, c.isDigit = true := by
  intro c h
  rcases List.mem_append.1 h with h | h
  · rw [(List.mem_replicate.1 h).2]; rfl
  · exact dec_digits n c h

theorem split_digits : ∀ (l r : Name), (∀ c ∈ l, c.isDigit = true) → NoDig r →
    (l ++ r).takeWhile Char.isDigit = l ∧ (l ++ r).dropWhile Char.isDigit = r := by
  intro l
  induction l with
  | nil =>
    intro r _ hr
    cases r with
    | nil => exact ⟨rfl, rfl⟩
    | cons c r => simp only [NoDig] at hr; simp [hr]
  | cons a l ih =>
    intro r hl hr
    have ha : a.isDigit = true := hl a (by simp)
    have := ih r (fun c hc => hl c (by simp [hc])) hr
    simp [ha, this]

theorem value_dec (n : Nat) : Nat.ofDigitChars 10 (dec n) 0 = n := Nat.ofDigitChars_ten_toDigits

theorem value_pad (w n : Nat) : Nat.ofDigitChars 10 (pad w n) 0 = n := by
  rw [pad, Nat.ofDigitChars_append, Nat.ofDigitChars_replicate_zero]
  simp [value_dec]

theorem pad_cancel {w a b : Nat} {r s : Name} (h : pad w a ++ r = pad w b ++ s) (hr : NoDig r) (hs : NoDig s) :
    a = b ∧ r = s := by
  have h1 := split_digits (pad w a) r (pad_digits w a) hr
  have h2 := split_digits (pad w b) s (pad_digits w b) hs
  rw [h] at h1
  have e1 : pad w a = pad w b := h1.1.symm.trans h2.1
  refine ⟨?_, h1.2.symm.trans h2.2⟩
  rw [← value_pad w a, e1, value_pad]

theorem dec_cancel {a b : Nat} {r s : Name} (h : dec a ++ r = dec b ++ s) (hr : NoDig r) (hs : NoDig s) :
    a = b ∧ r = s := by
  have h1 := split_digits (dec a) r (dec_digits a) hr
  have h2 := split_digits (dec b) s (dec_digits b) hs
  rw [h] at h1
  have e1 : dec a = dec b := h1.1.symm.trans h2.1
  refine ⟨?_, h1.2.symm.trans h2.2⟩
  rw [← value_dec a, e1, value_dec]

theorem dec_inj {a b : Nat} (h : dec a = dec b) : a = b := by rw [← value_dec a, h, value_dec]
theorem pad_inj {w a b : Nat} (h : pad w a = pad w b) : a = b := by rw [← value_pad w a, h, value_pad]

/-- Service and instance can be read from a name. -/
theorem si_cancel {s i s' i' : Nat} {r r' : Name} (h : serviceAndInstance s i ++ r = serviceAndInstance s' i' ++ r')
    (hr : NoDig r) (hr' : NoDig r') : s = s' ∧ i = i' ∧ r = r' := by
  simp only [serviceAndInstance, List.append_assoc, List.cons_append] at h
  obtain ⟨h1, h2⟩ := pad_cancel h rfl rfl
  simp only [List.cons.injEq, true_and] at h2
  exact ⟨h1, pad_cancel h2 hr hr'⟩

/-- What comes after service and instance. -/
def shmTail : Shm → Name
  | .data => []
  | .ctl .qm => []
  | .ctl .b => (chars "-b")
  | .method app proxy => '-' :: pad 5 app ++ '-' :: pad 5 proxy

def shmHead : Shm → Name
  | .data => (chars "data-")
  | .ctl _ => (chars "ctl-")
  | .method _ _ => (chars "methods-")

theorem shmFile_eq (sid iid : Nat) (s : Shm) :
    shmFile sid iid s = (chars "lola-") ++ (shmHead s ++ (serviceAndInstance sid iid ++ shmTail s)) := by
  cases s with
  | data => simp [shmFile, shmHead, shmTail]
  | ctl q => cases q <;> simp [shmFile, shmHead, shmTail]
  | method a p => simp [shmFile, shmHead, shmTail]

theorem tail_noDig (s : Shm) (x : Name) (hx : NoDig x) : NoDig (shmTail s ++ x) := by
  cases s with
  | data => exact hx
  | ctl q => cases q with
    | qm => exact hx
    | b => rfl
  | method a p => rfl

/-- Either no lock file or a lock file is named. -/
def Ends (x : Name) : Prop := x = [] ∨ x = (chars "_lock")

theorem ends_noDig {x : Name} (h : Ends x) : NoDig x := by
  rcases h with rfl | rfl
  · trivial
  · rfl

theorem tail_inj {s s' : Shm} {x x' : Name} (hh : shmHead s = shmHead s') (hx : Ends x) (hx' : Ends x')
    (h : shmTail s ++ x = shmTail s' ++ x') : s = s' ∧ x = x' := by
  have hb : ∀ y, Ends y → y ≠ (chars "-b") ++ x ∧ y ≠ (chars "-b") ++ x' := by
    intro y hy
    rcases hy with rfl | rfl <;> simp
  cases s with
  | data =>
    cases s' with
    | data => exact ⟨rfl, h⟩
    | ctl q => simp [shmHead] at hh
    | method a p => simp [shmHead] at hh
  | ctl q =>
    cases s' with
    | data => simp [shmHead] at hh
    | ctl q' =>
      cases q <;> cases q'
      · exact ⟨rfl, h⟩
      · exact absurd h (hb x hx).2
      · exact absurd h.symm (hb x' hx').1
      · simp only [shmTail] at h
        exact ⟨rfl, List.append_cancel_left h⟩
    | method a p => simp [shmHead] at hh
  | method a p =>
    cases s' with
    | data => simp [shmHead] at hh
    | ctl q => simp [shmHead] at hh
    | method a' p' =>
      simp only [shmTail, List.append_assoc, List.cons_append, List.cons.injEq, true_and] at h
      obtain ⟨h1, h2⟩ := pad_cancel h rfl rfl
      simp only [List.cons.injEq, true_and] at h2
      obtain ⟨h3, h4⟩ := pad_cancel h2 (ends_noDig hx) (ends_noDig hx')
      exact ⟨by rw [h1, h3], h4⟩

theorem head_cancel {s s' : Shm} {x x' : Name} (h : shmHead s ++ x = shmHead s' ++ x') :
    shmHead s = shmHead s' ∧ x = x' := by
  have : shmHead s = shmHead s' := by
    cases s <;> cases s' <;> first | rfl | (simp [shmHead] at h)
  rw [this] at h
  exact ⟨this, List.append_cancel_left h⟩

/-- Names of shared memory objects and of their lock files. -/
theorem shm_inj {vm vm' : Bool} {sid iid sid' iid' : Nat} {s s' : Shm} {x x' : Name} (hx : Ends x) (hx' : Ends x')
    (h : shmName vm sid iid s ++ x = shmName vm' sid' iid' s' ++ x') :
    vm = vm' ∧ sid = sid' ∧ iid = iid' ∧ s = s' ∧ x = x' := by
  simp only [shmName, shmFile_eq, List.append_assoc] at h
  have hvm : vm = vm' := by
    cases vm <;> cases vm' <;> first | rfl | (simp at h)
  subst hvm
  have h1 := List.append_cancel_left (List.append_cancel_left h)
  obtain ⟨h2, h3⟩ := head_cancel h1
  obtain ⟨h4, h5, h6⟩ := si_cancel h3 (tail_noDig _ _ (ends_noDig hx)) (tail_noDig _ _ (ends_noDig hx'))
  obtain ⟨h7, h8⟩ := tail_inj h2 hx hx' h6
  exact ⟨rfl, h4, h5, h7, h8⟩

theorem flag_inj {sid iid pid d sid' iid' pid' d' : Nat} {q q' : Quality}
    (h : flagName sid iid pid q d = flagName sid' iid' pid' q' d') :
    sid = sid' ∧ iid = iid' ∧ pid = pid' ∧ q = q' ∧ d = d' := by
  simp only [flagName, instanceDir, serviceDir, flagFile, List.append_assoc, List.cons_append, List.cons.injEq,
    true_and, List.nil_append] at h
  have h0 := h
  obtain ⟨h1, h2⟩ := dec_cancel h0 rfl rfl
  simp only [List.cons.injEq, true_and] at h2
  obtain ⟨h3, h4⟩ := dec_cancel h2 rfl rfl
  simp only [List.cons.injEq, true_and] at h4
  obtain ⟨h5, h6⟩ := dec_cancel h4 rfl rfl
  simp only [List.cons.injEq, true_and] at h6
  have hq : q = q' := by
    cases q <;> cases q' <;> first | rfl | (simp [qualityName] at h6)
  subst hq
  have h7 := List.append_cancel_left h6
  simp only [List.cons.injEq, true_and] at h7
  exact ⟨h1, h3, h5, rfl, dec_inj h7⟩

theorem endpoint_inj {p p' : Nat} {q q' : Quality} (h : endpointName p q = endpointName p' q') : p = p' ∧ q = q' := by
  cases q <;> cases q' <;>
    (simp only [endpointName, List.append_assoc] at h
     have h0 := List.append_cancel_left h
     obtain ⟨h1, h2⟩ := dec_cancel h0 rfl rfl
     first
     | exact ⟨h1, rfl⟩
     | simp at h2)

theorem marker_inj {u u' : Bool} {sid iid sid' iid' : Nat} (h : markerName u sid iid = markerName u' sid' iid') :
    u = u' ∧ sid = sid' ∧ iid = iid' := by
  simp only [markerName, List.append_assoc] at h
  have h0 := List.append_cancel_left h
  have hu : u = u' := by
    cases u <;> cases u' <;> first | rfl | (simp at h0)
  subst hu
  have h1 := List.append_cancel_left h0
  have := si_cancel (r := []) (r' := []) (by simpa using h1) trivial trivial
  exact ⟨rfl, this.1, this.2.1⟩

/-- Names of different kinds differ near their beginning. -/
theorem name_inj {a b : Thing} (h : name a = name b) : a = b := by
  cases a with
  | shm vm sid iid s =>
    cases b with
    | shm vm' sid' iid' s' =>
      have := shm_inj (x := []) (x' := []) (Or.inl rfl) (Or.inl rfl) (by simpa [name] using h)
      obtain ⟨rfl, rfl, rfl, rfl, _⟩ := this
      rfl
    | lock vm' sid' iid' s' => cases vm <;> simp [name, lockName, shmName, shmFile_eq] at h
    | marker u sid' iid' => cases vm <;> simp [name, markerName, shmName, shmFile_eq] at h
    | flag sid' iid' pid q d => cases vm <;> simp [name, flagName, instanceDir, serviceDir, shmName, shmFile_eq] at h
    | endpoint p q => cases vm <;> cases q <;> simp [name, endpointName, shmName, shmFile_eq] at h
  | lock vm sid iid s =>
    cases b with
    | lock vm' sid' iid' s' =>
      simp only [name, lockName, List.append_assoc] at h
      obtain ⟨rfl, rfl, rfl, rfl, _⟩ := shm_inj (Or.inr rfl) (Or.inr rfl) (List.append_cancel_left h)
      rfl
    | shm vm' sid' iid' s' => cases vm' <;> simp [name, lockName, shmName, shmFile_eq] at h
    | marker u sid' iid' => cases vm <;> simp [name, lockName, markerName, shmName, shmFile_eq] at h
    | flag sid' iid' pid q d =>
      cases vm <;> simp [name, lockName, flagName, instanceDir, serviceDir, shmName, shmFile_eq] at h
    | endpoint p q => cases vm <;> cases q <;> simp [name, lockName, endpointName, shmName, shmFile_eq] at h
  | marker u sid iid =>
    cases b with
    | marker u' sid' iid' => obtain ⟨rfl, rfl, rfl⟩ := marker_inj h; rfl
    | shm vm' sid' iid' s' => cases vm' <;> simp [name, markerName, shmName, shmFile_eq] at h
    | lock vm' sid' iid' s' => cases vm' <;> simp [name, lockName, markerName, shmName, shmFile_eq] at h
    | flag sid' iid' pid q d => cases u <;> simp [name, markerName, flagName, instanceDir, serviceDir] at h
    | endpoint p q => cases u <;> cases q <;> simp [name, endpointName, markerName] at h
  | flag sid iid pid q d =>
    cases b with
    | flag sid' iid' pid' q' d' => obtain ⟨rfl, rfl, rfl, rfl, rfl⟩ := flag_inj h; rfl
    | shm vm' sid' iid' s' => cases vm' <;> simp [name, flagName, instanceDir, serviceDir, shmName, shmFile_eq] at h
    | lock vm' sid' iid' s' =>
      cases vm' <;> simp [name, lockName, flagName, instanceDir, serviceDir, shmName, shmFile_eq] at h
    | marker u sid' iid' => cases u <;> simp [name, markerName, flagName, instanceDir, serviceDir] at h
    | endpoint p q' => cases q' <;> simp [name, endpointName, flagName, instanceDir, serviceDir] at h
  | endpoint p q =>
    cases b with
    | endpoint p' q' => obtain ⟨rfl, rfl⟩ := endpoint_inj h; rfl
    | shm vm' sid' iid' s' => cases vm' <;> cases q <;> simp [name, endpointName, shmName, shmFile_eq] at h
    | lock vm' sid' iid' s' => cases vm' <;> cases q <;> simp [name, lockName, endpointName, shmName, shmFile_eq] at h
    | marker u sid' iid' => cases u <;> cases q <;> simp [name, endpointName, markerName] at h
    | flag sid' iid' pid q' d => cases q <;> simp [name, endpointName, flagName, instanceDir, serviceDir] at h

/-! ## Reading names -/

theorem contains_mem : ∀ {n l : Name}, contains n l = true → ∀ c ∈ n, c ∈ l := by
  intro n l
  induction l with
  | nil =>
    intro h c hc
    cases n with
    | nil => cases hc
    | cons a n => simp [contains] at h
  | cons x l ih =>
    intro h c hc
    simp only [contains, Bool.or_eq_true] at h
    rcases h with h | h
    · obtain ⟨t, ht⟩ := List.isPrefixOf_iff_prefix.1 h
      rw [← ht]; exact List.mem_append_left _ hc
    · exact List.mem_cons_of_mem _ (ih h c hc)

theorem contains_mid (n r : Name) : ∀ (l : Name), contains n (l ++ (n ++ r)) = true := by
  intro l
  induction l with
  | nil =>
    cases h : n ++ r with
    | nil =>
      have : n = [] := (List.append_eq_nil_iff.1 h).1
      subst this; rfl
    | cons a b =>
      show contains n (a :: b) = true
      have : n.isPrefixOf (a :: b) = true := by rw [← h]; exact List.isPrefixOf_iff_prefix.2 ⟨r, rfl⟩
      simp only [contains, this, Bool.true_or]
  | cons x l ih => simp only [List.cons_append, contains, ih, Bool.or_true]

theorem not_dec {n : Nat} {c : Char} (h : c.isDigit = false) : c ∉ dec n := by
  intro hm
  rw [dec_digits n c hm] at h; cases h

theorem flagFile_eq (pid : Nat) (q : Quality) (d : Nat) :
    flagFile pid q d = (dec pid ++ ['_']) ++ (qualityName q ++ ('_' :: dec d)) := by
  simp [flagFile]

/-- The letter that tells the qualities apart. -/
theorem flagFile_letter {pid d : Nat} : 'b' ∉ flagFile pid .qm d ∧ 'q' ∉ flagFile pid .b d := by
  constructor <;>
    (simp only [flagFile, List.mem_append, List.mem_cons, List.cons_append]
     simp [qualityName, not_dec])

theorem flagName_letter {sid iid pid d : Nat} :
    'b' ∉ flagName sid iid pid .qm d ∧ 'q' ∉ flagName sid iid pid .b d := by
  constructor <;>
    (simp only [flagName, instanceDir, serviceDir, flagFile, List.mem_append, List.mem_cons, List.cons_append]
     simp [qualityName, not_dec])

/-! ## Addresses -/

theorem address_inj {a b : Name} (ha : a.length ≤ 106) (hb : b.length ≤ 106) (na : Char.ofNat 0 ∉ a) (nb : Char.ofNat 0 ∉ b)
    (h : address a = address b) : a = b := by
  have ea : a.take (sunPath - 2) = a := List.take_of_length_le (by simpa [sunPath] using ha)
  have eb : b.take (sunPath - 2) = b := List.take_of_length_le (by simpa [sunPath] using hb)
  simp only [address, ea, eb, List.cons.injEq, true_and] at h
  have key : ∀ (x : Name) (k : Nat), Char.ofNat 0 ∉ x →
      (x ++ List.replicate k (Char.ofNat 0)).filter (fun c => c != Char.ofNat 0) = x := by
    intro x k hx
    rw [List.filter_append]
    have h1 : x.filter (fun c => c != Char.ofNat 0) = x := by
      rw [List.filter_eq_self]
      intro c hc
      simp only [bne_iff_ne, ne_eq]
      intro e; exact hx (e ▸ hc)
    have h2 : (List.replicate k (Char.ofNat 0)).filter (fun c => c != Char.ofNat 0) = [] := by
      rw [List.filter_eq_nil_iff]
      intro c hc
      simp [(List.mem_replicate.1 hc).2]
    rw [h1, h2, List.append_nil]
  rw [← key a _ na, h, key b _ nb]

theorem dec_length {n k : Nat} (hk : 0 < k) (h : n < 10 ^ k) : (dec n).length ≤ k :=
  (Nat.length_toDigits_le_iff (by decide) hk).2 h

end Verif.Paths
