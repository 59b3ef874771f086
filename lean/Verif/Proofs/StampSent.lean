import Verif.Spec.Stamp

/-! Every call publishes its value. -/
namespace Verif.Stamp
open Verif.StampSpec

variable {V : Type}

/-- The value a thread is about to publish. -/
def Pc.value : Pc V → Option V
  | .idle => none
  | .wait v | .ready _ v | .loaded _ v _ | .stored _ v | .read _ v _ => some v

/-- The thread holds the mutex. -/
def Pc.isSet : Pc V → Bool
  | .idle | .wait _ => false
  | .ready k _ | .loaded k _ _ | .stored k _ | .read k _ _ => k == .set

/-- `L` lists the values that are about to be published. -/
structure Pending (s : St V) (L : List (Nat × V)) : Prop where
  nodup : (L.map (·.1)).Nodup
  mem : ∀ t v, (t, v) ∈ L ↔ (s.pc t).value = some v

theorem perm_filter : ∀ (L : List (Nat × V)) (t : Nat) (v : V), (L.map (·.1)).Nodup → (t, v) ∈ L →
    L.Perm ((t, v) :: L.filter fun p => p.1 ≠ t) := by
  intro L
  induction L with
  | nil => intro t v _ h; cases h
  | cons a L ih =>
    intro t v hn hm
    rw [List.map_cons, List.nodup_cons] at hn
    rcases List.mem_cons.1 hm with h | h
    · subst h
      have : L.filter (fun p => p.1 ≠ t) = L := by
        rw [List.filter_eq_self]
        intro p hp
        simp only [ne_eq, decide_eq_true_eq]
        intro e
        exact hn.1 (List.mem_map.2 ⟨p, hp, e⟩)
      rw [List.filter_cons_of_neg (by simp), this]
    · have ha : a.1 ≠ t := fun e => hn.1 (e ▸ List.mem_map.2 ⟨(t, v), h, rfl⟩)
      rw [List.filter_cons_of_pos (by simpa using ha)]
      exact ((ih t v hn.2 h).cons a).trans (List.Perm.swap ..)

theorem pending_keep {s s' : St V} {L : List (Nat × V)} (h : Pending s L)
    (e : ∀ t, (s'.pc t).value = (s.pc t).value) : Pending s' L :=
  ⟨h.nodup, fun t v => by rw [h.mem, e]⟩

theorem pending_add {s s' : St V} {L : List (Nat × V)} {t : Nat} {v : V} (h : Pending s L)
    (h0 : (s.pc t).value = none) (h1 : (s'.pc t).value = some v)
    (e : ∀ j, j ≠ t → (s'.pc j).value = (s.pc j).value) : Pending s' ((t, v) :: L) := by
  refine ⟨?_, ?_⟩
  · rw [List.map_cons, List.nodup_cons]
    refine ⟨fun hm => ?_, h.nodup⟩
    obtain ⟨⟨j, w⟩, hp, he⟩ := List.mem_map.1 hm
    dsimp only at he
    subst he
    have := (h.mem j w).1 hp
    rw [h0] at this; cases this
  · intro j w
    rw [List.mem_cons, h.mem]
    by_cases hj : j = t
    · subst hj; rw [h1, h0]; simp [eq_comm]
    · rw [e j hj]; simp [hj]

theorem pending_del {s s' : St V} {L : List (Nat × V)} {t : Nat} (h : Pending s L)
    (h1 : (s'.pc t).value = none)
    (e : ∀ j, j ≠ t → (s'.pc j).value = (s.pc j).value) : Pending s' (L.filter fun p => p.1 ≠ t) := by
  refine ⟨?_, ?_⟩
  · exact h.nodup.sublist (List.filter_sublist.map _)
  · intro j w
    rw [List.mem_filter, h.mem]
    by_cases hj : j = t
    · subst hj; rw [h1]; simp
    · rw [e j hj]; simp [hj]

theorem sent_run : ∀ (ops : List (Op V)) (s : St V) (L : List (Nat × V)), Pending s L →
    ∃ L', Pending (run s ops) L' ∧
      (s.sent.map (·.2) ++ L.map (·.2) ++ called s ops).Perm ((run s ops).sent.map (·.2) ++ L'.map (·.2)) := by
  intro ops
  induction ops with
  | nil => intro s L h; exact ⟨L, h, by simp [called, run]⟩
  | cons o ops ih =>
    intro s L h
    have er : run s (o :: ops) = run (s.step o) ops := rfl
    rw [er]
    cases o with
    | call t k v =>
      cases hp : s.pc t with
      | idle =>
        have hs : s.step (.call t k v) = s.at t (if k = .update then .ready .update v else .wait v) := by
          simp only [St.step, hp]
        have hc : called s (.call t k v :: ops) = v :: called (s.step (.call t k v)) ops := by
          simp only [called, hp]
        rw [hc]
        obtain ⟨L', h1, h2⟩ := ih (s.step (.call t k v)) ((t, v) :: L) (by
          refine pending_add h (by rw [hp]; rfl) ?_ ?_
          · rw [hs]; simp only [St.at, if_true]; split <;> rfl
          · intro j hj; rw [hs]; simp [St.at, hj])
        refine ⟨L', h1, List.Perm.trans ?_ h2⟩
        have hsent : (s.step (.call t k v)).sent = s.sent := by rw [hs]; rfl
        rw [hsent]
        simp only [List.map_cons, List.append_assoc, List.cons_append]
        refine List.Perm.append_left _ ?_
        exact List.perm_middle
      | _ =>
        have hs : s.step (.call t k v) = s := by simp only [St.step, hp]
        have hc : called s (.call t k v :: ops) = called s ops := by simp only [called, hp, hs]
        rw [hs, hc]
        exact ih s L h
    | next t =>
      have hc : called s (.next t :: ops) = called (s.step (.next t)) ops := rfl
      rw [hc]
      have keep : ∀ s', s.step (.next t) = s' → s'.sent = s.sent → (∀ j, (s'.pc j).value = (s.pc j).value) →
          ∃ L', Pending (run (s.step (.next t)) ops) L' ∧
          (s.sent.map (·.2) ++ L.map (·.2) ++ called (s.step (.next t)) ops).Perm
            ((run (s.step (.next t)) ops).sent.map (·.2) ++ L'.map (·.2)) := by
        intro s' hs he hv
        rw [hs]
        have := ih s' L (pending_keep h hv)
        rwa [he] at this
      have at_value : ∀ (p : Pc V) (j : Nat), p.value = (s.pc t).value →
          (if j = t then p else s.pc j).value = (s.pc j).value := by
        intro p j hpv
        by_cases hj : j = t
        · subst hj; rw [if_pos rfl, hpv]
        · rw [if_neg hj]
      cases hp : s.pc t with
      | idle => exact keep s (by simp only [St.step, St.next, hp]) rfl fun _ => rfl
      | wait v =>
        by_cases hl : s.lock = none
        · exact keep { s.at t (.ready .set v) with lock := some t } (by simp only [St.step, St.next, hp, if_pos hl]) rfl
            fun j => at_value (.ready .set v) j (by rw [hp]; rfl)
        · exact keep s (by simp only [St.step, St.next, hp, if_neg hl]) rfl fun _ => rfl
      | ready k v =>
        exact keep (s.at t (.loaded k v s.stamp)) (by simp only [St.step, St.next, hp]) rfl
          fun j => at_value (.loaded k v s.stamp) j (by rw [hp]; rfl)
      | loaded k v r =>
        exact keep { s.at t (.stored k v) with stamp := (r + 1) % modulus } (by simp only [St.step, St.next, hp]) rfl
          fun j => at_value (.stored k v) j (by rw [hp]; rfl)
      | stored k v =>
        exact keep (s.at t (.read k v s.stamp)) (by simp only [St.step, St.next, hp]) rfl
          fun j => at_value (.read k v s.stamp) j (by rw [hp]; rfl)
      | read k v r =>
        have hs : s.step (.next t) = { s.leave t k with sent := s.sent ++ [(r, v)] } := by
          simp only [St.step, St.next, hp]
        have hpc : ∀ j, (s.step (.next t)).pc j = if j = t then .idle else s.pc j := by
          intro j; rw [hs]; cases k <;> rfl
        obtain ⟨L', h1, h2⟩ := ih (s.step (.next t)) (L.filter fun p => p.1 ≠ t)
          (pending_del (s' := s.step (.next t)) h (by rw [hpc, if_pos rfl]; rfl)
            (fun j hj => by rw [hpc, if_neg hj]))
        refine ⟨L', h1, List.Perm.trans ?_ h2⟩
        have hsent : (s.step (.next t)).sent = s.sent ++ [(r, v)] := by rw [hs]
        rw [hsent]
        refine List.Perm.append_right _ ?_
        rw [List.map_append, List.append_assoc]
        refine List.Perm.append_left _ ?_
        exact (perm_filter L t v h.nodup ((h.mem t v).2 (by rw [hp]; rfl))).map (·.2)

theorem sent_all (ops : List (Op V)) (hq : ∀ t, (run ({} : St V) ops).pc t = .idle) :
    ((run {} ops).sent.map (·.2)).Perm (called {} ops) := by
  obtain ⟨L, h1, h2⟩ := sent_run ops ({} : St V) [] ⟨by simp, by intro t v; simp [Pc.value]⟩
  have : L = [] := by
    cases L with
    | nil => rfl
    | cons a L =>
      have := (h1.mem a.1 a.2).1 (by simp)
      rw [hq] at this; cases this
  subst this
  simpa using h2.symm

/-! ## The mutex -/

theorem inSet_iff {p : Pc V} : InSet p ↔ p.isSet = true := by
  cases p <;> simp [InSet, Pc.isSet]

theorem lock_step {s : St V} (h : ∀ t, (s.pc t).isSet = true ↔ s.lock = some t) (o : Op V) :
    ∀ t, ((s.step o).pc t).isSet = true ↔ (s.step o).lock = some t := by
  have keep : ∀ (i : Nat) (p : Pc V), p.isSet = (s.pc i).isSet →
      ∀ t, (if t = i then p else s.pc t).isSet = true ↔ s.lock = some t := by
    intro i p hp t
    by_cases ht : t = i
    · subst ht; rw [if_pos rfl, hp]; exact h t
    · rw [if_neg ht]; exact h t
  cases o with
  | call i k v =>
    intro t
    simp only [St.step]
    cases hp : s.pc i with
    | idle =>
      dsimp only [St.at]
      refine keep i _ ?_ t
      rw [hp]; cases k <;> rfl
    | _ => exact h t
  | next i =>
    intro t
    simp only [St.step, St.next]
    cases hp : s.pc i with
    | idle => exact h t
    | wait v =>
      dsimp only
      by_cases hl : s.lock = none
      · rw [if_pos hl]
        dsimp only [St.at]
        by_cases ht : t = i
        · subst ht; simp [Pc.isSet]
        · rw [if_neg ht, h t, hl]; simp [Ne.symm ht]
      · rw [if_neg hl]; exact h t
    | ready k v => exact keep i _ (by rw [hp]; rfl) t
    | loaded k v r => exact keep i (.stored k v) (by rw [hp]; rfl) t
    | stored k v => exact keep i _ (by rw [hp]; rfl) t
    | read k v r =>
      cases k with
      | update => exact keep i .idle (by rw [hp]; rfl) t
      | set =>
        dsimp only [St.leave, St.at]
        by_cases ht : t = i
        · subst ht; simp [Pc.isSet]
        · rw [if_neg ht, h t]
          have : s.lock = some i := (h i).1 (by rw [hp]; rfl)
          rw [this]; simp [Ne.symm ht]

theorem lock_run : ∀ (ops : List (Op V)) {s : St V}, (∀ t, (s.pc t).isSet = true ↔ s.lock = some t) →
    ∀ t, ((run s ops).pc t).isSet = true ↔ (run s ops).lock = some t := by
  intro ops
  induction ops with
  | nil => intro s h; exact h
  | cons o ops ih => intro s h; exact ih (lock_step h o)

end Verif.Stamp
