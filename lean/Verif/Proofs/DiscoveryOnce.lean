/- FindService. -/
import Verif.Proofs.DiscoveryLog

namespace Verif.Discovery

/-- The world after the activities before the first `k` steps. -/
def World.at (w : World) (env : List (List Act)) (k : Nat) : World := acts w (env.take k).flatten

theorem acts_append (w : World) (a b : List Act) : acts w (a ++ b) = acts (acts w a) b := by
  induction a generalizing w with
  | nil => rfl
  | cons x a ih => exact ih _

theorem World.at_succ (w : World) (env : List (List Act)) (k : Nat) : w.at env (k + 1) = (acts w (env.headD [])).at env.tail k := by
  unfold World.at
  cases env with
  | nil => simp [acts]
  | cons a env => simp [acts_append]

theorem checks_at (s : Nat) (l : List (Nat × Q)) (w : World) (env : List (List Act)) (found : List (Nat × Q)) :
    (∀ p ∈ found, p ∈ (checks s l w env found).2.2) ∧
    (∀ i q, (i, q) ∈ (checks s l w env found).2.2 → (i, q) ∈ found ∨ ((i, q) ∈ l ∧ ∃ k, (w.at env (k + 1)).file s i q = true)) ∧
    (∀ i q, (i, q) ∈ l → (i, q) ∉ (checks s l w env found).2.2 → ∃ k, (w.at env (k + 1)).file s i q = false) := by
  induction l generalizing w env found with
  | nil => exact ⟨fun _ h => h, fun _ _ h => .inl h, fun _ _ h => by simp at h⟩
  | cons p l ih =>
    obtain ⟨i, q⟩ := p
    have e : checks s ((i, q) :: l) w env found = checks s l (acts w (env.headD [])) env.tail
      (if (acts w (env.headD [])).file s i q = true then (i, q) :: found else found) := rfl
    rw [e]
    have h0 : w.at env 1 = acts w (env.headD []) := by rw [World.at_succ]; simp [World.at, acts]
    have hs : ∀ k, w.at env (k + 1 + 1) = (acts w (env.headD [])).at env.tail (k + 1) := fun k => World.at_succ _ _ _
    generalize acts w (env.headD []) = w1 at h0 hs ⊢
    obtain ⟨h2, h3, h4⟩ := ih w1 env.tail (if w1.file s i q = true then (i, q) :: found else found)
    generalize checks s l w1 env.tail (if w1.file s i q = true then (i, q) :: found else found) = r at h2 h3 h4 ⊢
    refine ⟨?_, ?_, ?_⟩
    · intro p hp
      refine h2 p ?_
      split
      · exact List.mem_cons_of_mem _ hp
      · exact hp
    · intro i' q' hm
      rcases h3 i' q' hm with h | ⟨h, k, m3⟩
      · by_cases hc : w1.file s i q = true
        · rw [if_pos hc] at h
          rcases List.mem_cons.mp h with h | h
          · injection h with a b
            subst a; subst b
            exact .inr ⟨List.mem_cons_self, 0, by rw [h0]; exact hc⟩
          · exact .inl h
        · rw [if_neg hc] at h; exact .inl h
      · exact .inr ⟨List.mem_cons_of_mem _ h, k + 1, by rw [hs]; exact m3⟩
    · intro i' q' hm hn
      rcases List.mem_cons.mp hm with h | h
      · injection h with a b
        subst a; subst b
        by_cases hc : w1.file s i' q' = true
        · exact absurd (h2 (i', q') (by rw [if_pos hc]; exact List.mem_cons_self)) hn
        · exact ⟨0, by rw [h0]; simpa using hc⟩
      · obtain ⟨k, m⟩ := h4 i' q' h hn
        exact ⟨k + 1, by rw [hs]; exact m⟩

theorem mem_foldr_insertNew {l : List Nat} {i : Nat} : i ∈ l.foldr insertNew [] ↔ i ∈ l := by
  induction l with
  | nil => exact Iff.rfl
  | cons a l ih => rw [List.foldr_cons, mem_insertNew, List.mem_cons, ih]

theorem nodup_foldr_insertNew (l : List Nat) : (l.foldr insertNew []).Nodup := by
  induction l with
  | nil => exact List.nodup_nil
  | cons a l ih =>
    rw [List.foldr_cons]
    unfold insertNew
    split
    · exact ih
    · rename_i h; exact List.nodup_cons.mpr ⟨h, ih⟩

/-- The instances whose flag files are looked for. -/
def candidates (w : World) (s : Nat) : Option Nat → List Nat
  | some i => [i]
  | none => w.dirs s

theorem mem_findOnce {w : World} {env : List (List Act)} {s : Nat} {inst : Option Nat} {q : Q} {i : Nat} :
    i ∈ findOnce w env s inst q ↔ (inst = none ∨ inst = some i) ∧
      (i, q) ∈ (checks s (bothQualities (candidates (acts w (env.headD [])) s inst)) (acts w (env.headD [])) env.tail []).2.2 := by
  have e : findOnce w env s inst q = select ((((checks s (bothQualities (candidates (acts w (env.headD [])) s inst)) (acts w (env.headD []))
      env.tail []).2.2.filter (fun p => p.2 = q)).map Prod.fst).foldr insertNew []) inst := by
    cases inst <;> rfl
  rw [e, mem_select, mem_foldr_insertNew, List.mem_map]
  constructor
  · rintro ⟨⟨⟨a, b⟩, h, rfl⟩, hi⟩
    obtain ⟨h1, h2⟩ := List.mem_filter.mp h
    have : b = q := by simpa using h2
    subst this
    exact ⟨hi, h1⟩
  · rintro ⟨hi, h⟩
    exact ⟨⟨(i, q), List.mem_filter.mpr ⟨h, by simp⟩, rfl⟩, hi⟩

end Verif.Discovery
