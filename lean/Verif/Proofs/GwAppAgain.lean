import Verif.Proofs.GwApp
/-! Every active event is registered again when the peer provides the service again. -/
namespace Verif.GwApp

theorem step_dead {s : St} (o : Op) (h : (step s o).dead = none) : s.dead = none := by
  cases hd : s.dead with
  | none => rfl
  | some d => simp [step, hd] at h

theorem run_dead {s : St} (ops : List Op) (h : (run s ops).dead = none) : s.dead = none := by
  induction ops generalizing s with
  | nil => exact h
  | cons o ops ih => exact step_dead o (ih h)

/-- Event `e` of `n` has been registered again since the count was `k`, or is among those still to be visited. -/
def Again (n e k : Nat) (s : St) : Prop :=
  k + 1 ≤ s.log.countP (isReregister n e) ∨
    (k ≤ s.log.countP (isReregister n e) ∧ ∃ l, s.pc = .reregister n l ∧ e ∈ l)

theorem again_of {n e k : Nat} {s s' : St} (h : Again n e k s)
    (hl : s.log.countP (isReregister n e) ≤ s'.log.countP (isReregister n e)) (hp : s'.pc = s.pc) : Again n e k s' := by
  rcases h with h | ⟨h, l, h1, h2⟩
  · exact .inl (by omega)
  · exact .inr ⟨by omega, l, by rw [hp]; exact h1, h2⟩

theorem again_idle {n e k : Nat} {s s' : St} (h : Again n e k s) (hi : s.pc = .idle)
    (hl : s.log.countP (isReregister n e) ≤ s'.log.countP (isReregister n e)) : Again n e k s' := by
  rcases h with h | ⟨_, l, h1, _⟩
  · exact .inl (by omega)
  · rw [hi] at h1; cases h1

theorem le_push (n e : Nat) (x : Ev) (l : List Ev) : l.countP (isReregister n e) ≤ (x :: l).countP (isReregister n e) := by
  rw [List.countP_cons]; omega

theorem step_again {n e k : Nat} {s : St} (h : Again n e k s) (o : Op) : Again n e k (step s o) := by
  unfold step
  split
  · exact h
  · cases o with
    | peerProvide m es c f =>
      dsimp only
      split
      · rename_i hi
        refine again_idle h hi ?_
        unfold peerProvide
        repeat' split
        all_goals try simp only [List.countP_cons]
        all_goals omega
      · exact h
    | peerOffer m b =>
      dsimp only
      split
      · rename_i hi
        refine again_idle h hi ?_
        unfold peerOffer
        repeat' split
        all_goals try simp only [List.countP_cons]
        all_goals omega
      · exact h
    | peerStopOffer m =>
      dsimp only
      split
      · rename_i hi
        refine again_idle h hi ?_
        unfold peerStopOffer
        repeat' split
        all_goals try simp only [List.countP_cons]
        all_goals omega
      · exact h
    | peerRegister m ty x =>
      dsimp only
      split
      · rename_i hi
        refine again_idle h hi ?_
        unfold peerRegister
        repeat' split
        all_goals simp
      · exact h
    | peerUnregister m ty x =>
      dsimp only
      split
      · rename_i hi
        refine again_idle h hi ?_
        unfold peerUnregister
        repeat' split
        all_goals simp
      · exact h
    | peerNotify m ty x b =>
      dsimp only
      split
      · rename_i hi
        refine again_idle h hi ?_
        unfold peerNotify
        repeat' split
        all_goals try simp only [List.countP_cons]
        all_goals omega
      · exact h
    | «continue» b =>
      dsimp only
      unfold continue'
      rcases h with h | ⟨h, l, h1, h2⟩
      · left
        repeat' split
        all_goals try simp only [List.countP_cons]
        all_goals omega
      · rw [h1]
        cases l with
        | nil => cases h2
        | cons x l =>
          dsimp only
          by_cases hx : e = x
          · left
            rw [hx, List.countP_cons]
            simp [isReregister]
            subst hx; exact h
          · right
            refine ⟨Nat.le_trans h (le_push ..), l, rfl, ?_⟩
            rcases List.mem_cons.mp h2 with h2 | h2
            · exact absurd h2 hx
            · exact h2
    | available m es c b =>
      dsimp only
      refine again_of h ?_ ?_
      · unfold available propagate
        repeat' split
        all_goals try simp only [List.countP_cons]
        all_goals omega
      · unfold available propagate
        repeat' split
        all_goals rfl
    | unavailable m b =>
      dsimp only
      refine again_of h ?_ ?_
      · unfold unavailable
        repeat' split
        all_goals try simp only [List.countP_cons]
        all_goals omega
      · unfold unavailable
        repeat' split
        all_goals rfl
    | subscription m x on b =>
      dsimp only
      refine again_of h ?_ ?_
      · unfold subscription
        repeat' split
        all_goals try simp only [List.countP_cons]
        all_goals omega
      · unfold subscription
        repeat' split
        all_goals rfl

theorem run_again {n e k : Nat} {s : St} (h : Again n e k s) (ops : List Op) : Again n e k (run s ops) := by
  induction ops generalizing s with
  | nil => exact h
  | cons o ops ih => exact ih (step_again h o)

end Verif.GwApp
