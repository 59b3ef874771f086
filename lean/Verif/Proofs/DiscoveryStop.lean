/-
A search is stopped only on request.
-/
import Verif.Proofs.DiscoveryLog

namespace Verif.Discovery

/-- Search `h` has been started and is not stopped. -/
def Runs (h : Nat) (w : World) : Prop := h < w.nextH ∧ .stopped h ∉ w.log

theorem Quiet.runs {w w' : World} {h : Nat} (q : Quiet w w') (r : Runs h w) : Runs h w' :=
  ⟨by rw [q.nextH]; exact r.1, by rw [q.log]; exact r.2⟩

theorem beginFind_nextH (w : World) (s : Nat) (inst : Option Nat) (q : Q) (env : List (List Act)) :
    (beginFind w s inst q env).1.nextH = w.nextH + 1 := by
  unfold beginFind
  dsimp only
  split
  · split
    · rfl
    · exact (storeAndLink_quiet _ _ _).nextH
  · exact ((storeAndLink_quiet _ _ _).trans (merge_quiet _ _ _)).nextH.trans (crawl_quiet _ _ _).nextH

theorem beginFind_runs {w : World} {h : Nat} (r : Runs h w) (s : Nat) (inst : Option Nat) (q : Q) (env : List (List Act)) :
    Runs h (beginFind w s inst q env).1 := by
  refine ⟨by rw [beginFind_nextH]; exact Nat.lt_succ_of_lt r.1, ?_⟩
  rw [beginFind_log]
  intro hm
  rcases List.mem_cons.mp hm with hm | hm
  · cases hm
  · exact r.2 hm

mutual
theorem deed_runs {h : Nat} {w : World} (r : Runs h w) : (d : Deed) → NoStop h d → Runs h (deed w d)
  | .act a, _ => by unfold deed; exact (act_fine [] w a).grow.quiet.runs r
  | .stop h', hn => by
    unfold deed stopFind
    split
    · refine ⟨r.1, ?_⟩
      intro hm
      rcases List.mem_cons.mp hm with hm | hm
      · injection hm with hm
        unfold NoStop at hn
        exact hn hm.symm
      · exact r.2 hm
    · exact r
  | .start s inst q env does, hn => by
    unfold deed
    dsimp only
    unfold NoStop at hn
    have b := beginFind_runs r s inst q env
    split
    · exact b
    · refine deeds_runs (w := { (beginFind w s inst q env).1 with log := .called w.nextH (beginFind w s inst q env).2 :: (beginFind w s inst q env).1.log }) ⟨b.1, ?_⟩ does hn
      intro hm
      rcases List.mem_cons.mp hm with hm | hm
      · cases hm
      · exact b.2 hm
  | .fail s inst q l, _ => by
    unfold deed
    split
    · exact r
    · dsimp only
      have a := (acts_fine [] w l).grow.quiet.runs r
      unfold stopFind
      rw [if_pos (Nat.lt_succ_self _)]
      refine ⟨Nat.lt_succ_of_lt a.1, ?_⟩
      intro hm
      rcases List.mem_cons.mp hm with hm | hm
      · injection hm with hm
        have := a.1
        rw [← hm] at this
        exact Nat.lt_irrefl _ this
      · exact a.2 hm

theorem deeds_runs {h : Nat} {w : World} (r : Runs h w) : (ds : List Deed) → NoStops h ds → Runs h (deeds w ds)
  | [], _ => by unfold deeds; exact r
  | d :: ds, hn => by
    unfold deeds
    unfold NoStops at hn
    exact deeds_runs (deed_runs r d hn.1) ds hn.2
end

theorem callHandlers_runs {h : Nat} (does : List Note → List Deed) (hn : ∀ log, NoStops h (does log)) (l : List Nat) :
    ∀ {w : World}, Runs h w → Runs h (callHandlers w does l) := by
  induction l with
  | nil => intro w r; exact r
  | cons h' l ih =>
    intro w r
    unfold callHandlers
    cases hS : w.searches h' with
    | none => exact ih r
    | some S =>
      dsimp only
      split
      · exact ih r
      · split
        · exact ih r
        · apply ih
          unfold callHandler
          dsimp only
          have key : ∀ v : World, v.nextH = w.nextH → (∃ f, v.log = .called h' f :: w.log) → Runs h v := by
            rintro v hv ⟨f, hl⟩
            refine ⟨by rw [hv]; exact r.1, ?_⟩
            rw [hl]
            intro hm
            rcases List.mem_cons.mp hm with hm | hm
            · cases hm
            · exact r.2 hm
          refine deeds_runs ?_ _ (hn _)
          exact key _ rfl ⟨_, rfl⟩

theorem step_runs {h : Nat} {w : World} (r : Runs h w) (o : Op) (hn : o.noStop h) : Runs h (step w o) := by
  cases o with
  | app d => exact deed_runs r d hn
  | read n =>
    show Runs h (readEvents w n)
    unfold readEvents
    split
    · exact r
    · exact r
  | handle env does pref =>
    show Runs h (handleEvents w env does pref)
    unfold handleEvents
    dsimp only
    apply callHandlers_runs does hn
    apply (creations_quiet _ _ _ _).runs
    apply callHandlers_runs does hn
    apply (deletions_quiet _ _ _).runs
    obtain ⟨-, b, c, -⟩ := transferAll_core w.obsolete w
    exact ⟨by show h < (transferAll w w.obsolete).nextH; rw [c]; exact r.1,
      by show .stopped h ∉ (transferAll w w.obsolete).log; rw [b]; exact r.2⟩

theorem run_append (a b : List Op) (w : World) : run w (a ++ b) = run (run w a) b := by
  induction a generalizing w with
  | nil => rfl
  | cons o a ih => exact ih _

theorem run_runs {h : Nat} (ops : List Op) : ∀ {w : World}, Runs h w → (∀ o ∈ ops, o.noStop h) → Runs h (run w ops) := by
  induction ops with
  | nil => intro w r _; exact r
  | cons o ops ih =>
    intro w r hn
    exact ih (step_runs r o (hn o (by simp))) (fun o' ho' => hn o' (by simp [ho']))

end Verif.Discovery
