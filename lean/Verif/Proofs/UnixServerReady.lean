import Verif.Proofs.UnixServerListen
/-!
# Sessions of a server: what is read was found ready
-/
namespace Verif.UnixServer

/-- What is ready in `v` was so in `w`, at the same place. -/
def OldR (w v : World) : Prop := ∀ (j : Nat) (y : Slot) (e : Ep), v.slots[j]? = some y → y.ep = some e → Ours e →
  y.ready = true → w.slots[j]? = some y

theorem OldR.of_slots {w v : World} (h : v.slots = w.slots) : OldR w v := by
  intro j y e hy _ _ _; rw [← h]; exact hy

theorem OldR.trans {u v w : World} (h : OldR u v) (k : OldR v w) : OldR u w :=
  fun j y e hy he ho hr => h j y e (k j y e hy he ho hr) he ho hr

theorem Less.oldR {w v : World} (l : Less w v) : OldR w v := fun j y e hy he ho _ => l.old j y e hy he ho

theorem oldR_doAll {w : World} (h : Inv w) (d : Do) : OldR w (doAll d w) :=
  fun j y e hy he ho _ => (doAll_ok d w h).2.old j y e hy he ho

theorem oldR_register (w : World) (e : Ep) (fd : Nat) : OldR w (register w e fd) := by
  intro j y e' hy he _ hr
  obtain ⟨i, hi, -, hj, -⟩ := register_slots w e fd
  by_cases hji : j = i
  · subst hji
    rw [hi] at hy; cases hy; cases hr
  · rw [← hj j hji]; exact hy

theorem oldR_drop {w : World} (h : Inv w) (c s : Nat) (bye : Do) : OldR w (dropSession w c s bye) := by
  unfold dropSession
  split
  · exact OldR.of_slots rfl
  · split
    · exact OldR.of_slots rfl
    · rename_i i hi
      obtain ⟨x, hx, hxe⟩ := slotOf_some hi
      exact (unpollWith_ok h hx hxe bye).1.oldR

theorem oldR_input {w : World} (h : Top w) (c t : Nat) (e : In) : OldR w (processInput w c t e) := by
  unfold processInput
  split
  · exact OldR.of_slots rfl
  · rename_i z hz
    obtain ⟨hzl, hzc⟩ := conn?_some hz
    split
    · rename_i m p _ hp
      dsimp only
      have f1 := fine_message h hzl (peerOf_some hp) m
      rw [hzc] at f1
      have k1 : OldR w (w.note (.message c p m)) := OldR.of_slots rfl
      have k2 := oldR_doAll f1.top.inv e.does
      have f3 := fine_returned (fine_doAll f1.top e.does).top c
      have k3 : OldR (doAll e.does (w.note (.message c p m))) ((doAll e.does (w.note (.message c p m))).note (.returned c)) :=
        OldR.of_slots rfl
      split
      · exact k1.trans (k2.trans k3)
      · exact k1.trans (k2.trans (k3.trans (oldR_drop f3.top.inv c t e.bye)))
    · exact oldR_drop h.inv c t e.bye

theorem oldR_connect {w : World} (h : Top w) (t : Nat) (e : In) : OldR w (processConnect w t e) := by
  unfold processConnect
  split
  · exact OldR.of_slots rfl
  · rename_i fd peer _
    split
    · exact OldR.of_slots rfl
    · rename_i hany
      have hfd : ∀ a ∈ w.fds, a.1 ≠ fd := by
        intro a ha he
        apply hany
        rw [List.any_eq_true]
        exact ⟨a, ha, by simp [he]⟩
      split
      · exact OldR.of_slots rfl
      · dsimp only
        have hI := h.inv.connect (s := t) (peer := peer) hfd
        have k2 := oldR_doAll hI e.does
        split
        · refine OldR.trans ?_ (oldR_register _ _ _)
          exact k2
        · exact (OldR.of_slots rfl).trans (k2.trans (OldR.of_slots (destroy_same _ _).1))

theorem oldR_turn {w : World} (h : Top w) (i : Nat) (e : In) : OldR w (turn w i e) := by
  unfold turn
  split
  · exact OldR.of_slots rfl
  · split
    · exact OldR.of_slots rfl
    · split
      · exact OldR.of_slots rfl
      · exact OldR.of_slots rfl
      · exact oldR_connect h _ e
      · exact oldR_input h _ _ e
      · exact oldR_doAll h.inv e.does

theorem oldR_step {w : World} (t : Top w) (x : Step) (hx : x.noPoll) : OldR w (step w x) := by
  unfold step
  split
  · exact OldR.of_slots rfl
  · cases x with
    | start s fd =>
      dsimp only
      split
      · exact OldR.of_slots rfl
      · exact OldR.of_slots rfl
    | stop s =>
      dsimp only
      split
      · exact OldR.of_slots rfl
      · exact OldR.of_slots rfl
    | stopReturn s =>
      dsimp only
      split
      · exact OldR.of_slots rfl
      · exact OldR.of_slots rfl
    | command i bye =>
      dsimp only
      split
      · exact OldR.of_slots rfl
      · split
        · exact OldR.of_slots rfl
        · exact (OldR.of_slots rfl).trans (oldR_register { w with queue := w.queue.eraseIdx i } _ _)
        · rename_i s hq
          have hI : Inv { w with queue := w.queue.eraseIdx i } := t.inv.congr rfl rfl rfl rfl rfl
          obtain ⟨l, -⟩ := cleanupFrom_ok w.slots.length { w with queue := w.queue.eraseIdx i } s 0 w.slots.length bye hI
            (fun k x hk => absurd hk (Nat.not_lt_zero k))
            (fun k x hx _ => by
              rcases Nat.lt_or_ge k w.slots.length with hk | hk
              · exact hk
              · have hx : w.slots[k]? = some x := hx
                rw [List.getElem?_eq_none hk] at hx; cases hx)
            (by omega)
          exact l.oldR
    | poll f => exact absurd hx id
    | turn e =>
      dsimp only
      split
      · exact OldR.of_slots rfl
      · rename_i i _
        split
        · exact oldR_turn t i e
        · exact OldR.of_slots rfl
    | outside d => exact OldR.of_slots rfl

theorem oldR_foldl (l : List Step) : ∀ w, Top w → (∀ x ∈ l, x.noPoll) → OldR w (l.foldl step w) := by
  induction l with
  | nil => intro w _ _; exact OldR.of_slots rfl
  | cons x l ih =>
    intro w t hn
    exact (oldR_step t x (hn x (by simp))).trans (ih _ (top_step t x) (fun y hy => hn y (by simp [hy])))

end Verif.UnixServer
