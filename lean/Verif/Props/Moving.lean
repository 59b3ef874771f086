import Verif.Proofs.MovingStep

/-!
# C105: proxies and skeletons can be moved

The variables are numbered; `run l` is what there is after the program `l`.  `Has w v s` says
that variable `v` stands for service `s`, `MovedFrom w v` that it was moved from.  The theorems
without the suffix `_partial` hold for every program as long as the process runs.
-/
namespace Verif.Moving
open Verif.Spec.Moving

instance (w : World) (v s : Nat) : Decidable (Has w v s) := inferInstanceAs (Decidable (_ ∧ _))

instance (w : World) (v : Nat) : Decidable (MovedFrom w v) := inferInstanceAs (Decidable (_ ∧ _))

theorem has_owner {w : World} (h : Inv w) {v s : Nat} (hv : Has w v s) : Owner w v s := h.owner hv.1 hv.2

/-- What taking over does. -/
theorem takeOver_has {w : World} (h : Inv w) {v i s : Nat} (hv : (w.objs v).alive = false) (hi : Has w i s) :
    (takeOver w v i).objs v = w.objs i ∧ (takeOver w v i).objs i = (w.objs i).moved ∧
      (∀ x, x ≠ v → x ≠ i → (takeOver w v i).objs x = w.objs x) ∧ (takeOver w v i).active = w.active ∧
      (takeOver w v i).opened = w.opened ∧ (takeOver w v i).samples = w.samples := by
  have hne : i ≠ v := by intro e; subst e; rw [hi.1] at hv; cases hv
  obtain ⟨refs', r1, _, _⟩ := retarget_some (v := v) (i := i) (elems := (w.objs i).elems) (refs := w.refs) (w.objs i).n
    fun k hk => by obtain ⟨r, _, a2, _, _, a5, _⟩ := (has_owner h hi).elem k hk; exact ⟨r, a2, a5⟩
  simp only [takeOver, r1]
  refine ⟨by simp [World.setObj, Ne.symm hne], by simp [World.setObj], fun x h1 h2 => by simp [World.setObj, h1, h2], ?_, ?_, ?_⟩
  all_goals rfl

theorem same_refl (o : Obj) : Same o o := ⟨rfl, rfl, rfl, rfl, fun _ _ => ⟨rfl, rfl, rfl⟩⟩

theorem step_move {w : World} (h : Inv w) {i : Nat} (ha : (w.objs i).alive = true) : step w (.move i) = move w i := by
  simp [step, h.fault, ha]

theorem step_destroy {w : World} (h : Inv w) {i : Nat} (ha : (w.objs i).alive = true) : step w (.destroy i) = destroy w i := by
  simp [step, h.fault, ha]

theorem step_assign {w : World} (h : Inv w) {i j : Nat} (ha : (w.objs i).alive = true) (hj : (w.objs j).alive = true)
    (hk : (w.objs i).kind = (w.objs j).kind) (hn : (w.objs i).n = (w.objs j).n) : step w (.assign i j) = assign w i j := by
  simp [step, h.fault, ha, hj, sameType, hk, hn]

theorem cleared_services {w c : World} {i : Nat} (hc : Cleared w c i) (ha : (w.objs i).alive = true) :
    (∀ t, Has w i t → ∀ k, c.active t k = false) ∧ (∀ t, Has w i t → c.opened t = false) ∧
      ∀ t, ¬ Has w i t → SameService w c t :=
  ⟨fun t ht => (hc.act2 t ht.2).1, fun t ht => (hc.act2 t ht.2).2, fun t ht => hc.act t fun e => ht ⟨ha, e⟩⟩

theorem noneHeld_of {w c : World} {i : Nat} (hc : Cleared w c i) : NoneHeld w i := fun k m hm => by
  obtain ⟨hk, r, hr, hcount⟩ := held_count hm
  exact hcount (hc.none k hk r hr)

/-- A checker for programs that are given outright. -/
def heldB (w : World) (v k : Nat) : Bool :=
  w.samples.any fun o => o.isSome && o == ((w.objs v).elems k).tracker

def tidyB (w : World) : Step → Bool
  | .move i => !((w.objs i).alive && (w.objs i).service.isNone)
  | .assign i j => i == j || (!((w.objs j).alive && (w.objs j).service.isNone) &&
      (List.range (w.objs i).n).all fun k => !heldB w i k)
  | .destroy i => (List.range (w.objs i).n).all fun k => !heldB w i k
  | .subscribe i _ => !((w.objs i).alive && (w.objs i).service.isNone)
  | .unsubscribe i k => !heldB w i k
  | .offer i => !((w.objs i).alive && (w.objs i).service.isNone)
  | _ => true

theorem heldB_of {w : World} {v k m : Nat} (h : HeldFrom w v k m) : heldB w v k = true := by
  obtain ⟨_, t, hm, ht⟩ := h
  refine List.any_eq_true.mpr ⟨some t, List.mem_of_getElem? hm, by simp [ht]⟩

theorem tidyB_tidy {w : World} {x : Step} (h : tidyB w x = true) : Tidy w x := by
  have hmf : ∀ i, (!((w.objs i).alive && (w.objs i).service.isNone)) = true → ¬ MovedFrom w i := by
    intro i hi hm; simp [hm.1, hm.2] at hi
  have hnh : ∀ i, ((List.range (w.objs i).n).all fun k => !heldB w i k) = true → NoneHeld w i := by
    intro i hi k m hm
    have := List.all_eq_true.mp hi k (List.mem_range.mpr hm.1)
    rw [heldB_of hm] at this; cases this
  cases x with
  | move i => exact hmf i h
  | assign i j =>
    simp only [tidyB, Bool.or_eq_true, beq_iff_eq] at h
    rcases h with h | h
    · exact Or.inl h
    · have h' := (Bool.and_eq_true _ _).mp h
      exact Or.inr ⟨hmf j h'.1, hnh i h'.2⟩
  | destroy i => exact hnh i h
  | subscribe i k => exact hmf i h
  | unsubscribe i k =>
    intro m hm
    simp only [tidyB, heldB_of hm] at h; cases h
  | offer i => exact hmf i h
  | create => trivial
  | stopOffer => trivial
  | hold => trivial
  | release => trivial

def allTidyB (w : World) : List Step → Bool
  | [] => true
  | x :: l => tidyB w x && allTidyB (step w x) l

theorem allTidyB_tidy {l : List Step} (h : allTidyB {} l = true) : AllTidy l := by
  have gen : ∀ (l : List Step) (w : World), allTidyB w l = true → ∀ a x b, l = a ++ x :: b → Tidy (a.foldl step w) x := by
    intro l
    induction l with
    | nil => intro w _ a x b hab; simp at hab
    | cons y l ih =>
      intro w hw a x b hab
      simp only [allTidyB, Bool.and_eq_true] at hw
      cases a with
      | nil => injection hab with h1 _; subst h1; exact tidyB_tidy hw.1
      | cons z a => injection hab with h1 h2; subst h1; exact ih _ hw.2 a x b h2
  exact gen l {} h

end Verif.Moving

namespace Verif.Demo.C105
open Verif.Moving Verif.Spec.Moving

/-- A proxy with two elements is moved while one element is subscribed and a sample of it is
held; a second proxy is there too, and a skeleton is offered and moved. -/
def prog : List Step :=
  [.create .proxy 2, .subscribe 0 1, .hold 0 1, .move 0, .create .proxy 2, .subscribe 2 0, .create .skeleton 2, .offer 3,
    .move 3]

theorem tidy : AllTidy prog := allTidyB_tidy (by decide +kernel)

theorem fine : (run prog).fault = none := by decide +kernel

theorem noneHeld_demo : NoneHeld (run prog) 2 := fun k m hm => by
  have hn : ((run prog).objs 2).n = 2 := by decide +kernel
  have hk := hm.1
  have h1 := heldB_of hm
  rw [hn] at hk
  have h2 : heldB (run prog) 2 0 = false := by decide +kernel
  have h3 : heldB (run prog) 2 1 = false := by decide +kernel
  match k, hk with
  | 0, _ => rw [h2] at h1; cases h1
  | 1, _ => rw [h3] at h1; cases h1

end Verif.Demo.C105

namespace Verif.Props.C105
open Verif.Moving Verif.Spec.Moving Verif.Demo.C105

/-- A tidy program never fails an assertion and never reaches into an object that is no more. -/
theorem no_fault_partial (l : List Step) (h : AllTidy l) : (run l).fault = none :=
  (tidy_inv _ l rfl h).fault

/-- The base object finds its own elements, wherever they have been moved; they are bound to the
service that the variable stands for, and what an element remembers is what the binding has. -/
theorem own_elements (l : List Step) (hf : (run l).fault = none) (v s k : Nat) (hv : Has (run l) v s)
    (hk : k < ((run l).objs v).n) :
    Finds (run l) v k v k ∧ (((run l).objs v).elems k).bind = some (s, k) ∧
      (((run l).objs v).elems k).flag = (run l).active s k := by
  have ho := has_owner (inv_of hf) hv
  obtain ⟨r, a1, _, _, a4, a5, _⟩ := ho.elem k hk
  exact ⟨⟨r, a1, a5⟩, a4, (ho.act k hk).symm⟩

/-- No two variables stand for the same service. -/
theorem one_variable (l : List Step) (hf : (run l).fault = none) (v x s : Nat) (hv : Has (run l) v s)
    (hx : Has (run l) x s) : v = x :=
  (inv_of hf).uniq v x s hv.1 hx.1 hv.2 hx.2

/-- A variable that was moved from has nothing left. -/
theorem moved_from_is_empty (l : List Step) (hf : (run l).fault = none) (v : Nat) (hv : MovedFrom (run l) v) :
    ((run l).objs v).offered = false ∧ ∀ k, ((run l).objs v).map k = none ∧ (((run l).objs v).elems k).bind = none ∧
      (((run l).objs v).elems k).flag = false ∧ (((run l).objs v).elems k).tracker = none := by
  have hb := (inv_of hf).blank hv.1 hv.2
  exact ⟨hb.offered, fun k => ⟨(hb.elem k).1, by rw [(hb.elem k).2], by rw [(hb.elem k).2], by rw [(hb.elem k).2]⟩⟩

/-- What is subscribed, offered or open belongs to a variable: nothing is left behind. -/
theorem nothing_is_left (l : List Step) (hf : (run l).fault = none) (s k : Nat)
    (h : (run l).active s k = true ∨ (run l).opened s = true) : ∃ v, Has (run l) v s := by
  rcases h with h | h
  · obtain ⟨v, h1, h2, _⟩ := (inv_of hf).act s k h; exact ⟨v, h1, h2⟩
  · obtain ⟨v, h1, h2⟩ := (inv_of hf).opn s h; exact ⟨v, h1, h2⟩

/-- A move gives everything to the new variable, and nothing changes for the service, for the
samples and for other variables. -/
theorem move_keeps (l : List Step) (hf : (run l).fault = none) (i s : Nat) (hi : Has (run l) i s) :
    let w := run l
    let w' := run (l ++ [.move i])
    w'.fault = none ∧ (w.objs w.nobj).alive = false ∧ Has w' w.nobj s ∧ Same (w.objs i) (w'.objs w.nobj) ∧ MovedFrom w' i ∧
      (∀ x, x ≠ i → x ≠ w.nobj → w'.objs x = w.objs x) ∧ (∀ t, SameService w w' t) ∧ w'.samples = w.samples := by
  have h := inv_of hf
  dsimp only
  rw [run_snoc]
  generalize run l = w at *
  have hdead : (w.objs w.nobj).alive = false := by
    cases hb : (w.objs w.nobj).alive with
    | false => rfl
    | true => exact absurd (h.lt _ hb) (Nat.lt_irrefl _)
  rw [step_move h hi.1]
  rcases move_inv h hi.1 with ⟨e, hinv⟩ | ⟨_, e⟩
  · obtain ⟨t1, t2, t3, t4, t5, t6⟩ := takeOver_has h hdead hi
    have hne : i ≠ w.nobj := by intro e; rw [← e] at hdead; rw [hi.1] at hdead; cases hdead
    refine ⟨hinv.fault, hdead, ?_, ?_, ?_, fun x h1 h2 => ?_, fun t => ?_, ?_⟩ <;> rw [e]
    · exact ⟨by show ((takeOver w w.nobj i).objs w.nobj).alive = true; rw [t1]; exact hi.1,
        by show ((takeOver w w.nobj i).objs w.nobj).service = some s; rw [t1]; exact hi.2⟩
    · show Same (w.objs i) ((takeOver w w.nobj i).objs w.nobj)
      rw [t1]; exact same_refl _
    · exact ⟨by show ((takeOver w w.nobj i).objs i).alive = true; rw [t2]; exact hi.1,
        by show ((takeOver w w.nobj i).objs i).service = none; rw [t2]; rfl⟩
    · exact t3 x h2 h1
    · exact ⟨fun k => by show (takeOver w w.nobj i).active t k = _; rw [t4], by show (takeOver w w.nobj i).opened t = _; rw [t5]⟩
    · exact t6
  · rw [hi.2] at e; cases e

/-- A move assignment ends what the variable had - its service is no more subscribed, offered or
open - and gives it everything of the other one; nothing changes for other services, for the
samples and for other variables. -/
theorem assign_replaces (l : List Step) (hf : (run l).fault = none) (i j s : Nat) (hne : i ≠ j)
    (hi : ((run l).objs i).alive = true) (hj : Has (run l) j s) (hk : ((run l).objs i).kind = ((run l).objs j).kind)
    (hn : ((run l).objs i).n = ((run l).objs j).n) (hh : NoneHeld (run l) i) :
    let w := run l
    let w' := run (l ++ [.assign i j])
    w'.fault = none ∧ Has w' i s ∧ Same (w.objs j) (w'.objs i) ∧ MovedFrom w' j ∧
      (∀ t, Has w i t → (∀ k, w'.active t k = false) ∧ w'.opened t = false) ∧ (∀ t, ¬ Has w i t → SameService w w' t) ∧
      (∀ x, x ≠ i → x ≠ j → w'.objs x = w.objs x) ∧ w'.samples = w.samples := by
  have h := inv_of hf
  dsimp only
  rw [run_snoc]
  generalize run l = w at *
  rw [step_assign h hi hj.1 hk hn]
  rcases assign_inv h hi hj.1 hne with ⟨c, hc, e, hci, hinv⟩ | ⟨_, k, m, hm⟩ | ⟨_, e⟩
  · have hoj : (c.setObj i {}).objs j = w.objs j := by simp [World.setObj, Ne.symm hne, hc.objs j (Ne.symm hne)]
    have hjc : Has (c.setObj i {}) j s := ⟨by rw [hoj]; exact hj.1, by rw [hoj]; exact hj.2⟩
    obtain ⟨t1, t2, t3, t4, t5, t6⟩ := takeOver_has hci (v := i) (by simp [World.setObj]) hjc
    rw [hoj] at t1 t2
    obtain ⟨c1, c2, c3⟩ := cleared_services hc hi
    refine ⟨hinv.fault, ?_, ?_, ?_, fun t ht => ⟨fun k => ?_, ?_⟩, fun t ht => ⟨fun k => ?_, ?_⟩, fun x h1 h2 => ?_, ?_⟩ <;> rw [e]
    · exact ⟨by rw [t1]; exact hj.1, by rw [t1]; exact hj.2⟩
    · rw [t1]; exact same_refl _
    · exact ⟨by rw [t2]; exact hj.1, by rw [t2]; rfl⟩
    · rw [t4]; exact c1 t ht k
    · rw [t5]; exact c2 t ht
    · rw [t4]; exact (c3 t ht).1 k
    · rw [t5]; exact (c3 t ht).2
    · rw [t3 x h1 h2]
      simp [World.setObj, h1, hc.objs x h1]
    · rw [t6]; exact hc.samples
  · exact absurd hm (hh k m)
  · rw [hj.2] at e; cases e

/-- An assignment of a variable to itself is nothing. -/
theorem assign_self (l : List Step) (i : Nat) : run (l ++ [.assign i i]) = run l := by
  rw [run_snoc]
  simp only [step, assign, if_true]
  split
  · rfl
  · split <;> rfl

/-- The end of a variable ends what it had, and nothing else. -/
theorem destroy_ends (l : List Step) (hf : (run l).fault = none) (i : Nat) (hi : ((run l).objs i).alive = true)
    (hh : NoneHeld (run l) i) :
    let w := run l
    let w' := run (l ++ [.destroy i])
    w'.fault = none ∧ (w'.objs i).alive = false ∧
      (∀ t, Has w i t → (∀ k, w'.active t k = false) ∧ w'.opened t = false) ∧ (∀ t, ¬ Has w i t → SameService w w' t) ∧
      (∀ x, x ≠ i → w'.objs x = w.objs x) ∧ w'.samples = w.samples := by
  have h := inv_of hf
  dsimp only
  rw [run_snoc]
  generalize run l = w at *
  rw [step_destroy h hi]
  rcases destroy_inv h hi with ⟨hc, e, hinv⟩ | ⟨_, k, m, hm⟩
  · obtain ⟨c1, c2, c3⟩ := cleared_services hc hi
    refine ⟨hinv.fault, ?_, fun t ht => ⟨fun k => ?_, ?_⟩, fun t ht => ⟨fun k => ?_, ?_⟩, fun x h1 => ?_, ?_⟩ <;> rw [e]
    · simp [World.setObj]
    · exact c1 t ht k
    · exact c2 t ht
    · exact (c3 t ht).1 k
    · exact (c3 t ht).2
    · simp [World.setObj, h1, hc.objs x h1]
    · exact hc.samples
  · exact absurd hm (hh k m)

/-- A sample does not outlive its element, wherever that has been moved: the process ends rather
than that the element does. -/
theorem held_sample_blocks (l : List Step) (hf : (run l).fault = none) (i k m : Nat)
    (hi : ((run l).objs i).alive = true) (hm : HeldFrom (run l) i k m) :
    (run (l ++ [.destroy i])).fault = some .assertion ∧
      (∀ j s, i ≠ j → Has (run l) j s → ((run l).objs i).kind = ((run l).objs j).kind →
        ((run l).objs i).n = ((run l).objs j).n → (run (l ++ [.assign i j])).fault = some .assertion) ∧
      (((run l).objs i).kind = .proxy → (run (l ++ [.unsubscribe i k])).fault = some .assertion) := by
  have h := inv_of hf
  simp only [run_snoc]
  generalize run l = w at *
  refine ⟨?_, fun j s hne hj hk hn => ?_, fun hp => ?_⟩
  · rw [step_destroy h hi]
    rcases destroy_inv h hi with ⟨hc, _⟩ | ⟨e, _⟩
    · exact absurd hm (noneHeld_of hc k m)
    · exact e
  · rw [step_assign h hi hj.1 hk hn]
    rcases assign_inv h hi hj.1 hne with ⟨c, hc, _⟩ | ⟨e, _⟩ | ⟨_, e⟩
    · exact absurd hm (noneHeld_of hc k m)
    · exact e
    · rw [hj.2] at e; cases e
  · have : step w (.unsubscribe i k) = stopElem w i k := by simp [step, hf, hi, hp, hm.1]
    rw [this]
    obtain ⟨hk, r, hr, hcount⟩ := held_count hm
    rcases unsubscribe_inv h hi hp hk with ⟨_, e, _⟩ | ⟨e, _⟩
    · exact absurd (e r hr) hcount
    · exact e

/-- A sample can always be given back. -/
theorem release_is_fine (l : List Step) (hf : (run l).fault = none) (m : Nat) :
    (run (l ++ [.release m])).fault = none ∧ ∀ v k, ¬ HeldFrom (run (l ++ [.release m])) v k m := by
  have h := inv_of hf
  simp only [run_snoc]
  generalize run l = w at *
  have hs : step w (.release m) = release w m := by simp [step, hf]
  rw [hs]
  have hinv := release_inv h m
  refine ⟨hinv.fault, fun v k hh => ?_⟩
  obtain ⟨_, t, ht, _⟩ := hh
  unfold release at ht hinv
  cases hm : w.samples[m]? with
  | none => simp only [hm] at ht; cases ht
  | some o =>
    cases o with
    | none => simp only [hm] at ht; cases ht
    | some u =>
      simp only [hm] at ht hinv
      cases hu : w.trks u with
      | none => simp only [hu] at hinv; have := hinv.fault; cases this
      | some c =>
        cases c with
        | zero => simp only [hu] at hinv; have := hinv.fault; cases this
        | succ c =>
          simp only [hu] at ht
          have hlt := (List.getElem?_eq_some_iff.mp hm).1
          rw [List.getElem?_set_self hlt] at ht
          cases ht

/-- `OfferService` offers the elements of this skeleton, and of no other. -/
theorem offer_is_own (l : List Step) (hf : (run l).fault = none) (i s : Nat) (hi : Has (run l) i s)
    (hk : ((run l).objs i).kind = .skeleton) (ho : ((run l).objs i).offered = false) :
    let w := run l
    let w' := run (l ++ [.offer i])
    w'.fault = none ∧ Has w' i s ∧ (w'.objs i).offered = true ∧ w'.opened s = true ∧
      (∀ k, k < (w.objs i).n → w'.active s k = true) ∧ (∀ t, t ≠ s → SameService w w' t) ∧
      ∀ x, x ≠ i → w'.objs x = w.objs x := by
  have h := inv_of hf
  dsimp only
  simp only [run_snoc]
  generalize run l = w at *
  have hs : step w (.offer i) = offer w i := by simp [step, hf, hi.1, hk, ho]
  rw [hs]
  rcases offer_inv h hi.1 hk with ⟨s', e, hinv, e2⟩ | ⟨_, e⟩
  · rw [hi.2] at e; injection e with e; subst e
    refine ⟨hinv.fault, ?_, ?_, ?_, fun k hk => ?_, fun t ht => ⟨fun k => ?_, ?_⟩, fun x hx => ?_⟩ <;> rw [e2]
    · exact ⟨by simp [World.setObj, flags_obj, hi.1], by simp [World.setObj, flags_obj, hi.2]⟩
    · simp [World.setObj]
    · simp [World.setObj, World.setOpened]
    · show (if s = s ∧ k < (w.objs i).n then true else w.active s k) = true
      simp [hk]
    · show (if t = s ∧ k < (w.objs i).n then true else w.active t k) = w.active t k
      simp [ht]
    · simp [World.setObj, World.setOpened, ht]
    · simp [World.setObj, World.setOpened, hx, flags_other hx]
  · rw [hi.2] at e; cases e

/-- `StopOfferService` withdraws the elements of this skeleton, and of no other. -/
theorem stop_offer_is_own (l : List Step) (hf : (run l).fault = none) (i s : Nat) (hi : Has (run l) i s)
    (hk : ((run l).objs i).kind = .skeleton) :
    let w := run l
    let w' := run (l ++ [.stopOffer i])
    w'.fault = none ∧ Has w' i s ∧ (w'.objs i).offered = false ∧ w'.opened s = false ∧
      (∀ k, w'.active s k = false) ∧ (∀ t, t ≠ s → SameService w w' t) ∧ ∀ x, x ≠ i → w'.objs x = w.objs x := by
  have h := inv_of hf
  dsimp only
  simp only [run_snoc]
  generalize run l = w at *
  have hs : step w (.stopOffer i) = stopOffer w i := by simp [step, hf, hi.1, hk]
  rw [hs]
  obtain ⟨hinv, ⟨_, e⟩ | ⟨s', e, e2⟩⟩ := stopOffer_inv h hi.1 hk
  · rw [hi.2] at e; cases e
  · rw [hi.2] at e; injection e with e; subst e
    refine ⟨hinv.fault, ?_, ?_, ?_, fun k => ?_, fun t ht => ⟨fun k => ?_, ?_⟩, fun x hx => ?_⟩ <;> rw [e2]
    · exact ⟨by simp [World.retired, World.setObj, flags_obj, hi.1], by simp [World.retired, World.setObj, flags_obj, hi.2]⟩
    · simp [World.retired, World.setObj]
    · simp [World.retired, World.setObj, World.setOpened]
    · exact retired_act h hi.1 hi.2 k
    · show (if t = s ∧ k < (w.objs i).n then false else w.active t k) = w.active t k
      simp [ht]
    · simp [World.retired, World.setObj, World.setOpened, ht]
    · simp [World.retired, World.setObj, World.setOpened, hx, flags_other hx]

/-- `Subscribe` and `Unsubscribe` reach exactly this element of this service. -/
theorem subscribe_is_own (l : List Step) (hf : (run l).fault = none) (i s k : Nat) (hi : Has (run l) i s)
    (hp : ((run l).objs i).kind = .proxy) (hk : k < ((run l).objs i).n) :
    let w := run l
    let w' := run (l ++ [.subscribe i k])
    w'.fault = none ∧ w'.active s k = true ∧ (∀ t j, (t, j) ≠ (s, k) → w'.active t j = w.active t j) ∧
      w'.opened = w.opened := by
  have h := inv_of hf
  dsimp only
  simp only [run_snoc]
  generalize run l = w at *
  have hs : step w (.subscribe i k) = startElem w i k := by simp [step, hf, hi.1, hp, hk]
  rw [hs]
  rcases subscribe_inv h hi.1 hp hk with ⟨s', e, e2, hinv⟩ | ⟨_, e⟩
  · rw [hi.2] at e; injection e with e; subst e
    refine ⟨hinv.fault, ?_, fun t j htj => ?_, ?_⟩ <;> rw [e2]
    · show (if s = s ∧ k = k then true else w.active s k) = true
      simp
    · show (if t = s ∧ j = k then true else w.active t j) = w.active t j
      rw [if_neg]; rintro ⟨rfl, rfl⟩; exact htj rfl
    · rfl
  · rw [hi.2] at e; cases e

theorem unsubscribe_is_own (l : List Step) (hf : (run l).fault = none) (i s k : Nat) (hi : Has (run l) i s)
    (hp : ((run l).objs i).kind = .proxy) (hk : k < ((run l).objs i).n) (hh : ∀ m, ¬ HeldFrom (run l) i k m) :
    let w := run l
    let w' := run (l ++ [.unsubscribe i k])
    w'.fault = none ∧ w'.active s k = false ∧ (∀ t j, (t, j) ≠ (s, k) → w'.active t j = w.active t j) ∧
      w'.opened = w.opened := by
  have h := inv_of hf
  dsimp only
  simp only [run_snoc]
  generalize run l = w at *
  have hs : step w (.unsubscribe i k) = stopElem w i k := by simp [step, hf, hi.1, hp, hk]
  rw [hs]
  rcases unsubscribe_inv h hi.1 hp hk with ⟨hinv, _, ⟨e, hfl⟩ | ⟨s', e, e2⟩⟩ | ⟨_, r, hr, hcount⟩
  · rw [e]
    exact ⟨hf, ((has_owner h hi).act k hk).trans hfl, fun _ _ _ => rfl, rfl⟩
  · rw [hi.2] at e; injection e with e; subst e
    refine ⟨hinv.fault, ?_, fun t j htj => ?_, ?_⟩ <;> rw [e2]
    · show (if s = s ∧ k = k then false else w.active s k) = false
      simp
    · show (if t = s ∧ j = k then false else w.active t j) = w.active t j
      rw [if_neg]; rintro ⟨rfl, rfl⟩; exact htj rfl
    · rfl
  · obtain ⟨m, hm⟩ := count_held hk hr hcount
    exact absurd hm (hh m)

/-- **Violated.** A variable that was moved from cannot be moved again, as `std::swap` or the
growth of a `std::vector` does: the reference that should be updated is null. -/
theorem move_again_fails :
    (run [.create .proxy 1, .move 0, .move 0]).fault = some .undefined ∧
      (run [.create .skeleton 1, .create .skeleton 1, .move 0, .assign 1 0]).fault = some .undefined := by
  decide +kernel

/-- **Violated.** A call on a variable that was moved from does not return an error. -/
theorem call_moved_from_fails :
    (run [.create .skeleton 1, .move 0, .offer 0]).fault = some .undefined ∧
      (run [.create .proxy 1, .move 0, .subscribe 0 0]).fault = some .undefined := by
  decide +kernel

/-! ## Cases that meet the hypotheses -/

example : (run prog).fault = none := no_fault_partial _ tidy

/-- Variable 1 was made from variable 0, and the element that is subscribed is found in it. -/
example : Has (run prog) 1 0 ∧ Finds (run prog) 1 1 1 1 ∧ (((run prog).objs 1).elems 1).flag = true ∧ MovedFrom (run prog) 0 :=
  ⟨by decide +kernel, (own_elements prog fine 1 0 1 (by decide +kernel) (by decide +kernel)).1, by decide +kernel,
    by decide +kernel⟩

/-- A sample that was obtained before the move still keeps the element from ending. -/
example : (run (prog ++ [.destroy 1])).fault = some .assertion :=
  (held_sample_blocks prog fine 1 1 0 (by decide +kernel) ⟨by decide +kernel, 1, by decide +kernel, by decide +kernel⟩).1

example : Has (run (prog ++ [.move 2])) 5 1 := (move_keeps prog fine 2 1 (by decide +kernel)).2.2.1

/-- Variable 2 takes over service 0 and gives up service 1. -/
example : Has (run (prog ++ [.assign 2 1])) 2 0 ∧ (run (prog ++ [.assign 2 1])).active 1 0 = false ∧
    (run (prog ++ [.assign 2 1])).active 0 1 = (run prog).active 0 1 := by
  have h := assign_replaces prog fine 2 1 0 (by decide) (by decide +kernel) (by decide +kernel) (by decide +kernel)
    (by decide +kernel) noneHeld_demo
  exact ⟨h.2.1, (h.2.2.2.2.1 1 (by decide +kernel)).1 0, (h.2.2.2.2.2.1 0 (by decide +kernel)).1 1⟩

example : (run (prog ++ [.destroy 2])).active 1 0 = false ∧ (run prog).active 1 0 = true :=
  ⟨((destroy_ends prog fine 2 (by decide +kernel) noneHeld_demo).2.2.1 1 (by decide +kernel)).1 0, by decide +kernel⟩

example : (run (prog ++ [.stopOffer 4])).active 2 1 = false ∧ (run prog).active 2 1 = true :=
  ⟨(stop_offer_is_own prog fine 4 2 (by decide +kernel) (by decide +kernel)).2.2.2.2.1 1, by decide +kernel⟩

example : (run (prog ++ [.stopOffer 4] ++ [.offer 4])).active 2 1 = true :=
  (offer_is_own (prog ++ [.stopOffer 4]) (by decide +kernel) 4 2 (by decide +kernel) (by decide +kernel)
    (by decide +kernel)).2.2.2.2.1 1 (by decide +kernel)

example : (run (prog ++ [.subscribe 2 1])).active 1 1 = true ∧ (run prog).active 1 1 = false :=
  ⟨(subscribe_is_own prog fine 2 1 1 (by decide +kernel) (by decide +kernel) (by decide +kernel)).2.1, by decide +kernel⟩

example : (run (prog ++ [.unsubscribe 2 0])).active 1 0 = false :=
  (unsubscribe_is_own prog fine 2 1 0 (by decide +kernel) (by decide +kernel) (by decide +kernel) (noneHeld_demo 0)).2.1

example : (run (prog ++ [.release 0])).fault = none := (release_is_fine prog fine 0).1

example : ∃ v, Has (run prog) v 1 := nothing_is_left prog fine 1 0 (Or.inl (by decide +kernel))

end Verif.Props.C105
