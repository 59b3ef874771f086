import Verif.Spec.QnxPoll

namespace Verif.QnxPollProofs
open Verif.QnxPoll Verif.QnxPollSpec

theorem unpack_pack (i sig n : Nat) (hi : i < 2 ^ 32) (hs : sig < 2 ^ 16) (hn : n < 2 ^ 16) :
    unpack (pack i sig n) = (i, sig, n) := by
  unfold unpack pack
  simp only [Nat.shiftLeft_eq, Nat.shiftRight_eq_div_pow, Nat.and_two_pow_sub_one_eq_mod]
  refine Prod.ext ?_ (Prod.ext ?_ ?_) <;> dsimp only <;> omega

structure Inv (s : State) : Prop where
  len : s.slots.length < 2 ^ 32
  nonce : ∀ (i : Nat) (x : Slot), s.slots[i]? = some x → x.nonce = x.uses % 2 ^ 16
  last : ∀ (i : Nat) (x : Slot), s.slots[i]? = some x → s.vals[x.last]? = some (some (i, x.uses))
  own : ∀ (i : Nat) (x : Slot) (q : Nat), s.slots[i]? = some x → x.ep = some q → x.last = q ∧ Registered s q
  val : ∀ r i u : Nat, s.vals[r]? = some (some (i, u)) → ∃ x : Slot, s.slots[i]? = some x ∧ u ≤ x.uses ∧
    x.uses + r ≤ x.last + u ∧ (u = x.uses → r = x.last)
  reg : ∀ r i u : Nat, s.vals[r]? = some (some (i, u)) → Registered s r → ∃ x : Slot, s.slots[i]? = some x ∧ x.ep = some r
  one : ∀ r o o' : Nat, (r, o) ∈ s.eps → (r, o') ∈ s.eps → o = o'
  old : ∀ r : Nat, Registered s r → r < s.vals.length
  pul : ∀ p ∈ s.pulses, ∃ i u : Nat, s.vals[p.to]? = some (some (i, u)) ∧ p.value = pack i (signal p.ping) (u % 2 ^ 16)

theorem inv_start : Inv start := by
  refine ⟨by simp [start], ?_, ?_, ?_, ?_, ?_, ?_, ?_, ?_⟩ <;> simp [start, Registered]

theorem signal_lt (b : Bool) : signal b < 2 ^ 16 := by cases b <;> decide

/-- The heart of it: a matching slot belongs to the registration, unless the nonce has come round. -/
theorem target_of {s : State} (h : Inv s) {p : Pulse} (hp : p ∈ s.pulses)
    (hnew : s.vals.length ≤ p.to + 2 ^ 16) {c : Call} (ht : target s p.value = some c) :
    c = meant p ∧ Registered s p.to := by
  obtain ⟨i, u, hv, hval⟩ := h.pul p hp
  obtain ⟨x, hx, hu, hr, hl⟩ := h.val _ _ _ hv
  have hi : i < s.slots.length := (List.getElem?_eq_some_iff.1 hx).1
  have hlen := h.len
  rw [hval] at ht
  unfold target at ht
  rw [unpack_pack i _ _ (by omega) (signal_lt _) (Nat.mod_lt _ (by decide))] at ht
  dsimp only at ht
  rw [hx] at ht
  dsimp only at ht
  by_cases hne : x.nonce ≠ u % 2 ^ 16
  · rw [if_pos hne] at ht; simp at ht
  rw [if_neg hne] at ht
  have hnon := h.nonce _ _ hx
  cases hep : x.ep with
  | none => simp [hep] at ht
  | some q =>
    simp only [hep, Option.map_some, Option.some.injEq] at ht
    obtain ⟨hlq, hreg⟩ := h.own _ _ _ hx hep
    have hq := h.old _ hreg
    have hu' : u = x.uses := by
      have : x.nonce = u % 2 ^ 16 := by simpa using hne
      omega
    have := hl hu'
    subst ht
    refine ⟨?_, by rw [this, hlq]; exact hreg⟩
    unfold meant signal
    rw [this, ← hlq]
    cases p.ping <;> simp

theorem target_live {s : State} (h : Inv s) {p : Pulse} (hp : p ∈ s.pulses) (hr : Registered s p.to) :
    target s p.value = some (meant p) := by
  obtain ⟨i, u, hv, hval⟩ := h.pul p hp
  obtain ⟨x, hx, hep⟩ := h.reg _ _ _ hv hr
  obtain ⟨x', hx', hu, hr', hl⟩ := h.val _ _ _ hv
  rw [hx] at hx'; cases hx'
  have hi : i < s.slots.length := (List.getElem?_eq_some_iff.1 hx).1
  have hlen := h.len
  have hlast := (h.own _ _ _ hx hep).1
  have hv2 := h.last _ _ hx
  rw [hlast, hv] at hv2
  simp only [Option.some.injEq, Prod.mk.injEq, true_and] at hv2
  rw [hval]
  unfold target
  rw [unpack_pack i _ _ (by omega) (signal_lt _) (Nat.mod_lt _ (by decide))]
  dsimp only
  rw [hx]
  dsimp only
  rw [if_neg (by rw [h.nonce _ _ hx, hv2]; simp), hep]
  unfold meant signal
  cases p.ping <;> simp

/-! ### Steps -/

theorem get_snoc {α : Type} {l : List α} {a b : α} {n : Nat} (h : (l ++ [a])[n]? = some b) :
    l[n]? = some b ∨ (n = l.length ∧ b = a) := by
  rw [List.getElem?_append] at h
  split at h
  · exact .inl h
  · rename_i hn
    have : n - l.length = 0 := by
      cases hk : n - l.length with
      | zero => rfl
      | succ k => rw [hk] at h; simp at h
    rw [this] at h
    simp at h
    exact .inr ⟨by omega, h.symm⟩

theorem get_snoc_of {α : Type} {l : List α} {a b : α} {n : Nat} (h : l[n]? = some b) : (l ++ [a])[n]? = some b := by
  have := (List.getElem?_eq_some_iff.1 h).1
  rw [List.getElem?_append_left this]; exact h

theorem inv_register {s : State} (h : Inv s) (o : Nat) : Inv (register s o) := by
  have hreg : ∀ {sl ep' vl pu ca} {r}, Registered ⟨sl, s.eps ++ [(ep', o)], vl, pu, ca⟩ r →
      Registered s r ∨ r = ep' := by
    intro sl ep' vl pu ca r hr
    obtain ⟨w, hw⟩ := hr
    simp at hw
    rcases hw with hw | hw
    · exact .inl ⟨w, hw⟩
    · exact .inr hw.1
  have hreg' : ∀ {sl ep' vl pu ca} {r}, Registered s r → Registered ⟨sl, s.eps ++ [(ep', o)], vl, pu, ca⟩ r := by
    intro sl ep' vl pu ca r hr
    obtain ⟨w, hw⟩ := hr
    exact ⟨w, by simp [hw]⟩
  have hself : ∀ {sl ep' vl pu ca}, Registered ⟨sl, s.eps ++ [(ep', o)], vl, pu, ca⟩ ep' := fun {_ _ _ _ _} => ⟨o, by simp⟩
  have hvlt : ∀ {r : Nat} {v}, s.vals[r]? = some v → r < s.vals.length := fun hv => (List.getElem?_eq_some_iff.1 hv).1
  have hone : ∀ r w w' : Nat, (r, w) ∈ s.eps ++ [(s.vals.length, o)] → (r, w') ∈ s.eps ++ [(s.vals.length, o)] → w = w' := by
    intro r w w' h1 h2
    have hno : ∀ v, (s.vals.length, v) ∈ s.eps → False := fun v hv => by have := h.old _ ⟨v, hv⟩; omega
    simp at h1 h2
    rcases h1 with h1 | ⟨rfl, rfl⟩
    · rcases h2 with h2 | ⟨rfl, rfl⟩
      · exact h.one _ _ _ h1 h2
      · exact (hno _ h1).elim
    · rcases h2 with h2 | ⟨_, rfl⟩
      · exact (hno _ h2).elim
      · rfl
  unfold register
  dsimp only
  split
  · rename_i i hi
    obtain ⟨hlt, hfree, -⟩ := List.findIdx?_eq_some_iff_getElem.1 hi
    have hxi : s.slots[i]? = some s.slots[i] := List.getElem?_eq_getElem hlt
    rw [hxi]
    dsimp only
    generalize hx : s.slots[i] = x at *
    have hxfree : x.ep = none := by simpa using hfree
    have hlast := hvlt (h.last _ _ hxi)
    have hset : ∀ j y, (s.slots.set i { ep := some s.vals.length, nonce := (x.nonce + 1) % 2 ^ 16, uses := x.uses + 1, last := s.vals.length })[j]? = some y →
        (j = i ∧ y = { ep := some s.vals.length, nonce := (x.nonce + 1) % 2 ^ 16, uses := x.uses + 1, last := s.vals.length }) ∨ (j ≠ i ∧ s.slots[j]? = some y) := by
      intro j y hy
      by_cases hj : j = i
      · subst hj
        rw [List.getElem?_set_self hlt] at hy
        simp only [Option.some.injEq] at hy
        exact .inl ⟨rfl, hy.symm⟩
      · rw [List.getElem?_set_ne (Ne.symm hj)] at hy
        exact .inr ⟨hj, hy⟩
    refine ⟨by simpa using h.len, ?_, ?_, ?_, ?_, ?_, hone, ?_, ?_⟩
    · intro j y hy
      rcases hset j y hy with ⟨rfl, rfl⟩ | ⟨_, hy⟩
      · have := h.nonce _ _ hxi
        dsimp only; omega
      · exact h.nonce _ _ hy
    · intro j y hy
      rcases hset j y hy with ⟨rfl, rfl⟩ | ⟨_, hy⟩
      · simp
      · exact get_snoc_of (h.last _ _ hy)
    · intro j y q hy hq
      rcases hset j y hy with ⟨rfl, rfl⟩ | ⟨_, hy⟩
      · simp only [Option.some.injEq] at hq
        subst hq
        exact ⟨rfl, hself⟩
      · obtain ⟨h1, h2⟩ := h.own _ _ _ hy hq
        exact ⟨h1, hreg' h2⟩
    · intro r j u hv
      rcases get_snoc hv with hv | ⟨hr, he⟩
      · obtain ⟨y, hy, h1, h2, h3⟩ := h.val _ _ _ hv
        by_cases hj : j = i
        · subst hj
          rw [hxi] at hy; cases hy
          refine ⟨_, List.getElem?_set_self hlt, ?_, ?_, ?_⟩
          · dsimp only; omega
          · dsimp only; omega
          · dsimp only; intro he; omega
        · exact ⟨y, by rw [List.getElem?_set_ne (Ne.symm hj)]; exact hy, h1, h2, h3⟩
      · simp only [Option.some.injEq, Prod.mk.injEq] at he
        obtain ⟨rfl, rfl⟩ := he
        exact ⟨_, List.getElem?_set_self hlt, Nat.le_refl _, by dsimp only; omega, fun _ => hr⟩
    · intro r j u hv hr
      rcases get_snoc hv with hv | ⟨hr', he⟩
      · have hr2 : Registered s r := by
          rcases hreg hr with h1 | h1
          · exact h1
          · have := hvlt hv; omega
        obtain ⟨y, hy, hyr⟩ := h.reg _ _ _ hv hr2
        have hj : j ≠ i := by
          intro hj; subst hj
          rw [hxi] at hy; cases hy
          simp [hxfree] at hyr
        exact ⟨y, by rw [List.getElem?_set_ne (Ne.symm hj)]; exact hy, hyr⟩
      · simp only [Option.some.injEq, Prod.mk.injEq] at he
        obtain ⟨rfl, rfl⟩ := he
        exact ⟨_, List.getElem?_set_self hlt, by simp [hr']⟩
    · intro r hr
      simp only [List.length_append, List.length_singleton]
      rcases hreg hr with h1 | h1
      · have := h.old _ h1; omega
      · omega
    · intro p hp
      obtain ⟨j, u, hv, he⟩ := h.pul p hp
      exact ⟨j, u, get_snoc_of hv, he⟩
  · rename_i hnone
    split
    · refine ⟨h.len, h.nonce, fun j y hy => get_snoc_of (h.last _ _ hy), ?_, ?_, ?_, hone, ?_, ?_⟩
      · intro j y q hy hq
        obtain ⟨h1, h2⟩ := h.own _ _ _ hy hq
        exact ⟨h1, hreg' h2⟩
      · intro r j u hv
        rcases get_snoc hv with hv | ⟨hr, he⟩
        · exact h.val _ _ _ hv
        · simp at he
      · intro r j u hv hr
        rcases get_snoc hv with hv | ⟨hr', he⟩
        · have hr2 : Registered s r := by
            rcases hreg hr with h1 | h1
            · exact h1
            · have := hvlt hv; omega
          exact h.reg _ _ _ hv hr2
        · simp at he
      · intro r hr
        simp only [List.length_append, List.length_singleton]
        rcases hreg hr with h1 | h1
        · have := h.old _ h1; omega
        · omega
      · intro p hp
        obtain ⟨j, u, hv, he⟩ := h.pul p hp
        exact ⟨j, u, get_snoc_of hv, he⟩
    · rename_i hfull
      have hlen := h.len
      refine ⟨?_, ?_, ?_, ?_, ?_, ?_, hone, ?_, ?_⟩
      · simp only [List.length_append, List.length_singleton]; omega
      · intro j y hy
        rcases get_snoc hy with hy | ⟨_, rfl⟩
        · exact h.nonce _ _ hy
        · rfl
      · intro j y hy
        rcases get_snoc hy with hy | ⟨rfl, rfl⟩
        · exact get_snoc_of (h.last _ _ hy)
        · simp
      · intro j y q hy hq
        rcases get_snoc hy with hy | ⟨_, rfl⟩
        · obtain ⟨h1, h2⟩ := h.own _ _ _ hy hq
          exact ⟨h1, hreg' h2⟩
        · simp only [Option.some.injEq] at hq
          subst hq
          exact ⟨rfl, hself⟩
      · intro r j u hv
        rcases get_snoc hv with hv | ⟨hr, he⟩
        · obtain ⟨y, hy, hh⟩ := h.val _ _ _ hv
          exact ⟨y, get_snoc_of hy, hh⟩
        · simp only [Option.some.injEq, Prod.mk.injEq] at he
          obtain ⟨rfl, rfl⟩ := he
          exact ⟨{ ep := some s.vals.length, nonce := 0, uses := 0, last := s.vals.length }, by simp, Nat.le_refl _, by dsimp only; omega, fun _ => hr⟩
      · intro r j u hv hr
        rcases get_snoc hv with hv | ⟨hr', he⟩
        · have hr2 : Registered s r := by
            rcases hreg hr with h1 | h1
            · exact h1
            · have := hvlt hv; omega
          obtain ⟨y, hy, hyr⟩ := h.reg _ _ _ hv hr2
          exact ⟨y, get_snoc_of hy, hyr⟩
        · simp only [Option.some.injEq, Prod.mk.injEq] at he
          obtain ⟨rfl, rfl⟩ := he
          exact ⟨{ ep := some s.vals.length, nonce := 0, uses := 0, last := s.vals.length }, by simp, by simp [hr']⟩
      · intro r hr
        simp only [List.length_append, List.length_singleton]
        rcases hreg hr with h1 | h1
        · have := h.old _ h1; omega
        · omega
      · intro p hp
        obtain ⟨j, u, hv, he⟩ := h.pul p hp
        exact ⟨j, u, get_snoc_of hv, he⟩

/-! ### Removing endpoints -/

/-- The slots of some endpoints are given up. -/
def clr (l : List (Nat × Nat)) (x : Slot) : Slot :=
  if l.any (fun e => x.ep == some e.1) then { x with ep := none } else x

/-- No endpoint is in two slots. -/
def Uniq (l : List Slot) : Prop :=
  ∀ (i j : Nat) (x y : Slot) (q : Nat), l[i]? = some x → l[j]? = some y → x.ep = some q → y.ep = some q → i = j

theorem uniq_of {s : State} (h : Inv s) : Uniq s.slots := by
  intro i j x y q hx hy hxq hyq
  have h1 := h.last _ _ hx
  have h2 := h.last _ _ hy
  rw [(h.own _ _ _ hx hxq).1] at h1
  rw [(h.own _ _ _ hy hyq).1, h1] at h2
  simp at h2
  exact h2.1

theorem clr_ep (l : List (Nat × Nat)) (x : Slot) (q : Nat) : (clr l x).ep = some q →
    x.ep = some q ∧ clr l x = x ∧ ∀ o, (q, o) ∉ l := by
  unfold clr
  split
  · simp
  · rename_i hn
    intro hq
    refine ⟨hq, rfl, fun o ho => hn (List.any_eq_true.2 ⟨(q, o), ho, by simp [hq]⟩)⟩

theorem uniq_clr {l : List Slot} (h : Uniq l) (k : List (Nat × Nat)) : Uniq (l.map (clr k)) := by
  intro i j x y q hx hy hxq hyq
  simp only [List.getElem?_map, Option.map_eq_some_iff] at hx hy
  obtain ⟨x', hx', rfl⟩ := hx
  obtain ⟨y', hy', rfl⟩ := hy
  exact h i j x' y' q hx' hy' (clr_ep _ _ _ hxq).1 (clr_ep _ _ _ hyq).1

theorem unselect_eq {s : State} (h : Uniq s.slots) (e : Nat × Nat) :
    unselect s e.1 = { s with slots := s.slots.map (clr [e]), calls := s.calls ++ [.disconnect e.1] } := by
  unfold unselect
  have : (match s.slots.findIdx? (·.ep == some e.1) with
      | some i => s.slots.modify i fun x => { x with ep := none }
      | none => s.slots) = s.slots.map (clr [e]) := by
    cases hf : s.slots.findIdx? (·.ep == some e.1) with
    | none =>
      dsimp only
      rw [List.findIdx?_eq_none_iff] at hf
      refine List.ext_getElem? fun j => ?_
      rw [List.getElem?_map]
      cases hx : s.slots[j]? with
      | none => rfl
      | some x =>
        have := hf x (List.mem_of_getElem? hx)
        simp only [Option.map_some, clr, List.any_cons, List.any_nil, Bool.or_false, this]
        simp
    | some i =>
      dsimp only
      obtain ⟨hlt, hi, -⟩ := List.findIdx?_eq_some_iff_getElem.1 hf
      have hxi : s.slots[i]? = some s.slots[i] := List.getElem?_eq_getElem hlt
      refine List.ext_getElem? fun j => ?_
      rw [List.getElem?_map, List.getElem?_modify]
      by_cases hj : i = j
      · subst hj
        rw [hxi]
        simp only [Option.map_eq_map, Option.map_some, if_true, clr, List.any_cons, List.any_nil, Bool.or_false, hi]
      · simp only [if_neg hj, Option.map_eq_map]
        cases hx : s.slots[j]? with
        | none => rfl
        | some x =>
          have hne : (x.ep == some e.1) = false := by
            cases hb : x.ep == some e.1
            · rfl
            · exact absurd (h i j _ _ e.1 hxi hx (by simpa using hi) (by simpa using hb)) hj
          simp [clr, hne]
  rw [State.mk.injEq]
  exact ⟨this, rfl, rfl, rfl, rfl⟩

theorem clr_nil (l : List Slot) : l.map (clr []) = l := by
  have : clr [] = id := by funext x; simp [clr]
  rw [this, List.map_id]

theorem clr_cons (l : List Slot) (e : Nat × Nat) (k : List (Nat × Nat)) :
    (l.map (clr [e])).map (clr k) = l.map (clr (e :: k)) := by
  rw [List.map_map]
  congr 1
  funext x
  show clr k (clr [e] x) = clr (e :: k) x
  by_cases hb : x.ep = some e.1
  · have h1 : clr [e] x = { x with ep := none } := by simp [clr, hb]
    have h2 : clr (e :: k) x = { x with ep := none } := by simp [clr, hb]
    rw [h1, h2]
    simp [clr]
  · have h1 : clr [e] x = x := by simp [clr, hb]
    have h0 : (x.ep == some e.1) = false := by simp [hb]
    rw [h1]
    unfold clr
    rw [List.any_cons, h0, Bool.false_or]

theorem fold_eq {s : State} (h : Uniq s.slots) (l : List (Nat × Nat)) :
    l.foldl (fun s e => unselect s e.1) s =
      { s with slots := s.slots.map (clr l), calls := s.calls ++ l.map (fun e => .disconnect e.1) } := by
  induction l generalizing s with
  | nil => simp [clr_nil]
  | cons e l ih =>
    rw [List.foldl_cons, unselect_eq h, ih (uniq_clr h [e])]
    simp only [clr_cons]
    simp

theorem inv_remove {s : State} (h : Inv s) (k : Nat × Nat → Bool) (l : List (Nat × Nat)) (cs : List Call)
    (hl : ∀ q, (∃ o, (q, o) ∈ l) ↔ ∃ o, (q, o) ∈ s.eps ∧ k (q, o) = false) :
    Inv { s with eps := s.eps.filter k, slots := s.slots.map (clr l), calls := cs } := by
  have hget : ∀ (i : Nat) (x : Slot), (s.slots.map (clr l))[i]? = some x → ∃ y, s.slots[i]? = some y ∧ x = clr l y := by
    intro i x hx
    simp only [List.getElem?_map, Option.map_eq_some_iff] at hx
    obtain ⟨y, hy, e⟩ := hx
    exact ⟨y, hy, e.symm⟩
  have hc : ∀ y, (clr l y).nonce = y.nonce ∧ (clr l y).uses = y.uses ∧ (clr l y).last = y.last := by
    intro y; unfold clr; split <;> exact ⟨rfl, rfl, rfl⟩
  have hreg : ∀ r, Registered { s with eps := s.eps.filter k, slots := s.slots.map (clr l), calls := cs } r → Registered s r := by
    intro r hr
    obtain ⟨o, ho⟩ := hr
    exact ⟨o, (List.mem_filter.1 ho).1⟩
  refine ⟨by simpa using h.len, ?_, ?_, ?_, ?_, ?_, ?_, ?_, h.pul⟩
  · intro i x hx
    obtain ⟨y, hy, rfl⟩ := hget i x hx
    rw [(hc y).1, (hc y).2.1]; exact h.nonce _ _ hy
  · intro i x hx
    obtain ⟨y, hy, rfl⟩ := hget i x hx
    rw [(hc y).2.2, (hc y).2.1]; exact h.last _ _ hy
  · intro i x q hx hq
    obtain ⟨y, hy, rfl⟩ := hget i x hx
    obtain ⟨h1, h2, h3⟩ := clr_ep _ _ _ hq
    obtain ⟨h4, o, ho⟩ := h.own _ _ _ hy h1
    refine ⟨by rw [h2]; exact h4, o, List.mem_filter.2 ⟨ho, ?_⟩⟩
    cases hk : k (q, o)
    · obtain ⟨o', ho'⟩ := (hl q).2 ⟨o, ho, hk⟩
      exact (h3 o' ho').elim
    · rfl
  · intro r i u hv
    obtain ⟨x, hx, h1, h2, h3⟩ := h.val _ _ _ hv
    refine ⟨clr l x, by simp [hx], ?_⟩
    rw [(hc x).2.2, (hc x).2.1]
    exact ⟨h1, h2, h3⟩
  · intro r i u hv hr
    obtain ⟨x, hx, hxr⟩ := h.reg _ _ _ hv (hreg r hr)
    refine ⟨clr l x, by simp [hx], ?_⟩
    unfold clr
    rw [if_neg]
    · exact hxr
    · intro hany
      obtain ⟨e, he, hee⟩ := List.any_eq_true.1 hany
      have : r = e.1 := by simpa [hxr] using hee
      subst this
      obtain ⟨o, ho, hk⟩ := (hl e.1).1 ⟨e.2, he⟩
      obtain ⟨o', ho'⟩ := hr
      obtain ⟨h5, h6⟩ := List.mem_filter.1 ho'
      have := h.one _ _ _ ho h5
      subst this
      rw [hk] at h6; simp at h6
  · intro r o o' h1 h2
    exact h.one _ _ _ (List.mem_filter.1 h1).1 (List.mem_filter.1 h2).1
  · intro r hr
    exact h.old _ (hreg r hr)

theorem unregister_eq {s : State} (h : Inv s) (id : Nat) (hr : Registered s id) :
    unregister s id = { s with eps := s.eps.filter (·.1 != id), slots := s.slots.map (clr [(id, 0)]),
                               calls := s.calls ++ [.disconnect id] } := by
  obtain ⟨o, ho⟩ := hr
  unfold unregister
  rw [if_pos (List.any_eq_true.2 ⟨(id, o), ho, by simp⟩)]
  have hu : Uniq s.slots := uniq_of h
  exact unselect_eq (s := { s with eps := s.eps.filter (·.1 != id) }) hu (id, 0)

theorem unregister_not {s : State} (id : Nat) (hr : ¬ Registered s id) : unregister s id = s := by
  unfold unregister
  rw [if_neg]
  intro hany
  obtain ⟨e, he, hee⟩ := List.any_eq_true.1 hany
  simp at hee
  subst hee
  exact hr ⟨e.2, he⟩

theorem inv_unregister {s : State} (h : Inv s) (id : Nat) : Inv (unregister s id) := by
  by_cases hr : Registered s id
  · rw [unregister_eq h id hr]
    refine inv_remove h _ _ _ fun q => ?_
    simp
    rintro rfl
    exact hr
  · rw [unregister_not id hr]; exact h

theorem cleanup_eq {s : State} (h : Inv s) (o : Nat) :
    cleanup s o = { s with eps := s.eps.filter (·.2 != o), slots := s.slots.map (clr (s.eps.filter (·.2 == o))),
                           calls := s.calls ++ (s.eps.filter (·.2 == o)).map (fun e => .disconnect e.1) } := by
  have hu : Uniq s.slots := uniq_of h
  exact fold_eq (s := { s with eps := s.eps.filter (·.2 != o) }) hu _

theorem inv_cleanup {s : State} (h : Inv s) (o : Nat) : Inv (cleanup s o) := by
  rw [cleanup_eq h o]
  refine inv_remove h _ _ _ fun q => ?_
  simp [List.mem_filter]

theorem inv_send {s : State} (h : Inv s) (id : Nat) (b : Bool) : Inv (send s id b) := by
  unfold send
  split
  · split
    · rename_i i u hv
      refine ⟨h.len, h.nonce, h.last, h.own, h.val, h.reg, h.one, h.old, fun p hp => ?_⟩
      simp at hp
      rcases hp with hp | rfl
      · exact h.pul p hp
      · exact ⟨i, u, hv, rfl⟩
    · exact h
  · exact h

theorem inv_take {s : State} (h : Inv s) (n : Nat) : Inv (take s n) := by
  unfold take
  split
  · exact h
  · exact ⟨h.len, h.nonce, h.last, h.own, h.val, h.reg, h.one, h.old,
      fun p hp => h.pul p (List.mem_of_mem_eraseIdx hp)⟩

theorem inv_run (ops : List Op) : Inv (run start ops) := by
  have : ∀ (ops : List Op) (s : State), Inv s → Inv (run s ops) := by
    intro ops
    induction ops with
    | nil => intro s h; exact h
    | cons o ops ih =>
      intro s h
      refine ih _ ?_
      cases o with
      | register o => exact inv_register h o
      | unregister i => exact inv_unregister h i
      | cleanup o => exact inv_cleanup h o
      | send i p => exact inv_send h i p
      | take n => exact inv_take h n
  exact this ops start inv_start

/-! ### The callbacks -/

theorem target_reg {s : State} (h : Inv s) {v : Nat} {c : Call} (ht : target s v = some c) :
    ∃ q, Registered s q ∧ (c = .input q ∨ c = .ping q) := by
  unfold target at ht
  dsimp only at ht
  split at ht
  · simp at ht
  · rename_i x hx
    split at ht
    · simp at ht
    · cases hep : x.ep with
      | none => simp [hep] at ht
      | some q =>
        refine ⟨q, (h.own _ _ _ hx hep).2, ?_⟩
        simp only [hep, Option.map_some, Option.some.injEq] at ht
        split at ht
        · exact .inr ht.symm
        · exact .inl ht.symm

structure Cal (s : State) : Prop where
  once : ∀ id, (Registered s id → s.calls.count (.disconnect id) = 0) ∧
    (¬ Registered s id → id < s.vals.length → s.calls.count (.disconnect id) = 1) ∧
    (s.vals.length ≤ id → s.calls.count (.disconnect id) = 0)
  after : ∀ a b id, s.calls = a ++ .disconnect id :: b → .input id ∉ b ∧ .ping id ∉ b
  nodup : (s.eps.map (·.1)).Nodup

theorem after_snoc {l : List Call} (c : Call)
    (h : ∀ a b id, l = a ++ .disconnect id :: b → .input id ∉ b ∧ .ping id ∉ b)
    (hc : ∀ id, c = .input id ∨ c = .ping id → .disconnect id ∉ l) :
    ∀ a b id, l ++ [c] = a ++ .disconnect id :: b → .input id ∉ b ∧ .ping id ∉ b := by
  intro a b id e
  rcases List.append_eq_append_iff.1 e with ⟨x, h1, h2⟩ | ⟨x, h1, h2⟩
  · have hb : b = [] := by
      have := congrArg List.length h2
      simp at this
      exact List.length_eq_zero_iff.1 (by omega)
    subst hb; simp
  · cases x with
    | nil =>
      simp at h2
      rw [h2.2]; simp
    | cons y x =>
      simp at h2
      obtain ⟨rfl, rfl⟩ := h2
      obtain ⟨h3, h4⟩ := h a x id h1
      have hm : Call.disconnect id ∈ l := by rw [h1]; simp
      simp only [List.mem_append, List.mem_singleton, not_or]
      exact ⟨⟨h3, fun e => hc id (.inl e.symm) hm⟩, h4, fun e => hc id (.inr e.symm) hm⟩

theorem after_discs {l : List Call} (ids : List Nat)
    (h : ∀ a b id, l = a ++ .disconnect id :: b → .input id ∉ b ∧ .ping id ∉ b) :
    ∀ a b id, l ++ ids.map .disconnect = a ++ .disconnect id :: b → .input id ∉ b ∧ .ping id ∉ b := by
  induction ids generalizing l with
  | nil => simpa using h
  | cons i ids ih =>
    have := ih (l := l ++ [.disconnect i]) (after_snoc _ h (by simp))
    simpa using this

theorem count_map_disc (ids : List Nat) (id : Nat) : (ids.map Call.disconnect).count (.disconnect id) = ids.count id := by
  induction ids with
  | nil => rfl
  | cons i ids ih => simp [List.count_cons, ih]

/-- Some endpoints are removed and disconnected. -/
theorem cal_remove {s : State} (c : Cal s) (h : Inv s) (k : Nat × Nat → Bool) (sl : List Slot) :
    Cal { s with eps := s.eps.filter k, slots := sl,
                 calls := s.calls ++ ((s.eps.filter fun e => ! k e).map (·.1)).map .disconnect } := by
  have hmem : ∀ id, id ∈ (s.eps.filter fun e => ! k e).map (·.1) ↔ ∃ o, (id, o) ∈ s.eps ∧ k (id, o) = false := by
    intro id
    simp [List.mem_filter]
  have hnd : ((s.eps.filter fun e => ! k e).map (·.1)).Nodup :=
    List.Nodup.sublist (List.Sublist.map _ List.filter_sublist) c.nodup
  have hcount : ∀ id, ((s.eps.filter fun e => ! k e).map (·.1)).count id =
      if id ∈ (s.eps.filter fun e => ! k e).map (·.1) then 1 else 0 := by
    intro id
    split
    · rename_i hm; exact List.Nodup.count hnd |>.trans (by simp [hm])
    · rename_i hm; exact List.count_eq_zero.2 hm
  refine ⟨fun id => ?_, after_discs _ c.after, List.Nodup.sublist (List.Sublist.map _ List.filter_sublist) c.nodup⟩
  dsimp only
  rw [List.count_append, count_map_disc, hcount id]
  obtain ⟨h1, h2, h3⟩ := c.once id
  by_cases hm : id ∈ (s.eps.filter fun e => ! k e).map (·.1)
  · rw [if_pos hm]
    obtain ⟨o, ho, hk⟩ := (hmem id).1 hm
    have hr : Registered s id := ⟨o, ho⟩
    have hlt := h.old _ hr
    refine ⟨fun ⟨o', ho'⟩ => ?_, fun _ _ => by rw [h1 hr], fun hle => by omega⟩
    obtain ⟨h5, h6⟩ := List.mem_filter.1 ho'
    have := h.one _ _ _ ho h5
    subst this
    rw [hk] at h6; simp at h6
  · rw [if_neg hm]
    refine ⟨fun ⟨o', ho'⟩ => h1 ⟨o', (List.mem_filter.1 ho').1⟩, fun hn hlt => h2 (fun ⟨o, ho⟩ => ?_) hlt, h3⟩
    cases hk : k (id, o)
    · exact hm ((hmem id).2 ⟨o, ho, hk⟩)
    · exact hn ⟨o, List.mem_filter.2 ⟨ho, hk⟩⟩

theorem cal_step {s : State} (c : Cal s) (h : Inv s) (o : Op) : Cal (step s o) := by
  cases o with
  | register w =>
    have key : ∀ sl v, Cal { s with eps := s.eps ++ [(s.vals.length, w)], slots := sl, vals := s.vals ++ [v] } := by
      intro sl v
      refine ⟨fun id => ?_, c.after, ?_⟩
      · obtain ⟨h1, h2, h3⟩ := c.once id
        dsimp only
        simp only [List.length_append, List.length_singleton]
        refine ⟨fun ⟨o, ho⟩ => ?_, fun hn hlt => ?_, fun hle => h3 (by omega)⟩
        · simp at ho
          rcases ho with ho | ⟨rfl, _⟩
          · exact h1 ⟨o, ho⟩
          · exact h3 (Nat.le_refl _)
        · have hne : id ≠ s.vals.length := fun e => hn ⟨w, by simp [e]⟩
          exact h2 (fun ⟨o, ho⟩ => hn ⟨o, by simp [ho]⟩) (by omega)
      · dsimp only
        rw [List.map_append, List.map_singleton, List.nodup_append]
        refine ⟨c.nodup, by simp, fun a ha b hb => ?_⟩
        simp at ha hb
        subst hb
        obtain ⟨o, ho⟩ := ha
        have := h.old a ⟨o, ho⟩
        omega
    dsimp only [step, register]
    split
    · split
      · exact key _ _
      · exact c
    · split
      · exact key _ _
      · exact key _ _
  | unregister id =>
    dsimp only [step]
    by_cases hr : Registered s id
    · rw [unregister_eq h id hr]
      have := cal_remove c h (·.1 != id) (s.slots.map (clr [(id, 0)]))
      have e : (s.eps.filter fun e => ! (e.1 != id)).map (·.1) = [id] := by
        obtain ⟨o, ho⟩ := hr
        have hnd := c.nodup
        clear this c h
        generalize s.eps = l at *
        induction l with
        | nil => simp at ho
        | cons e l ih =>
          simp only [List.map_cons, List.nodup_cons] at hnd
          simp only [List.mem_cons] at ho
          by_cases he : e.1 = id
          · have hnil : l.filter (fun e => ! (e.1 != id)) = [] := by
              rw [List.filter_eq_nil_iff]
              intro x hx hxi
              have : x.1 = id := by simpa using hxi
              exact hnd.1 (List.mem_map.2 ⟨x, hx, by rw [this, he]⟩)
            rw [List.filter_cons_of_pos (by simp [he]), hnil]
            simp [he]
          · rcases ho with ho | ho
            · exact absurd (by rw [← ho]) he
            · rw [List.filter_cons_of_neg (by simp [he])]
              exact ih ho hnd.2
      rw [e] at this
      exact this
    · rw [unregister_not id hr]; exact c
  | cleanup w =>
    dsimp only [step]
    rw [cleanup_eq h w]
    have := cal_remove c h (·.2 != w) (s.slots.map (clr (s.eps.filter (·.2 == w))))
    have e : (fun e : Nat × Nat => ! (e.2 != w)) = (fun e => e.2 == w) := by funext e; simp [bne]
    rw [e, List.map_map] at this
    exact this
  | send id b =>
    dsimp only [step, send]
    split
    · split
      · exact ⟨c.once, c.after, c.nodup⟩
      · exact c
    · exact c
  | take n =>
    dsimp only [step, take]
    split
    · exact c
    · rename_i p hp
      cases ht : target s p.value with
      | none => simpa using (⟨c.once, c.after, c.nodup⟩ : Cal { s with pulses := s.pulses.eraseIdx n })
      | some x =>
        obtain ⟨q, hq, hx⟩ := target_reg h ht
        have hno : ∀ id, x = .input id ∨ x = .ping id → .disconnect id ∉ s.calls := by
          intro id hid
          have : id = q := by
            rcases hx with rfl | rfl <;> rcases hid with hid | hid <;> simp at hid <;> exact hid.symm
          subst this
          exact List.count_eq_zero.1 ((c.once id).1 hq)
        refine ⟨fun id => ?_, after_snoc x c.after hno, c.nodup⟩
        have hz : ([x] : List Call).count (.disconnect id) = 0 := by
          rcases hx with rfl | rfl <;> simp [List.count_cons]
        simp only [Option.toList_some, List.count_append, hz, Nat.add_zero]
        exact c.once id

theorem cal_run (ops : List Op) : Cal (run start ops) := by
  have : ∀ (ops : List Op) (s : State), Cal s → Inv s → Cal (run s ops) := by
    intro ops
    induction ops with
    | nil => intro s h _; exact h
    | cons o ops ih =>
      intro s c h
      have hs : Inv (step s o) := by
        cases o with
        | register o => exact inv_register h o
        | unregister i => exact inv_unregister h i
        | cleanup o => exact inv_cleanup h o
        | send i p => exact inv_send h i p
        | take n => exact inv_take h n
      exact ih _ (cal_step c h o) hs
  refine this ops start ⟨fun id => ?_, ?_, by simp [start]⟩ inv_start
  · simp [start]
  · intro a b id e; simp [start] at e

theorem reg_send {s : State} {id : Nat} {b : Bool} {r : Nat} (h : Registered s r) : Registered (send s id b) r := by
  unfold send
  split
  · split <;> exact h
  · exact h

theorem target_send {s : State} {id : Nat} {b : Bool} {v : Nat} : target (send s id b) v = target s v := by
  unfold send
  split
  · split <;> rfl
  · rfl

/-- Each slot was used first by another registration. -/
theorem slots_le (ops : List Op) : (run start ops).slots.length ≤ (run start ops).vals.length := by
  have : ∀ (ops : List Op) (s : State), Inv s → s.slots.length ≤ s.vals.length →
      (run s ops).slots.length ≤ (run s ops).vals.length := by
    intro ops
    induction ops with
    | nil => intro s _ h; exact h
    | cons o ops ih =>
      intro s i h
      cases o with
      | register o =>
        refine ih _ (inv_register i o) ?_
        dsimp only [step, register]
        split
        · split
          · simp; omega
          · exact h
        · split
          · simp; omega
          · simp; omega
      | unregister r =>
        refine ih _ (inv_unregister i r) ?_
        dsimp only [step]
        by_cases hr : Registered s r
        · rw [unregister_eq i r hr]; simpa using h
        · rw [unregister_not r hr]; exact h
      | cleanup o =>
        refine ih _ (inv_cleanup i o) ?_
        dsimp only [step]
        rw [cleanup_eq i o]; simpa using h
      | send r b =>
        refine ih _ (inv_send i r b) ?_
        dsimp only [step, send]
        split
        · split <;> exact h
        · exact h
      | take n =>
        refine ih _ (inv_take i n) ?_
        dsimp only [step, take]
        split <;> exact h
  exact this ops start inv_start (Nat.le_refl _)

end Verif.QnxPollProofs
