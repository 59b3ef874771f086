import Verif.Proofs.RustReceive

namespace Verif.RustReceive

theorem lastN_sublist (n : Nat) (l : List Nat) : (lastN n l).Sublist l := List.drop_sublist _ _

theorem mem_lastN {n x : Nat} {l : List Nat} (h : x ∈ lastN n l) : x ∈ l := (lastN_sublist n l).subset h

theorem length_lastN (n : Nat) (l : List Nat) : (lastN n l).length = min n l.length := by
  simp [lastN]; omega

theorem lastN_all {n : Nat} {l : List Nat} (h : l.length ≤ n) : lastN n l = l := by
  simp [lastN, Nat.sub_eq_zero_of_le h]

theorem lastN_lastN (n : Nat) (a b : List Nat) : lastN n (lastN n a ++ b) = lastN n (a ++ b) := by
  simp only [lastN, List.length_append, List.length_drop]
  by_cases h : a.length ≤ n
  · have : a.length - n = 0 := by omega
    simp [this]
  · have e1 : a.length - (a.length - n) = n := by omega
    rw [e1, List.drop_append, List.drop_append, List.drop_drop]
    have e2 : a.length - n + (n + b.length - n) = a.length + b.length - n := by omega
    rw [e2]
    simp only [List.length_drop, e1]
    congr 2
    omega

/-- The last `n` elements end with the other list, if that has at most `n`. -/
theorem lastN_append {n : Nat} {a b : List Nat} (h : b.length ≤ n) : lastN n (a ++ b) = lastN (n - b.length) a ++ b := by
  simp only [lastN, List.length_append]
  have e : a.length + b.length - n = a.length - (n - b.length) := by omega
  rw [e, List.drop_append]
  have : a.length - (n - b.length) - a.length = 0 := by omega
  rw [this]; rfl

theorem push_eq {cap max x : Nat} {box b : List Nat} (hm : 0 < max) (h : push cap max box x = some b) :
    b = lastN max (box ++ [x]) ∧ b.length ≤ cap := by
  unfold push at h
  dsimp only at h
  split at h
  · rename_i hl
    injection h with h
    refine ⟨?_, by rw [← h]; simp only [List.length_append, List.length_singleton]; omega⟩
    rw [← h]
    simp only [lastN, List.length_append, List.length_singleton]
    rw [List.drop_append]
    have : box.length + 1 - max - box.length = 0 := by omega
    rw [this]; rfl
  · cases h

theorem pushAll_eq {cap max : Nat} (hm : 0 < max) : ∀ {xs box b : List Nat}, pushAll cap max box xs = some b →
    (xs = [] ∧ b = box) ∨ (b = lastN max (box ++ xs) ∧ b.length ≤ cap)
  | [], box, b, h => by injection h with h; exact .inl ⟨rfl, h.symm⟩
  | x :: xs, box, b, h => by
    unfold pushAll at h
    split at h
    · cases h
    · rename_i c hp
      obtain ⟨e, l⟩ := push_eq hm hp
      rcases pushAll_eq hm h with ⟨rfl, rfl⟩ | ⟨e', l'⟩
      · exact .inr ⟨e, l⟩
      · refine .inr ⟨?_, l'⟩
        rw [e', e, lastN_lastN, List.append_assoc]; rfl

theorem pushAll_some {cap max : Nat} (hm : 0 < max) (hc : max ≤ cap) : ∀ (xs box : List Nat), ∃ b, pushAll cap max box xs = some b
  | [], box => ⟨box, rfl⟩
  | x :: xs, box => by
    unfold pushAll push
    have : (box.drop (box.length + 1 - max)).length < cap := by simp only [List.length_drop]; omega
    simp only [this, if_true]
    exact pushAll_some hm hc xs _

structure Fetch (cfg : Cfg) (s : St) (cap limit : Nat) (box xs b : List Nat) : Prop where
  l0 : 0 < limit
  l1 : limit ≤ cfg.maxNum
  free : 0 < cfg.maxNum - held s
  ex : xs = lastN (min limit (cfg.maxNum - held s)) s.unread
  eb : (xs = [] ∧ b = box) ∨ (b = lastN limit (box ++ xs) ∧ b.length ≤ cap)

theorem fetch_got {cfg : Cfg} {s : St} {cap limit : Nat} {box xs b : List Nat} (h : fetch cfg s cap limit box = .got xs b) :
    Fetch cfg s cap limit box xs b := by
  unfold fetch at h
  split at h
  · cases h
  split at h
  · cases h
  split at h
  · cases h
  dsimp only at h
  split at h
  · cases h
  · rename_i a1 a2 a3 _ hp
    injection h with e1 e2
    subst e2
    have l0 : 0 < limit := by omega
    rw [e1] at hp
    exact ⟨l0, by omega, by omega, e1.symm, pushAll_eq l0 hp⟩

namespace Fetch
variable {cfg : Cfg} {s : St} {cap limit : Nat} {box xs b : List Nat} (h : Fetch cfg s cap limit box xs b)
include h

theorem len : xs.length ≤ limit ∧ xs.length ≤ cfg.maxNum - held s ∧ xs.length ≤ s.unread.length := by
  rw [h.ex, length_lastN]; omega

theorem mem {x : Nat} (hx : x ∈ xs) : x ∈ s.unread := by rw [h.ex] at hx; exact mem_lastN hx

theorem sub : b.Sublist (box ++ xs) := by
  rcases h.eb with ⟨e, e'⟩ | ⟨e, _⟩
  · rw [e, e']; simp
  · rw [e]; exact lastN_sublist _ _

/-- The samples are the last ones in the container, and the others were there before. -/
theorem tail : ∃ k, b = box.drop k ++ xs := by
  rcases h.eb with ⟨e, e'⟩ | ⟨e, _⟩
  · exact ⟨0, by rw [e, e']; simp⟩
  · rw [lastN_append h.len.1] at e
    exact ⟨_, e⟩

end Fetch

/-- The samples in the stream. -/
def bufOf (s : St) : List Nat := match s.stream with | some r => r.buf | none => []

theorem held_eq (s : St) : held s = s.box.length + s.user.length + (bufOf s).length := by
  unfold held bufOf
  cases s.stream <;> rfl

structure OInv (cfg : Cfg) (s : St) : Prop where
  g : Increasing s.got
  u : Increasing s.unread
  gu : ∀ x ∈ s.got, ∀ y ∈ s.unread, x < y
  un : ∀ y ∈ s.unread, y < s.next
  gn : ∀ x ∈ s.got, x < s.next
  bx : Increasing s.box
  bg : ∀ x ∈ s.box, x ∈ s.got
  o : Increasing (s.out ++ bufOf s)
  og : ∀ x ∈ s.out ++ bufOf s, x ∈ s.got
  uu : s.user.Nodup
  ug : ∀ x ∈ s.user, x ∈ s.got
  ub : ∀ x ∈ s.user, x ∉ s.box ∧ x ∉ bufOf s
  bb : ∀ x ∈ bufOf s, x ∉ s.box
  bd : s.box.length + s.user.length + (bufOf s).length ≤ cfg.maxNum
  bc : s.box.length ≤ cfg.cap

theorem oinv_init (cfg : Cfg) : OInv cfg init := by constructor <;> simp [init, bufOf, Increasing]

theorem oinv_fetch {cfg : Cfg} {s : St} (h : OInv cfg s) {limit : Nat} {xs b : List Nat}
    (hf : Fetch cfg s cfg.cap limit s.box xs b) : OInv cfg { s with unread := [], box := b, got := s.got ++ xs } := by
  have mem : ∀ x ∈ xs, x ∈ s.unread := fun x hx => hf.mem hx
  have bm : ∀ x ∈ b, x ∈ s.box ∨ x ∈ xs := fun x hx => List.mem_append.1 (hf.sub.subset hx)
  have xi : Increasing xs := by rw [hf.ex]; exact h.u.sublist (lastN_sublist _ _)
  have hb : bufOf { s with unread := [], box := b, got := s.got ++ xs } = bufOf s := rfl
  have hl := hf.len
  have hlb : b.length ≤ s.box.length + xs.length := by have := hf.sub.length_le; simpa using this
  have bd := h.bd
  rw [held_eq] at hl
  refine ⟨?_, List.Pairwise.nil, fun _ _ _ hy => (by cases hy), fun _ hy => (by cases hy), fun x hx => ?_, ?_, fun x hx => ?_, h.o,
    fun x hx => List.mem_append.2 (.inl (h.og x hx)), h.uu, fun x hx => List.mem_append.2 (.inl (h.ug x hx)), fun x hx => ?_, fun x hx => ?_, ?_, ?_⟩
  · exact List.pairwise_append.2 ⟨h.g, xi, fun x hx y hy => h.gu x hx y (mem y hy)⟩
  · rcases List.mem_append.1 hx with hx | hx
    · exact h.gn x hx
    · exact h.un x (mem x hx)
  · refine List.Pairwise.sublist hf.sub (List.pairwise_append.2 ⟨h.bx, xi, fun x hx y hy => h.gu x (h.bg x hx) y (mem y hy)⟩)
  · rcases bm x hx with hx | hx
    · exact List.mem_append.2 (.inl (h.bg x hx))
    · exact List.mem_append.2 (.inr hx)
  · refine ⟨fun hxb => ?_, (h.ub x hx).2⟩
    rcases bm x hxb with hb | hb
    · exact (h.ub x hx).1 hb
    · exact Nat.lt_irrefl _ (h.gu x (h.ug x hx) x (mem x hb))
  · intro hxb
    rcases bm x hxb with hb' | hb'
    · exact h.bb x hx hb'
    · exact Nat.lt_irrefl _ (h.gu x (h.og x (List.mem_append.2 (.inr hx))) x (mem x hb'))
  · dsimp only; rw [hb]; omega
  · dsimp only
    rcases hf.eb with ⟨_, e⟩ | ⟨_, e⟩
    · rw [e]; exact h.bc
    · exact e

theorem oinv_congr {cfg : Cfg} {s s' : St} (h : OInv cfg s) (e1 : s'.got = s.got) (e2 : s'.unread = s.unread) (e3 : s'.next = s.next)
    (e4 : s'.box = s.box) (e5 : s'.out = s.out) (e6 : bufOf s' = bufOf s) (e7 : s'.user = s.user) : OInv cfg s' := by
  obtain ⟨a1, a2, a3, a4, a5, a6, a7, a8, a9, a10, a11, a12, a13, a14, a15⟩ := h
  constructor <;> simp only [e1, e2, e3, e4, e5, e6, e7] <;> assumption

theorem oinv_tryReceive {cfg : Cfg} {s : St} (h : OInv cfg s) (m : Nat) : OInv cfg (tryReceive cfg s m) := by
  unfold tryReceive
  split
  · split
    · exact h
    · exact oinv_congr h rfl rfl rfl rfl rfl rfl rfl
  · split
    · exact oinv_congr h rfl rfl rfl rfl rfl rfl rfl
    · exact oinv_congr h rfl rfl rfl rfl rfl rfl rfl
    · rename_i hf
      exact oinv_congr (oinv_fetch h (fetch_got hf)) rfl rfl rfl rfl rfl rfl rfl
  · exact h

theorem oinv_go {cfg : Cfg} {s : St} (h : OInv cfg s) : OInv cfg (go cfg s) := by
  unfold go finish
  split
  · exact h
  · split
    · split <;> exact oinv_congr h rfl rfl rfl rfl rfl rfl rfl
    · split
      · exact oinv_congr h rfl rfl rfl rfl rfl rfl rfl
      · exact oinv_congr h rfl rfl rfl rfl rfl rfl rfl
      · rename_i hf
        dsimp only
        split <;> exact oinv_congr (oinv_fetch h (fetch_got hf)) rfl rfl rfl rfl rfl rfl rfl
    · exact h

/-- A sample goes from the stream to the user. -/
theorem oinv_yield {cfg : Cfg} {s s' : St} (h : OInv cfg s) {x : Nat} {b : List Nat} (hb : bufOf s = x :: b) (e1 : s'.got = s.got)
    (e2 : s'.unread = s.unread) (e3 : s'.next = s.next) (e4 : s'.box = s.box) (e5 : s'.out = s.out ++ [x]) (e6 : bufOf s' = b)
    (e7 : s'.user = s.user ++ [x]) : OInv cfg s' := by
  have o := h.o
  have og := h.og
  have ub := h.ub
  have bb := h.bb
  have bd := h.bd
  rw [hb] at o og ub bb bd
  have hsub : (x :: b).Pairwise (· < ·) := (List.pairwise_append.1 o).2.1
  have hx : ∀ y ∈ b, x < y := (List.pairwise_cons.1 hsub).1
  refine ⟨e1 ▸ h.g, e2 ▸ h.u, (by rw [e1, e2]; exact h.gu), (by rw [e2, e3]; exact h.un), (by rw [e1, e3]; exact h.gn), e4 ▸ h.bx,
    (by rw [e4, e1]; exact h.bg), (by rw [e5, e6]; simpa using o), (by rw [e5, e6, e1]; simpa using og), ?_, ?_, ?_, ?_, ?_, e4 ▸ h.bc⟩
  · rw [e7]
    refine List.nodup_append.2 ⟨h.uu, (by simp), fun y hy z hz => ?_⟩
    rw [List.mem_singleton.1 hz]
    rintro rfl
    exact (ub y hy).2 List.mem_cons_self
  · rw [e7, e1]
    intro y hy
    rcases List.mem_append.1 hy with hy | hy
    · exact h.ug y hy
    · rw [List.mem_singleton.1 hy]; exact og x (by simp)
  · rw [e7, e4, e6]
    intro y hy
    rcases List.mem_append.1 hy with hy | hy
    · exact ⟨(ub y hy).1, fun hb' => (ub y hy).2 (List.mem_cons_of_mem _ hb')⟩
    · rw [List.mem_singleton.1 hy]
      exact ⟨bb x List.mem_cons_self, fun hb' => Nat.lt_irrefl _ (hx x hb')⟩
  · rw [e4, e6]
    exact fun y hy => bb y (List.mem_cons_of_mem _ hy)
  · rw [e4, e6, e7]
    simp only [List.length_append, List.length_cons, List.length_nil] at bd ⊢
    omega

/-- The stream has fetched samples. -/
theorem oinv_fill {cfg : Cfg} {s s' : St} (h : OInv cfg s) {xs b : List Nat} (hb : bufOf s = [])
    (hf : Fetch cfg s cfg.maxNum cfg.maxNum [] xs b) (e1 : s'.got = s.got ++ xs) (e2 : s'.unread = []) (e3 : s'.next = s.next)
    (e4 : s'.box = s.box) (e5 : s'.out = s.out) (e6 : bufOf s' = xs) (e7 : s'.user = s.user) : OInv cfg s' := by
  have mem : ∀ x ∈ xs, x ∈ s.unread := fun x hx => hf.mem hx
  have xi : Increasing xs := by rw [hf.ex]; exact h.u.sublist (lastN_sublist _ _)
  have hl := hf.len
  have bd := h.bd
  have o := h.o
  have og := h.og
  rw [held_eq, hb] at hl
  rw [hb] at bd o og
  simp only [List.append_nil, List.length_nil] at *
  refine ⟨?_, (by rw [e2]; exact List.Pairwise.nil), (by rw [e2]; intro _ _ _ hy; cases hy), (by rw [e2]; intro _ hy; cases hy), ?_,
    e4 ▸ h.bx, ?_, ?_, ?_, e7 ▸ h.uu, ?_, ?_, ?_, ?_, e4 ▸ h.bc⟩
  · rw [e1]; exact List.pairwise_append.2 ⟨h.g, xi, fun x hx y hy => h.gu x hx y (mem y hy)⟩
  · rw [e1, e3]
    intro x hx
    rcases List.mem_append.1 hx with hx | hx
    · exact h.gn x hx
    · exact h.un x (mem x hx)
  · rw [e4, e1]; exact fun x hx => List.mem_append.2 (.inl (h.bg x hx))
  · rw [e5, e6]
    exact List.pairwise_append.2 ⟨o, xi, fun x hx y hy => h.gu x (og x hx) y (mem y hy)⟩
  · rw [e5, e6, e1]
    intro x hx
    rcases List.mem_append.1 hx with hx | hx
    · exact List.mem_append.2 (.inl (og x hx))
    · exact List.mem_append.2 (.inr hx)
  · rw [e7, e1]; exact fun x hx => List.mem_append.2 (.inl (h.ug x hx))
  · rw [e7, e4, e6]
    exact fun x hx => ⟨(h.ub x hx).1, fun hb' => Nat.lt_irrefl _ (h.gu x (h.ug x hx) x (mem x hb'))⟩
  · rw [e6, e4]
    exact fun x hx hb' => Nat.lt_irrefl _ (h.gu x (h.bg x hb') x (mem x hx))
  · rw [e4, e6, e7]; omega

theorem fill_eq {cfg : Cfg} {s : St} {xs b : List Nat} (hf : Fetch cfg s cfg.maxNum cfg.maxNum [] xs b) : b = xs := by
  rcases hf.eb with ⟨e, e'⟩ | ⟨e, _⟩
  · rw [e, e']
  · rw [e, List.nil_append, lastN_all hf.len.1]

theorem oinv_goStream {cfg : Cfg} {s : St} (w : WInv cfg s) (h : OInv cfg s) : OInv cfg (goStream cfg s) := by
  unfold goStream
  split
  · exact h
  · rename_i r hr
    have hbuf : bufOf s = r.buf := by simp [bufOf, hr]
    split
    · exact oinv_congr h rfl rfl rfl rfl rfl (by simp [bufOf, hr]) rfl
    · rename_i hp
      have hb0 : r.buf = [] := w.sb r hr (by rw [hp]; simp)
      split
      · exact oinv_congr h rfl rfl rfl rfl rfl (by simp [bufOf, hr]) rfl
      · exact oinv_congr h rfl rfl rfl rfl rfl rfl rfl
      · rename_i xs b hf
        have hf := fetch_got hf
        rw [hb0] at hf
        have eb := fill_eq hf
        subst eb
        dsimp only
        have mid : OInv cfg { s with unread := [], got := s.got ++ b, stream := some ⟨b, .fresh⟩ } :=
          oinv_fill h (by rw [hbuf, hb0]) hf rfl rfl rfl rfl rfl rfl rfl
        cases b with
        | nil => exact oinv_congr mid rfl rfl rfl rfl rfl rfl rfl
        | cons x b => exact oinv_yield mid (x := x) (b := b) rfl rfl rfl rfl rfl rfl rfl rfl
    · exact h

theorem oinv_next {cfg : Cfg} {s : St} (h : OInv cfg s) : OInv cfg (nextItem s) := by
  unfold nextItem
  split
  · exact h
  · rename_i r hr
    split <;> (try exact h)
    all_goals
      split
      · rename_i x b hb
        exact oinv_yield h (x := x) (b := b) (by simp [bufOf, hr, hb]) rfl rfl rfl rfl rfl rfl rfl
      · rename_i hb
        exact oinv_congr h rfl rfl rfl rfl rfl (by simp [bufOf, hr]) rfl

/-- The stream or the container is dropped. -/
theorem oinv_drop {cfg : Cfg} {s s' : St} (h : OInv cfg s) (e1 : s'.got = s.got) (e2 : s'.unread = s.unread) (e3 : s'.next = s.next)
    (e4 : s'.box = s.box ∨ s'.box = []) (e5 : s'.out = s.out) (e6 : bufOf s' = bufOf s ∨ bufOf s' = []) (e7 : s'.user.Sublist s.user) :
    OInv cfg s' := by
  have hb : s'.box.Sublist s.box := by rcases e4 with e | e <;> rw [e] <;> simp
  have hf : (bufOf s').Sublist (bufOf s) := by rcases e6 with e | e <;> rw [e] <;> simp
  have hof : (s'.out ++ bufOf s').Sublist (s.out ++ bufOf s) := by rw [e5]; exact List.Sublist.append (List.Sublist.refl _) hf
  have l1 := hb.length_le
  have l2 := hf.length_le
  have l3 := e7.length_le
  have bd := h.bd
  have bc := h.bc
  refine ⟨e1 ▸ h.g, e2 ▸ h.u, (by rw [e1, e2]; exact h.gu), (by rw [e2, e3]; exact h.un), (by rw [e1, e3]; exact h.gn), h.bx.sublist hb,
    fun x hx => e1 ▸ h.bg x (hb.subset hx), List.Pairwise.sublist hof h.o, fun x hx => e1 ▸ h.og x (hof.subset hx), h.uu.sublist e7,
    fun x hx => e1 ▸ h.ug x (e7.subset hx), fun x hx => ⟨fun a => (h.ub x (e7.subset hx)).1 (hb.subset a), fun a => (h.ub x (e7.subset hx)).2 (hf.subset a)⟩,
    fun x hx a => h.bb x (hf.subset hx) (hb.subset a), by omega, by omega⟩

theorem oinv_take {cfg : Cfg} {s : St} (h : OInv cfg s) : OInv cfg (take s) := by
  unfold take
  split
  · rename_i x b hfn hb
    obtain ⟨a1, a2, a3, a4, a5, a6, a7, a8, a9, a10, a11, a12, a13, a14, a15⟩ := h
    rw [hb] at a6 a7 a12 a13 a14 a15
    have hx := (List.pairwise_cons.1 a6).1
    refine ⟨a1, a2, a3, a4, a5, (List.pairwise_cons.1 a6).2, fun y hy => a7 y (List.mem_cons_of_mem _ hy), a8, a9, ?_, fun y hy => ?_,
      fun y hy => ?_, fun y hy hm => a13 y hy (List.mem_cons_of_mem _ hm), ?_, ?_⟩
    · refine List.nodup_append.2 ⟨a10, (by simp), fun y hy z hz => ?_⟩
      rw [List.mem_singleton.1 hz]
      rintro rfl
      exact (a12 y hy).1 List.mem_cons_self
    · rcases List.mem_append.1 hy with hy | hy
      · exact a11 y hy
      · rw [List.mem_singleton.1 hy]; exact a7 x List.mem_cons_self
    · rcases List.mem_append.1 hy with hy | hy
      · exact ⟨fun hm => (a12 y hy).1 (List.mem_cons_of_mem _ hm), (a12 y hy).2⟩
      · rw [List.mem_singleton.1 hy]
        exact ⟨fun hm => Nat.lt_irrefl _ (hx x hm), fun hm => a13 x hm List.mem_cons_self⟩
    · have hbf : bufOf { s with box := b, user := s.user ++ [x] } = bufOf s := rfl
      rw [hbf]
      simp only [List.length_append, List.length_cons, List.length_nil] at a14 ⊢
      omega
    · simp only [List.length_cons] at a15
      dsimp only
      omega
  · exact h

theorem oinv_step {cfg : Cfg} {s : St} (w : WInv cfg s) (h : OInv cfg s) (op : Op) : OInv cfg (step cfg s op) := by
  unfold step
  split
  · exact h
  cases op <;> dsimp only
  case store =>
    refine ⟨h.g, ?_, fun x hx y hy => ?_, fun y hy => ?_, fun x hx => Nat.lt_succ_of_lt (h.gn x hx), h.bx, h.bg, h.o, h.og, h.uu, h.ug, h.ub, h.bb, h.bd, h.bc⟩
    · exact List.pairwise_append.2 ⟨h.u, List.pairwise_singleton _ _, fun x hx y hy => by rw [List.mem_singleton.1 hy]; exact h.un x hx⟩
    · rcases List.mem_append.1 hy with hy | hy
      · exact h.gu x hx y hy
      · rw [List.mem_singleton.1 hy]; exact h.gn x hx
    · rcases List.mem_append.1 hy with hy | hy
      · exact Nat.lt_succ_of_lt (h.un y hy)
      · rw [List.mem_singleton.1 hy]; exact Nat.lt_succ_self _
  case lose =>
    have ht : ∀ y ∈ s.unread.tail, y ∈ s.unread := fun y hy => (List.tail_sublist _).subset hy
    exact ⟨h.g, h.u.sublist (List.tail_sublist _), fun x hx y hy => h.gu x hx y (ht y hy), fun y hy => h.un y (ht y hy), h.gn, h.bx, h.bg, h.o, h.og,
      h.uu, h.ug, h.ub, h.bb, h.bd, h.bc⟩
  case signal => unfold signal; split <;> exact oinv_congr h rfl rfl rfl rfl rfl rfl rfl
  case notify => unfold notify; split <;> exact oinv_congr h rfl rfl rfl rfl rfl rfl rfl
  case tryReceive m => exact oinv_tryReceive h m
  case start a b => unfold start; split <;> exact oinv_congr h rfl rfl rfl rfl rfl rfl rfl
  case poll ok => unfold poll finish; (repeat' split) <;> exact oinv_congr h rfl rfl rfl rfl rfl rfl rfl
  case go => exact oinv_go h
  case cancel => unfold cancel; split <;> exact oinv_congr h rfl rfl rfl rfl rfl rfl rfl
  case dropFut =>
    unfold dropFut
    (repeat' split) <;> exact oinv_drop h rfl rfl rfl (by first | exact .inl rfl | exact .inr rfl) rfl (.inl rfl) (List.Sublist.refl _)
  case take => exact oinv_take h
  case release x => exact oinv_drop h rfl rfl rfl (.inl rfl) rfl (.inl rfl) List.erase_sublist
  case toStream ok =>
    unfold toStream
    (repeat' split) <;> exact oinv_drop h rfl rfl rfl (.inl rfl) rfl (by first | exact .inl rfl | exact .inr rfl) (List.Sublist.refl _)
  case next => exact oinv_next h
  case goStream => exact oinv_goStream w h
  case dropStream =>
    unfold dropStream
    (repeat' split) <;> exact oinv_drop h rfl rfl rfl (.inl rfl) rfl (by first | exact .inl rfl | exact .inr rfl) (List.Sublist.refl _)

theorem oinv_run {cfg : Cfg} : ∀ (ops : List Op) {s : St}, WInv cfg s → OInv cfg s → OInv cfg (run cfg s ops)
  | [], _, _, h => h
  | op :: ops, _, w, h => oinv_run ops (winv_step w op) (oinv_step w h op)

end Verif.RustReceive
