import Verif.Spec.MethodSub
import Verif.Proofs.MethodRes
namespace Verif.MethodSub
open MethodRes (Entry Wf)

/-! ### Registering handlers -/

/-- Handlers of one method of one service for one application belong to one process. -/
def OnePid (regs : List Reg) : Prop :=
  ∀ r ∈ regs, ∀ r' ∈ regs, r.skel = r'.skel → r.method = r'.method → r.proxy.app = r'.proxy.app → r.pid = r'.pid

theorem cleanHandlers_sub {regs : List Reg} {k m app pid : Nat} {r : Reg} (h : r ∈ cleanHandlers regs k m app pid) : r ∈ regs := by
  unfold cleanHandlers at h
  split at h
  · exact h
  · exact (List.mem_filter.mp h).1

/-- What is left after the clean-up for the method and the application belongs to this process. -/
theorem cleanHandlers_pid {regs : List Reg} (hone : OnePid regs) {k m app pid : Nat} {r : Reg}
    (h : r ∈ cleanHandlers regs k m app pid) (h1 : r.skel = k) (h2 : r.method = m) (h3 : r.proxy.app = app) : r.pid = pid := by
  unfold cleanHandlers at h
  split at h
  · rename_i ha
    obtain ⟨x, hx, hp⟩ := List.any_eq_true.mp ha
    simp only [Bool.and_eq_true, beq_iff_eq] at hp
    obtain ⟨⟨⟨g1, g2⟩, g3⟩, g4⟩ := hp
    rw [← g4]
    exact hone r h x hx (by rw [h1, g1]) (by rw [h2, g2]) (by rw [h3, g3])
  · have := (List.mem_filter.mp h).2
    simp [h1, h2, h3] at this

theorem onePid_sub {regs regs' : List Reg} (hone : OnePid regs) (hs : ∀ r ∈ regs', r ∈ regs) : OnePid regs' :=
  fun r hr r' hr' => hone r (hs r hr) r' (hs r' hr')

theorem registerOne_ok {regs regs' : List Reg} {n : Reg} (h : registerOne regs n = .ok regs') :
    regs' = n :: cleanHandlers regs n.skel n.method n.proxy.app n.pid := by
  unfold registerOne at h
  dsimp only at h
  split at h
  · cases h
  · split at h
    · cases h
    · cases h; rfl

theorem registerOne_onePid {regs regs' : List Reg} {n : Reg} (hone : OnePid regs) (h : registerOne regs n = .ok regs') :
    OnePid regs' := by
  rw [registerOne_ok h]
  intro r hr r' hr' h1 h2 h3
  rcases List.mem_cons.mp hr with rfl | hr <;> rcases List.mem_cons.mp hr' with rfl | hr'
  · rfl
  · exact (cleanHandlers_pid hone hr' h1.symm h2.symm h3.symm).symm
  · exact cleanHandlers_pid hone hr h1 h2 h3
  · exact onePid_sub hone (fun _ => cleanHandlers_sub) r hr r' hr' h1 h2 h3

/-- A failing registration: an old handler with the same key, which is of the same process if it is of the same service. -/
theorem registerOne_error {regs : List Reg} {n : Reg} {e : Cause} (hone : OnePid regs) (h : registerOne regs n = .error e) :
    ∃ o ∈ regs, o.proxy = n.proxy ∧ o.method = n.method ∧ (o.skel = n.skel → o.pid = n.pid) ∧
      ((e = .handlerExists n o ∧ o.lvl = n.lvl) ∨ (e = .guardExists n o ∧ o.skel = n.skel)) := by
  unfold registerOne at h
  dsimp only at h
  split at h
  · rename_i o ho
    cases h
    have h1 := List.mem_of_find?_eq_some ho
    have h2 := List.find?_some ho
    simp only [Bool.and_eq_true, beq_iff_eq] at h2
    exact ⟨o, cleanHandlers_sub h1, h2.1.2, h2.2,
      fun hk => cleanHandlers_pid hone h1 hk h2.2 (by rw [h2.1.2]), .inl ⟨rfl, h2.1.1⟩⟩
  · split at h
    · rename_i o ho
      cases h
      have h1 := List.mem_of_find?_eq_some ho
      have h2 := List.find?_some ho
      simp only [Bool.and_eq_true, beq_iff_eq] at h2
      exact ⟨o, cleanHandlers_sub h1, h2.1.2, h2.2,
        fun hk => cleanHandlers_pid hone h1 hk h2.2 (by rw [h2.1.2]), .inr ⟨rfl, h2.1.1⟩⟩
    · cases h

theorem registerAll_ok {c : Cfg} {mk : Nat → Reg} {ms : List Nat} : ∀ {regs regs' new : List Reg},
    OnePid regs → registerAll c regs mk ms = .ok (regs', new) →
    (∀ r ∈ regs', r ∈ regs ∨ r ∈ new) ∧ new = ms.map mk ∧ (∀ m ∈ ms, m ∈ c.methods (mk m).skel) ∧ OnePid regs' := by
  induction ms with
  | nil =>
    intro regs regs' new hone h
    simp only [registerAll, Except.ok.injEq, Prod.mk.injEq] at h
    obtain ⟨rfl, rfl⟩ := h
    exact ⟨fun r h => .inl h, rfl, fun m h => by simp at h, hone⟩
  | cons m ms ih =>
    intro regs regs' new hone h
    unfold registerAll at h
    split at h
    · cases h
    · rename_i hm
      split at h
      · cases h
      · rename_i regs1 h1
        split at h
        · cases h
        · rename_i regs2 new2 h2
          simp only [Except.ok.injEq, Prod.mk.injEq] at h
          obtain ⟨rfl, rfl⟩ := h
          have hone1 := registerOne_onePid hone h1
          obtain ⟨g1, g2, g3, g4⟩ := ih hone1 h2
          refine ⟨fun r hr => ?_, by rw [g2]; rfl, fun x hx => ?_, g4⟩
          · rcases g1 r hr with hr | hr
            · rw [registerOne_ok h1] at hr
              rcases List.mem_cons.mp hr with rfl | hr
              · exact .inr (List.mem_cons_self ..)
              · exact .inl (cleanHandlers_sub hr)
            · exact .inr (List.mem_cons_of_mem _ hr)
          · rcases List.mem_cons.mp hx with rfl | hx
            · exact Decidable.not_not.mp hm
            · exact g3 x hx

/-- Why registering the handlers of a subscription terminates the process. -/
theorem registerAll_error {c : Cfg} {mk : Nat → Reg} {ms : List Nat} {e : Cause} (hmk : ∀ m, (mk m).method = m) :
    ∀ {regs : List Reg}, OnePid regs → registerAll c regs mk ms = .error e →
    (e = .unknownMethod ∧ ∃ m ∈ ms, ¬ m ∈ c.methods (mk m).skel) ∨
    ∃ m ∈ ms, ∃ o, o.proxy = (mk m).proxy ∧ o.method = m ∧ (o.skel = (mk m).skel → o.pid = (mk m).pid) ∧
      ((e = .handlerExists (mk m) o ∧ o.lvl = (mk m).lvl) ∨ (e = .guardExists (mk m) o ∧ o.skel = (mk m).skel)) ∧
      (o ∈ regs ∨ (o = mk m ∧ ¬ ms.Nodup)) := by
  induction ms with
  | nil => intro regs _ h; simp [registerAll] at h
  | cons m ms ih =>
    intro regs hone h
    unfold registerAll at h
    split at h
    · rename_i hm
      cases h
      exact .inl ⟨rfl, m, List.mem_cons_self .., hm⟩
    · split at h
      · rename_i e' h1
        cases h
        obtain ⟨o, ho, g1, g2, g3, g4⟩ := registerOne_error hone h1
        exact .inr ⟨m, List.mem_cons_self .., o, g1, by rw [g2, hmk], g3, g4, .inl ho⟩
      · rename_i regs1 h1
        split at h
        · rename_i e' h2
          cases h
          rcases ih (registerOne_onePid hone h1) h2 with ⟨h3, x, hx, h4⟩ | ⟨x, hx, o, g1, g2, g3, g4, g5⟩
          · exact .inl ⟨h3, x, List.mem_cons_of_mem _ hx, h4⟩
          · refine .inr ⟨x, List.mem_cons_of_mem _ hx, o, g1, g2, g3, g4, ?_⟩
            rcases g5 with g5 | ⟨g5, g6⟩
            · rw [registerOne_ok h1] at g5
              rcases List.mem_cons.mp g5 with rfl | g5
              · rw [hmk] at g2
                subst g2
                refine .inr ⟨rfl, fun hn => ?_⟩
                exact (List.nodup_cons.mp hn).1 hx
              · exact .inl (cleanHandlers_sub g5)
            · exact .inr ⟨g5, fun hn => g6 (List.nodup_cons.mp hn).2⟩
        · cases h

/-! ### The invariant -/

/-- The table of the service still holds the region for the process of the handler. -/
def Holds (s : St) (r : Reg) : Prop := (s.res r.skel).Has ⟨r.proxy.app, r.proxy.ctr, r.pid, r.region⟩

/-- A handler was registered, and its memory is still there unless one of the events in `P` has happened since. -/
def Tracked (s : St) (r : Reg) (P : Ev → Prop) : Prop :=
  ∃ post pre, s.log = post ++ .registered r :: pre ∧ (Holds s r ∨ s.callAlive r.skel r.gen = false ∨ ∃ e ∈ post, P e)

def Strong (s : St) (r : Reg) : Prop := Tracked s r (fun e => e.OtherProcess r)
def Weak (s : St) (r : Reg) : Prop := Tracked s r (fun e => e.OtherProcess r ∨ e.Unsubscribes r)

theorem Strong.weak {s : St} {r : Reg} (h : Strong s r) : Weak s r := by
  obtain ⟨post, pre, h1, h2⟩ := h
  refine ⟨post, pre, h1, ?_⟩
  rcases h2 with h2 | h2 | ⟨e, he, h2⟩
  · exact .inl h2
  · exact .inr (.inl h2)
  · exact .inr (.inr ⟨e, he, .inl h2⟩)

/-- Why an event may be in the log. -/
def Just (c : Cfg) : Ev → List Ev → Prop
  | .subscribed k l _ u _, _ => c.Allows k l u
  | .registered r, tl => .subscribed r.skel r.lvl r.proxy r.uid r.pid ∈ tl
  | .unsubscribed _ _, _ => True
  | .called r u l p m, tl => r.uid = u ∧ (r.lvl = l ∧ r.proxy = p ∧ r.method = m) ∧ .registered r ∈ tl
  | .used r b, tl => b = false → Since tl r (fun e => e.OtherProcess r ∨ e.Unsubscribes r)

def LogOk (c : Cfg) : List Ev → Prop
  | [] => True
  | e :: tl => Just c e tl ∧ LogOk c tl

structure Inv (c : Cfg) (s : St) : Prop where
  wf : ∀ k, Wf (s.res k)
  onePid : OnePid s.regs
  genRegs : ∀ r ∈ s.regs, r.gen ≤ s.gen r.skel
  methods : ∀ r ∈ s.regs, r.method ∈ c.methods r.skel
  strong : ∀ r ∈ s.regs, Strong s r
  threads : ∀ t, c.threads ≤ t → s.pc t = .idle
  sub : ∀ t k l p u pid g, s.pc t = .sub k l p u pid g → c.Allows k l u
  call : ∀ t r u l p m, s.pc t = .call r u l p m → (Weak s r ∧ r.gen ≤ s.gen r.skel) ∧ r.lvl = l ∧ r.proxy = p ∧ r.method = m
  calling : ∀ t r, s.pc t = .calling r → Weak s r ∧ r.gen ≤ s.gen r.skel ∧ s.callAlive r.skel r.gen = true
  log : LogOk c s.log

theorem inv_init (c : Cfg) : Inv c init := by
  refine ⟨fun _ => MethodRes.wf_empty, ?_, ?_, ?_, ?_, fun _ _ => rfl, ?_, ?_, ?_, trivial⟩
  · intro r hr; simp [init] at hr
  · intro r hr; simp [init] at hr
  · intro r hr; simp [init] at hr
  · intro r hr; simp [init] at hr
  · intro t k l p u pid g h; simp [init] at h
  · intro t r u l p m h; simp [init] at h
  · intro t r h; simp [init] at h

/-- Tracking survives a change that only adds events, keeps what is held (up to the events), and does not revive scopes. -/
theorem Tracked.mono {s s' : St} {r : Reg} {P : Ev → Prop} (h : Tracked s r P) (ext : List Ev) (hlog : s'.log = ext ++ s.log)
    (hheld : Holds s r → Holds s' r ∨ s'.callAlive r.skel r.gen = false ∨ ∃ e ∈ ext, P e)
    (halive : s.callAlive r.skel r.gen = false → s'.callAlive r.skel r.gen = false) : Tracked s' r P := by
  obtain ⟨post, pre, h1, h2⟩ := h
  refine ⟨ext ++ post, pre, by rw [hlog, h1, List.append_assoc], ?_⟩
  rcases h2 with h2 | h2 | ⟨e, he, h2⟩
  · rcases hheld h2 with h3 | h3 | ⟨e, he, h3⟩
    · exact .inl h3
    · exact .inr (.inl h3)
    · exact .inr (.inr ⟨e, List.mem_append_left _ he, h3⟩)
  · exact .inr (.inl (halive h2))
  · exact .inr (.inr ⟨e, List.mem_append_right _ he, h2⟩)

theorem Tracked.since {s : St} {r : Reg} {P : Ev → Prop} (h : Tracked s r P) (ha : s.callAlive r.skel r.gen = true)
    (hh : ¬ Holds s r) : Since s.log r P := by
  obtain ⟨post, pre, h1, h2⟩ := h
  rcases h2 with h2 | h2 | h2
  · exact absurd h2 hh
  · rw [ha] at h2; cases h2
  · exact ⟨post, pre, h1, h2⟩

theorem Tracked.registered {s : St} {r : Reg} {P : Ev → Prop} (h : Tracked s r P) : .registered r ∈ s.log := by
  obtain ⟨post, pre, h1, _⟩ := h
  rw [h1]; simp

/-- A step that changes neither tables nor handlers nor scopes nor the log, only the states of threads. -/
theorem inv_pc {c : Cfg} {s : St} (hi : Inv c s) (t : Nat) (v : Pc) (ht : v ≠ .idle → ¬ c.threads ≤ t)
    (hs : ∀ k l p u pid g, v = .sub k l p u pid g → c.Allows k l u)
    (hc : ∀ r u l p m, v = .call r u l p m → (Weak s r ∧ r.gen ≤ s.gen r.skel) ∧ r.lvl = l ∧ r.proxy = p ∧ r.method = m)
    (hcc : ∀ r, v = .calling r → Weak s r ∧ r.gen ≤ s.gen r.skel ∧ s.callAlive r.skel r.gen = true) :
    Inv c { s with pc := upd s.pc t v } := by
  refine ⟨hi.wf, hi.onePid, hi.genRegs, hi.methods, hi.strong, ?_, ?_, ?_, ?_, hi.log⟩
  · intro t' ht'
    show upd s.pc t v t' = _
    rw [upd_apply]
    split
    · rename_i he
      subst he
      by_cases hv : v = .idle
      · exact hv
      · exact absurd ht' (ht hv)
    · exact hi.threads t' ht'
  · intro t' k l p u pid g h
    replace h : upd s.pc t v t' = _ := h
    rw [upd_apply] at h
    split at h
    · exact hs _ _ _ _ _ _ h
    · exact hi.sub _ _ _ _ _ _ _ h
  · intro t' r u l p m h
    replace h : upd s.pc t v t' = _ := h
    rw [upd_apply] at h
    split at h
    · exact hc _ _ _ _ _ h
    · exact hi.call _ _ _ _ _ _ h
  · intro t' r h
    replace h : upd s.pc t v t' = _ := h
    rw [upd_apply] at h
    split at h
    · exact hcc _ h
    · exact hi.calling _ _ h

theorem inv_idle {c : Cfg} {s : St} (hi : Inv c s) (t : Nat) : Inv c { s with pc := upd s.pc t .idle } :=
  inv_pc hi t .idle (fun h => absurd rfl h) (fun _ _ _ _ _ _ h => by cases h) (fun _ _ _ _ _ h => by cases h) (fun _ h => by cases h)

/-- A change of phases that keeps the tables and the log. -/
theorem inv_change {c : Cfg} {s s' : St} (hi : Inv c s) (ext : List Ev) (hlog : s'.log = ext ++ s.log) (hpc : s'.pc = s.pc)
    (hwf : ∀ k, Wf (s'.res k)) (hone : OnePid s'.regs)
    (hgen : ∀ k, s.gen k ≤ s'.gen k)
    (hok : LogOk c s'.log)
    (hregs : ∀ r ∈ s'.regs, r ∈ s.regs ∨ (r.gen ≤ s'.gen r.skel ∧ r.method ∈ c.methods r.skel ∧ Strong s' r))
    (halive : ∀ r : Reg, r.gen ≤ s.gen r.skel → s.callAlive r.skel r.gen = false → s'.callAlive r.skel r.gen = false)
    (hcalling : ∀ t r, s.pc t = .calling r → s.callAlive r.skel r.gen = true → s'.callAlive r.skel r.gen = true)
    (hheldS : ∀ r ∈ s.regs, r ∈ s'.regs → Holds s r →
      Holds s' r ∨ s'.callAlive r.skel r.gen = false ∨ ∃ e ∈ ext, e.OtherProcess r)
    (hheldW : ∀ r, Holds s r →
      Holds s' r ∨ s'.callAlive r.skel r.gen = false ∨ ∃ e ∈ ext, e.OtherProcess r ∨ e.Unsubscribes r) :
    Inv c s' := by
  refine ⟨hwf, hone, ?_, ?_, ?_, ?_, ?_, ?_, ?_, hok⟩
  · intro r hr
    rcases hregs r hr with h | h
    · exact Nat.le_trans (hi.genRegs r h) (hgen _)
    · exact h.1
  · intro r hr
    rcases hregs r hr with h | h
    · exact hi.methods r h
    · exact h.2.1
  · intro r hr
    rcases hregs r hr with h | h
    · exact (hi.strong r h).mono ext hlog (hheldS r h hr) (halive r (hi.genRegs r h))
    · exact h.2.2
  · intro t ht; rw [hpc]; exact hi.threads t ht
  · intro t k l p u pid g h; rw [hpc] at h; exact hi.sub t k l p u pid g h
  · intro t r u l p m h
    rw [hpc] at h
    obtain ⟨⟨h1, h2⟩, h3⟩ := hi.call t r u l p m h
    exact ⟨⟨h1.mono ext hlog (hheldW r) (halive r h2), Nat.le_trans h2 (hgen _)⟩, h3⟩
  · intro t r h
    rw [hpc] at h
    obtain ⟨h1, h2, h3⟩ := hi.calling t r h
    exact ⟨h1.mono ext hlog (hheldW r) (halive r h2), Nat.le_trans h2 (hgen _), hcalling t r h h3⟩

theorem callAlive_eq {s s' : St} (hg : s'.gen = s.gen) (hp : s'.phase = s.phase) (k g : Nat) :
    s'.callAlive k g = s.callAlive k g := by
  unfold St.callAlive; rw [hg, hp]

/-! ### Subscribing -/

theorem logOk_append {c : Cfg} {ext log : List Ev} (h : LogOk c log) (he : ∀ e ∈ ext, ∀ tl, (∀ x ∈ log, x ∈ tl) → Just c e tl) :
    LogOk c (ext ++ log) := by
  induction ext with
  | nil => exact h
  | cons e ext ih =>
    refine ⟨he e (List.mem_cons_self ..) _ (fun x hx => List.mem_append_right _ hx), ?_⟩
    exact ih (fun e' he' => he e' (List.mem_cons_of_mem _ he'))

/-- How a subscription changes what a table holds: it takes regions only from another process of the application. -/
theorem holds_subscribe {m : MethodRes.Map} {app ctr pid n : Nat} (hno : ¬ MethodRes.contains m app ctr pid = true) (e : Entry)
    (he : m.Has e) :
    ((MethodRes.insert (MethodRes.eraseCrashed m app pid) app ctr pid n).Has e ∧ (MethodRes.eraseCrashed m app pid).Has e) ∨
      (app = e.app ∧ pid ≠ e.pid) := by
  by_cases hk : app = e.app → pid = e.pid
  · left
    have h1 := (MethodRes.has_eraseCrashed m app pid e).mpr ⟨he, hk⟩
    refine ⟨(MethodRes.has_insert app ctr pid n (MethodRes.pid_eraseCrashed m app pid) ?_ e).mpr (.inl h1), h1⟩
    rintro ⟨r', h'⟩
    exact hno ((MethodRes.contains_iff m app ctr pid).mpr ⟨r', ((MethodRes.has_eraseCrashed m app pid _).mp h').1⟩)
  · right
    exact ⟨Classical.byContradiction fun h => hk (fun h' => absurd h' h), fun h => hk (fun _ => h)⟩

theorem holds_inserted {m : MethodRes.Map} {app ctr pid n : Nat} (hno : ¬ MethodRes.contains m app ctr pid = true) :
    (MethodRes.insert (MethodRes.eraseCrashed m app pid) app ctr pid n).Has ⟨app, ctr, pid, n⟩ := by
  refine (MethodRes.has_insert app ctr pid n (MethodRes.pid_eraseCrashed m app pid) ?_ _).mpr (.inr rfl)
  rintro ⟨r', h'⟩
  exact hno ((MethodRes.contains_iff m app ctr pid).mpr ⟨r', ((MethodRes.has_eraseCrashed m app pid _).mp h').1⟩)

theorem wf_upd {res : Nat → MethodRes.Map} (h : ∀ k, Wf (res k)) (k : Nat) {m : MethodRes.Map} (hm : Wf m) :
    ∀ j, Wf (upd res k m j) := by
  intro j
  rw [upd_apply]
  split
  · exact hm
  · exact h j

theorem inv_subscribed {c : Cfg} {s : St} (hi : Inv c s) {k : Nat} {l : Lvl} {p : Proxy} {u pid : Nat} (ha : c.Allows k l u)
    (opened : Option (List Nat)) : Inv c (onSubscribed c s k l p u pid opened) := by
  unfold onSubscribed
  dsimp only
  have hlog1 : LogOk c (.subscribed k l p u pid :: s.log) := ⟨ha, hi.log⟩
  have hother : ∀ r : Reg, r.skel = k → p.app = r.proxy.app → pid ≠ r.pid → (Ev.subscribed k l p u pid).OtherProcess r := by
    rintro r rfl h1 h2
    exact ⟨l, p, u, pid, rfl, h1, h2⟩
  split
  · exact inv_change hi [_] rfl rfl hi.wf hi.onePid (fun _ => Nat.le_refl _) hlog1 (fun r hr => .inl hr)
      (fun r _ h => by rw [callAlive_eq rfl rfl]; exact h) (fun t r _ h => by rw [callAlive_eq rfl rfl]; exact h)
      (fun r _ _ h => .inl h) (fun r h => .inl h)
  · rename_i hc
    cases opened with
    | none =>
      dsimp only
      have hheld : ∀ r, Holds s r → Holds { s with
            log := .subscribed k l p u pid :: s.log,
            res := upd s.res k (MethodRes.eraseCrashed (s.res k) p.app pid) } r ∨
          ∃ e ∈ [Ev.subscribed k l p u pid], e.OtherProcess r := by
        intro r hr
        by_cases hk : r.skel = k
        · unfold Holds at hr ⊢
          dsimp only
          rw [hk] at hr ⊢
          rw [upd_self]
          rcases holds_subscribe (n := 0) hc _ hr with h | ⟨h1, h2⟩
          · exact .inl h.2
          · exact .inr ⟨_, List.mem_singleton.mpr rfl, hother r hk h1 h2⟩
        · left
          unfold Holds at hr ⊢
          dsimp only
          rw [upd_ne _ _ hk]; exact hr
      exact inv_change hi [_] rfl rfl (wf_upd hi.wf k (MethodRes.wf_eraseCrashed (hi.wf k) _ _)) hi.onePid
        (fun _ => Nat.le_refl _) hlog1 (fun r hr => .inl hr)
        (fun r _ h => by rw [callAlive_eq rfl rfl]; exact h) (fun t r _ h => by rw [callAlive_eq rfl rfl]; exact h)
        (fun r _ _ h => (hheld r h).elim .inl (fun h => .inr (.inr h)))
        (fun r h => (hheld r h).elim .inl (fun ⟨e, h1, h2⟩ => .inr (.inr ⟨e, h1, .inl h2⟩)))
    | some ms =>
      dsimp only
      have hwf := wf_upd hi.wf k (MethodRes.wf_insert (MethodRes.wf_eraseCrashed (hi.wf k) p.app pid) p.app p.ctr pid s.next)
      have hheld : ∀ (s' : St), s'.res = upd s.res k (MethodRes.insert (MethodRes.eraseCrashed (s.res k) p.app pid) p.app p.ctr pid s.next) →
          ∀ ext : List Ev, Ev.subscribed k l p u pid ∈ ext → ∀ r, Holds s r → Holds s' r ∨ ∃ e ∈ ext, e.OtherProcess r := by
        intro s' hres ext hext r hr
        by_cases hk : r.skel = k
        · unfold Holds at hr ⊢
          rw [hres]
          rw [hk] at hr ⊢
          rw [upd_self]
          rcases holds_subscribe (n := s.next) hc _ hr with h | ⟨h1, h2⟩
          · exact .inl h.1
          · exact .inr ⟨_, hext, hother r hk h1 h2⟩
        · left
          unfold Holds at hr ⊢
          rw [hres, upd_ne _ _ hk]; exact hr
      split
      · rename_i e he
        exact inv_change hi [_] rfl rfl hwf hi.onePid
          (fun _ => Nat.le_refl _) hlog1 (fun r hr => .inl hr)
          (fun r _ h => by rw [callAlive_eq rfl rfl]; exact h) (fun t r _ h => by rw [callAlive_eq rfl rfl]; exact h)
          (fun r _ _ h => (hheld _ rfl _ (List.mem_singleton.mpr rfl) r h).elim .inl (fun h => .inr (.inr h)))
          (fun r h => (hheld _ rfl _ (List.mem_singleton.mpr rfl) r h).elim .inl
            (fun ⟨e, h1, h2⟩ => .inr (.inr ⟨e, h1, .inl h2⟩)))
      · rename_i regs new he
        obtain ⟨g1, g2, g3, g4⟩ := registerAll_ok hi.onePid he
        have hext : Ev.subscribed k l p u pid ∈ new.reverse.map Ev.registered ++ [Ev.subscribed k l p u pid] := by simp
        refine inv_change hi (new.reverse.map .registered ++ [.subscribed k l p u pid]) (by simp) rfl hwf g4
          (fun _ => Nat.le_refl _) ?_ ?_
          (fun r _ h => by rw [callAlive_eq rfl rfl]; exact h) (fun t r _ h => by rw [callAlive_eq rfl rfl]; exact h)
          (fun r _ _ h => (hheld _ rfl _ hext r h).elim .inl (fun h => .inr (.inr h)))
          (fun r h => (hheld _ rfl _ hext r h).elim .inl (fun ⟨e, h1, h2⟩ => .inr (.inr ⟨e, h1, .inl h2⟩)))
        · refine logOk_append hlog1 ?_
          intro e he tl htl
          obtain ⟨r, hr, rfl⟩ := List.mem_map.mp he
          rw [List.mem_reverse, g2] at hr
          obtain ⟨m, _, rfl⟩ := List.mem_map.mp hr
          exact htl _ (List.mem_cons_self ..)
        · intro r hr
          rcases g1 r hr with h | h
          · exact .inl h
          · right
            have hin : Ev.registered r ∈ new.reverse.map Ev.registered := List.mem_map.mpr ⟨r, List.mem_reverse.mpr h, rfl⟩
            rw [g2] at h
            obtain ⟨m, hm, rfl⟩ := List.mem_map.mp h
            refine ⟨Nat.le_refl _, g3 m hm, ?_⟩
            obtain ⟨a, b, hab⟩ := List.append_of_mem hin
            refine ⟨a, b ++ .subscribed k l p u pid :: s.log, ?_, .inl ?_⟩
            · show new.reverse.map Ev.registered ++ _ = _
              rw [hab]; simp
            · show (upd s.res k _ k).Has _
              rw [upd_self]
              exact holds_inserted hc

/-! ### The other steps -/

theorem inv_unsubscribed {c : Cfg} {s : St} (hi : Inv c s) (k : Nat) (p : Proxy) : Inv c (onUnsubscribed c s k p) := by
  have hkeep : ∀ r, Holds s r → ¬ (r.skel = k ∧ r.proxy = p) → Holds (onUnsubscribed c s k p) r := by
    intro r hr hne
    unfold Holds onUnsubscribed at *
    dsimp only
    by_cases hk : r.skel = k
    · rw [hk] at hr ⊢
      rw [upd_self]
      refine (MethodRes.has_remove _ _ _ _).mpr ⟨hr, ?_⟩
      dsimp only
      rintro ⟨h1, h2⟩
      refine hne ⟨hk, ?_⟩
      obtain ⟨_, _, ⟨_, _⟩, _, _, _, _, _⟩ := r
      obtain ⟨_, _⟩ := p
      dsimp only at h1 h2 ⊢
      rw [h1, h2]
    · rw [upd_ne _ _ hk]; exact hr
  refine inv_change hi [.unsubscribed k p] rfl rfl (wf_upd hi.wf k (MethodRes.wf_remove (hi.wf k) _ _))
    (onePid_sub hi.onePid (fun r hr => (List.mem_filter.mp hr).1)) (fun _ => Nat.le_refl _) ⟨trivial, hi.log⟩
    (fun r hr => .inl (List.mem_filter.mp hr).1)
    (fun r _ h => by rw [callAlive_eq rfl rfl]; exact h) (fun t r _ h => by rw [callAlive_eq rfl rfl]; exact h) ?_ ?_
  · intro r hr hr' hh
    refine .inl (hkeep r hh ?_)
    rintro ⟨h1, h2⟩
    have h3 := (List.mem_filter.mp hr').2
    have h4 := hi.methods r hr
    rw [h1] at h4
    simp [h1, h2, h4] at h3
  · intro r hh
    by_cases h : r.skel = k ∧ r.proxy = p
    · exact .inr (.inr ⟨_, List.mem_singleton.mpr rfl, .inr (by rw [← h.1, ← h.2]; rfl)⟩)
    · exact .inl (hkeep r hh h)

theorem callAlive_upd_false {s s' : St} {k : Nat} (hg : s'.gen = s.gen) (ph : Phase)
    (hp : s'.phase = upd s.phase k ph) (hdec : s.callAlive k (s.gen k) = false → ph = .callExpired ∨ ph = .stopped)
    (j g : Nat) (h : s.callAlive j g = false) : s'.callAlive j g = false := by
  unfold St.callAlive at *
  rw [hg, hp, upd_apply]
  by_cases hj : j = k
  · subst hj
    rw [if_pos rfl]
    by_cases he : s.gen j = g
    · subst he
      rcases hdec h with rfl | rfl <;> simp
    · simp [he]
  · rw [if_neg hj]; exact h

theorem inv_phase {c : Cfg} {s s' : St} (hi : Inv c s) {k : Nat} {ph : Phase} (hlog : s'.log = s.log) (hpc : s'.pc = s.pc)
    (hg : s'.gen = s.gen) (hp : s'.phase = upd s.phase k ph)
    (hdec : s.callAlive k (s.gen k) = false → ph = .callExpired ∨ ph = .stopped)
    (hsub : ∀ r ∈ s'.regs, r ∈ s.regs) (hwf : ∀ j, Wf (s'.res j))
    (hres : ∀ r, Holds s r → Holds s' r ∨ s'.callAlive r.skel r.gen = false)
    (hcalling : ∀ t r, s.pc t = .calling r → s.callAlive r.skel r.gen = true → s'.callAlive r.skel r.gen = true) : Inv c s' :=
  inv_change hi [] hlog hpc hwf (onePid_sub hi.onePid hsub) (fun j => by rw [hg]; exact Nat.le_refl _)
    (by rw [hlog]; exact hi.log) (fun r hr => .inl (hsub r hr))
    (fun r _ h => callAlive_upd_false hg ph hp hdec _ _ h) hcalling
    (fun r _ _ h => (hres r h).elim .inl (fun h => .inr (.inl h))) (fun r h => (hres r h).elim .inl (fun h => .inr (.inl h)))

theorem busy_of_calling {c : Cfg} {s : St} (hi : Inv c s) {t : Nat} {r : Reg} (h : s.pc t = .calling r) :
    s.busy r.skel c.threads = true := by
  unfold St.busy
  rw [List.any_eq_true]
  refine ⟨t, ?_, by rw [h]; simp⟩
  rw [List.mem_range]
  apply Classical.byContradiction
  intro hn
  rw [hi.threads t (by omega)] at h
  cases h

theorem inv_stop {c : Cfg} {s : St} (hi : Inv c s) (k : Nat) : Inv c (stopStep s k (s.busy k c.threads)) := by
  unfold stopStep
  have alive_of : ∀ (ph : Phase) (t : Nat) (r : Reg), s.callAlive r.skel r.gen = true →
      (ph = .offered ∨ ph = .noSubscribe ∨ ph = .noHandlers ∨ ph = .subExpired) →
      ∀ s' : St, s'.gen = s.gen → s'.phase = upd s.phase k ph → s'.callAlive r.skel r.gen = true := by
    intro ph t r ha hph s' hg hp
    unfold St.callAlive at *
    rw [hg, hp, upd_apply]
    simp only [Bool.and_eq_true] at ha
    split
    · simp only [ha.1, Bool.true_and]
      rcases hph with rfl | rfl | rfl | rfl <;> rfl
    · simp only [ha.1, Bool.true_and]; exact ha.2
  split
  · exact hi
  · rename_i hp
    exact inv_phase hi rfl rfl rfl rfl (fun h => by simp [St.callAlive, hp] at h) (fun r h => h) hi.wf (fun r h => .inl h)
      (fun t r _ ha => alive_of _ t r ha (by simp) _ rfl rfl)
  · rename_i hp
    exact inv_phase hi rfl rfl rfl rfl (fun h => by simp [St.callAlive, hp] at h) (fun r h => (List.mem_filter.mp h).1) hi.wf
      (fun r h => .inl h) (fun t r _ ha => alive_of _ t r ha (by simp) _ rfl rfl)
  · rename_i hp
    exact inv_phase hi rfl rfl rfl rfl (fun h => by simp [St.callAlive, hp] at h) (fun r h => h) hi.wf (fun r h => .inl h)
      (fun t r _ ha => alive_of _ t r ha (by simp) _ rfl rfl)
  · rename_i hp
    split
    · exact hi
    · rename_i hb
      refine inv_phase hi rfl rfl rfl rfl (fun h => .inl rfl) (fun r h => h) hi.wf (fun r h => .inl h) ?_
      intro t r ht ha
      have := busy_of_calling hi ht
      by_cases hk : r.skel = k
      · rw [hk] at this; exact absurd this hb
      · unfold St.callAlive at *
        dsimp only
        rw [upd_ne _ _ hk]; exact ha
  · rename_i hp
    refine inv_phase hi rfl rfl rfl rfl (fun h => .inr rfl) (fun r h => h) (wf_upd hi.wf k MethodRes.wf_empty) ?_ ?_
    · intro r hr
      by_cases hk : r.skel = k
      · right
        unfold St.callAlive
        dsimp only
        rw [hk, upd_self]; simp
      · left
        unfold Holds at *
        dsimp only
        rw [upd_ne _ _ hk]; exact hr
    · intro t r ht ha
      by_cases hk : r.skel = k
      · unfold St.callAlive at ha
        rw [hk, hp] at ha
        simp at ha
      · unfold St.callAlive at *
        dsimp only
        rw [upd_ne _ _ hk]; exact ha

theorem inv_offer {c : Cfg} {s : St} (hi : Inv c s) {k : Nat} (hst : s.phase k = .stopped) :
    Inv c { s with phase := upd s.phase k .offered, gen := upd s.gen k (s.gen k + 1) } := by
  have hge : ∀ j, s.gen j ≤ upd s.gen k (s.gen k + 1) j := by
    intro j
    rw [upd_apply]
    split
    · rename_i h; rw [h]; omega
    · exact Nat.le_refl _
  have hno : ∀ g, s.callAlive k g = false := by intro g; simp [St.callAlive, hst]
  refine inv_change hi [] rfl rfl hi.wf hi.onePid hge hi.log (fun r hr => .inl hr) ?_ ?_ (fun r _ _ h => .inl h) (fun r h => .inl h)
  · intro r hr h
    unfold St.callAlive at *
    dsimp only
    by_cases hk : r.skel = k
    · rw [hk] at hr
      rw [hk, upd_self]
      have : (s.gen k + 1 == r.gen) = false := by simp; omega
      rw [this]; rfl
    · rw [upd_ne _ _ hk, upd_ne _ _ hk]; exact h
  · intro t r ht ha
    by_cases hk : r.skel = k
    · rw [hk, hno] at ha; cases ha
    · unfold St.callAlive at *
      dsimp only
      rw [upd_ne _ _ hk, upd_ne _ _ hk]; exact ha

theorem lookup_mem {regs : List Reg} {l : Lvl} {p : Proxy} {m : Nat} {r : Reg} (h : lookup regs l p m = some r) : r ∈ regs :=
  List.mem_of_find?_eq_some h

theorem lookup_key {regs : List Reg} {l : Lvl} {p : Proxy} {m : Nat} {r : Reg} (h : lookup regs l p m = some r) :
    r.lvl = l ∧ r.proxy = p ∧ r.method = m := by
  have := List.find?_some h
  simp only [Bool.and_eq_true, beq_iff_eq] at this
  exact ⟨this.1.1, this.1.2, this.2⟩

theorem inv_step {c : Cfg} {s : St} (hi : Inv c s) (o : Op) : Inv c (step c s o) := by
  unfold step
  split
  · exact hi
  · cases o with
    | offer k =>
      unfold stepCore
      dsimp only
      split
      · rename_i h; exact inv_offer hi h
      · exact hi
    | stop k => exact inv_stop hi k
    | subMsg t k l p uid pid =>
      unfold stepCore
      dsimp only
      split
      · exact hi
      · rename_i h1
        split
        · exact hi
        · rename_i hsv
          have hl : l = .b → c.asilB k = true := by
            intro hl; subst hl
            have := Decidable.not_not.mp hsv
            simp [served] at this
            exact this.2
          have key : c.Allows k l uid → Inv c { s with pc := upd s.pc t (.sub k l p uid pid (s.gen k)) } := fun ha =>
            inv_pc hi t _ (fun _ h => h1 (.inr h)) (fun _ _ _ _ _ _ h => by cases h; exact ha) (fun _ _ _ _ _ h => by cases h)
              (fun _ h => by cases h)
          split
          · rename_i uids hu
            split
            · rename_i hm
              exact key ⟨hl, fun us h => by rw [hu] at h; cases h; exact hm⟩
            · exact hi
          · rename_i hu
            exact key ⟨hl, fun us h => by rw [hu] at h; cases h⟩
    | subRun t opened =>
      unfold stepCore
      dsimp only
      split
      · rename_i k l p uid pid g hpc
        split
        · exact inv_subscribed (inv_idle hi t) (hi.sub t k l p uid pid g hpc) opened
        · exact inv_idle hi t
      · exact hi
    | unsubMsg t k l p =>
      unfold stepCore
      dsimp only
      split
      · exact hi
      · rename_i h1
        split
        · exact hi
        · exact inv_pc hi t _ (fun _ h => h1 (.inr h)) (fun _ _ _ _ _ _ h => by cases h) (fun _ _ _ _ _ h => by cases h)
            (fun _ h => by cases h)
    | unsubRun t =>
      unfold stepCore
      dsimp only
      split
      · split
        · exact inv_unsubscribed (inv_idle hi t) _ _
        · exact inv_idle hi t
      · exact hi
    | callMsg t l p m uid =>
      unfold stepCore
      dsimp only
      split
      · exact hi
      · rename_i h1
        split
        · exact hi
        · rename_i r hr
          have hm := lookup_mem hr
          exact inv_pc hi t _ (fun _ h => h1 (.inr h)) (fun _ _ _ _ _ _ h => by cases h)
            (fun r' u l p m h => by cases h; exact ⟨⟨(hi.strong _ hm).weak, hi.genRegs _ hm⟩, lookup_key hr⟩) (fun _ h => by cases h)
    | callEnter t =>
      unfold stepCore
      dsimp only
      split
      · rename_i r uid l p m hpc
        split
        · exact inv_idle hi t
        · rename_i hu
          have hu : r.uid = uid := Decidable.not_not.mp hu
          split
          · rename_i ha
            obtain ⟨⟨h1, h2⟩, hk⟩ := hi.call t r uid l p m hpc
            have ht : ¬ c.threads ≤ t := by
              intro h; rw [hi.threads t h] at hpc; cases hpc
            have := inv_pc hi t (.calling r) (fun _ => ht) (fun _ _ _ _ _ _ h => by cases h) (fun _ _ _ _ _ h => by cases h)
              (fun r' h => by cases h; exact ⟨h1, h2, ha⟩)
            exact inv_change this [.called r uid l p m] rfl rfl this.wf this.onePid (fun _ => Nat.le_refl _)
              ⟨⟨hu, hk, h1.registered⟩, hi.log⟩ (fun r hr => .inl hr)
              (fun r _ h => by rw [callAlive_eq rfl rfl]; exact h) (fun t r _ h => by rw [callAlive_eq rfl rfl]; exact h)
              (fun r _ _ h => .inl h) (fun r h => .inl h)
          · exact inv_idle hi t
      · exact hi
    | callUse t =>
      unfold stepCore
      dsimp only
      split
      · rename_i r hpc
        obtain ⟨h1, h2, h3⟩ := hi.calling t r hpc
        have := inv_idle hi t
        refine inv_change this [.used r (s.open r)] rfl rfl this.wf this.onePid (fun _ => Nat.le_refl _)
          ⟨?_, hi.log⟩ (fun r hr => .inl hr)
          (fun r _ h => by rw [callAlive_eq rfl rfl]; exact h) (fun t r _ h => by rw [callAlive_eq rfl rfl]; exact h)
          (fun r _ _ h => .inl h) (fun r h => .inl h)
        intro hop
        refine h1.since h3 ?_
        intro hh
        have : (s.res r.skel).at r.proxy.app r.proxy.ctr = some r.region :=
          (MethodRes.at_iff (hi.wf r.skel) _ _ _).mpr ⟨r.pid, hh⟩
        simp [St.open, this] at hop
      · exact hi

theorem inv_run {c : Cfg} {s : St} (hi : Inv c s) (ops : List Op) : Inv c (run c s ops) := by
  induction ops generalizing s with
  | nil => exact hi
  | cons o os ih => exact ih (inv_step hi o)

theorem inv_of_reachable {c : Cfg} {s : St} (h : Reachable c s) : Inv c s := by
  obtain ⟨ops, rfl⟩ := h
  exact inv_run (inv_init c) ops

theorem logOk_split {c : Cfg} {a tl : List Ev} {e : Ev} (h : LogOk c (a ++ e :: tl)) : Just c e tl ∧ LogOk c tl := by
  induction a with
  | nil => exact h
  | cons x a ih => exact ih h.2

theorem run_append (c : Cfg) (s : St) (a b : List Op) : run c s (a ++ b) = run c (run c s a) b := by
  induction a generalizing s with
  | nil => rfl
  | cons o os ih => exact ih _

/-! ### Termination -/

/-- The cause of a termination, in terms of the state at that time. -/
def CauseOk (s : St) : Cause → Prop
  | .unknownMethod => True
  | .handlerExists n o => o.lvl = n.lvl ∧ o.proxy = n.proxy ∧ o.method = n.method ∧ (o = n ∨ o.skel ≠ n.skel ∨ LeftOver s o)
  | .guardExists n o => o.skel = n.skel ∧ o.proxy = n.proxy ∧ o.method = n.method ∧ (o = n ∨ LeftOver s o)

theorem dead_subscribed {c : Cfg} {s : St} (hi : Inv c s) (hd : s.dead = none) {k : Nat} {l : Lvl} {p : Proxy} {u pid : Nat}
    (opened : Option (List Nat)) {cause : Cause} (h : (onSubscribed c s k l p u pid opened).dead = some cause) :
    CauseOk (onSubscribed c s k l p u pid opened) cause := by
  unfold onSubscribed at h ⊢
  dsimp only at h ⊢
  split at h
  · dsimp only at h; rw [hd] at h; cases h
  · rename_i hc
    rw [if_neg hc]
    cases opened with
    | none => dsimp only at h; rw [hd] at h; cases h
    | some ms =>
      dsimp only at h ⊢
      split at h
      · rename_i e he
        dsimp only at h
        cases h
        rcases registerAll_error (fun _ => rfl) hi.onePid he with ⟨rfl, _⟩ | ⟨m, hm, o, g1, g2, g3, g4, g5⟩
        · trivial
        · dsimp only at g1 g3 g4 g5
          have left : o.skel = k → o = ⟨k, l, p, m, u, pid, s.gen k, s.next⟩ ∨ ∀ s' : St, s'.gen = s.gen → s'.phase = s.phase →
              s'.log = .subscribed k l p u pid :: s.log → LeftOver s' o := by
            intro hk
            rcases g5 with g5 | ⟨g5, _⟩
            · right
              intro s' hg hp hl
              obtain ⟨post, pre, h1, h2⟩ := hi.strong o g5
              rcases h2 with h2 | h2 | ⟨e, he, h2⟩
              · exfalso
                apply hc
                refine (MethodRes.contains_iff _ _ _ _).mpr ⟨o.region, ?_⟩
                unfold Holds at h2
                rw [hk, g1, g3 hk] at h2
                exact h2
              · exact .inl (by rw [callAlive_eq hg hp]; exact h2)
              · exact .inr ⟨.subscribed k l p u pid :: post, pre, by rw [hl, h1]; rfl, e, List.mem_cons_of_mem _ he, h2⟩
            · exact .inl g5
          rcases g4 with ⟨rfl, g4⟩ | ⟨rfl, g4⟩
          · refine ⟨g4, g1, g2, ?_⟩
            by_cases hk : o.skel = k
            · rcases left hk with h | h
              · exact .inl h
              · exact .inr (.inr (h _ rfl rfl rfl))
            · exact .inr (.inl hk)
          · refine ⟨g4, g1, g2, ?_⟩
            rcases left g4 with h | h
            · exact .inl h
            · exact .inr (h _ rfl rfl rfl)
      · dsimp only at h; rw [hd] at h; cases h

theorem dead_step {c : Cfg} {s : St} (hi : Inv c s) (hc : ∀ cause, s.dead = some cause → CauseOk s cause) (o : Op) :
    ∀ cause, (step c s o).dead = some cause → CauseOk (step c s o) cause := by
  intro cause h
  unfold step at h ⊢
  by_cases hd : s.dead.isSome = true
  · rw [if_pos hd] at h ⊢
    exact hc cause h
  · rw [if_neg hd] at h ⊢
    have hd : s.dead = none := by simpa using hd
    have no : ∀ {s' : St}, s'.dead = s.dead → s'.dead = some cause → False := by
      intro s' h1 h2; rw [h1, hd] at h2; cases h2
    cases o with
    | subRun t opened =>
      unfold stepCore at h ⊢
      dsimp only at h ⊢
      split at h
      · rename_i k l p uid pid g hpc
        split at h
        · rename_i ha
          rw [if_pos ha]
          exact dead_subscribed (inv_idle hi t) hd opened h
        · exact (no rfl h).elim
      · exact (no rfl h).elim
    | offer k => exact (no (by unfold stepCore; dsimp only; split <;> rfl) h).elim
    | stop k =>
      refine (no ?_ h).elim
      show (stopStep s k _).dead = _
      unfold stopStep
      split <;> first | rfl | (split <;> rfl)
    | subMsg t k l p uid pid =>
      refine (no ?_ h).elim
      unfold stepCore
      dsimp only
      repeat' split
      all_goals rfl
    | unsubMsg t k l p =>
      refine (no ?_ h).elim
      unfold stepCore
      dsimp only
      repeat' split
      all_goals rfl
    | unsubRun t =>
      refine (no ?_ h).elim
      unfold stepCore
      dsimp only
      repeat' split
      all_goals rfl
    | callMsg t l p m uid =>
      refine (no ?_ h).elim
      unfold stepCore
      dsimp only
      repeat' split
      all_goals rfl
    | callEnter t =>
      refine (no ?_ h).elim
      unfold stepCore
      dsimp only
      repeat' split
      all_goals rfl
    | callUse t =>
      refine (no ?_ h).elim
      unfold stepCore
      dsimp only
      repeat' split
      all_goals rfl

theorem dead_run {c : Cfg} {s : St} (hi : Inv c s) (hc : ∀ cause, s.dead = some cause → CauseOk s cause) (ops : List Op) :
    ∀ cause, (run c s ops).dead = some cause → CauseOk (run c s ops) cause := by
  induction ops generalizing s with
  | nil => exact hc
  | cons o os ih => exact ih (inv_step hi o) (dead_step hi hc o)

/-! ### Well-behaved consumers -/

structure Calmed (pid : Nat → Nat) (svc : Proxy → Nat × Lvl) (s : St) : Prop where
  alive : s.dead = none
  sub : ∀ t k l p u q g, s.pc t = .sub k l p u q g → q = pid p.app ∧ svc p = (k, l)
  regs : ∀ r ∈ s.regs, r.pid = pid r.proxy.app ∧ svc r.proxy = (r.skel, r.lvl) ∧ r.gen = s.gen r.skel ∧
    (s.phase r.skel = .offered ∨ s.phase r.skel = .noSubscribe)
  log : ∀ k l p u q, .subscribed k l p u q ∈ s.log → q = pid p.app

theorem calmed_init (pid : Nat → Nat) (svc : Proxy → Nat × Lvl) : Calmed pid svc init := by
  refine ⟨rfl, ?_, ?_, ?_⟩
  · intro t k l p u q g h; simp [init] at h
  · intro r hr; simp [init] at hr
  · intro k l p u q h; simp [init] at h

/-- Changing the state of one thread, and appending events other than subscriptions. -/
theorem calmed_pc {pid : Nat → Nat} {svc : Proxy → Nat × Lvl} {s : St} (h : Calmed pid svc s) (t : Nat) (v : Pc) (ext : List Ev)
    (hv : ∀ k l p u q g, v = .sub k l p u q g → q = pid p.app ∧ svc p = (k, l))
    (he : ∀ k l p u q, .subscribed k l p u q ∈ ext → q = pid p.app) :
    Calmed pid svc { s with pc := upd s.pc t v, log := ext ++ s.log } := by
  refine ⟨h.alive, ?_, h.regs, ?_⟩
  · intro t' k l p u q g hp
    replace hp : upd s.pc t v t' = _ := hp
    rw [upd_apply] at hp
    split at hp
    · exact hv _ _ _ _ _ _ hp
    · exact h.sub _ _ _ _ _ _ _ hp
  · intro k l p u q hm
    rcases List.mem_append.mp hm with hm | hm
    · exact he _ _ _ _ _ hm
    · exact h.log _ _ _ _ _ hm

theorem calmed_sub {pid : Nat → Nat} {svc : Proxy → Nat × Lvl} {s s' : St} (h : Calmed pid svc s) (hd : s'.dead = s.dead)
    (hp : s'.pc = s.pc) (hl : ∀ e ∈ s'.log, e ∈ s.log ∨ ∀ k l p u q, e = .subscribed k l p u q → q = pid p.app)
    (hr : ∀ r ∈ s'.regs, r ∈ s.regs ∧ s'.gen r.skel = s.gen r.skel ∧
      ((s.phase r.skel = .offered ∨ s.phase r.skel = .noSubscribe) → s'.phase r.skel = .offered ∨ s'.phase r.skel = .noSubscribe)) :
    Calmed pid svc s' := by
  refine ⟨by rw [hd]; exact h.alive, by rw [hp]; exact h.sub, ?_, ?_⟩
  · intro r hm
    obtain ⟨h1, h2, h3⟩ := hr r hm
    obtain ⟨g1, g2, g3, g4⟩ := h.regs r h1
    exact ⟨g1, g2, by rw [h2]; exact g3, h3 g4⟩
  · intro k l p u q hm
    rcases hl _ hm with hm | hm
    · exact h.log _ _ _ _ _ hm
    · exact hm _ _ _ _ _ rfl

theorem calmed_subscribed {c : Cfg} {pid : Nat → Nat} {svc : Proxy → Nat × Lvl} {s : St} (hi : Inv c s) (h : Calmed pid svc s)
    {k : Nat} {l : Lvl} {p : Proxy} {u q : Nat} (hq : q = pid p.app) (hk : svc p = (k, l)) (opened : Option (List Nat))
    (hph : s.phase k = .offered ∨ s.phase k = .noSubscribe)
    (hms : ∀ ms, opened = some ms → ms.Nodup ∧ ∀ m ∈ ms, m ∈ c.methods k) :
    Calmed pid svc (onSubscribed c s k l p u q opened) := by
  have hev : ∀ k' l' p' u' q', Ev.subscribed k l p u q = .subscribed k' l' p' u' q' → q' = pid p'.app := by
    intro k' l' p' u' q' he
    cases he; exact hq
  unfold onSubscribed
  dsimp only
  split
  · exact calmed_sub h rfl rfl (fun e he => (List.mem_cons.mp he).elim (fun he => .inr (he ▸ hev)) .inl)
      (fun r hr => ⟨hr, rfl, id⟩)
  · rename_i hc
    cases opened with
    | none =>
      exact calmed_sub h rfl rfl (fun e he => (List.mem_cons.mp he).elim (fun he => .inr (he ▸ hev)) .inl)
        (fun r hr => ⟨hr, rfl, id⟩)
    | some ms =>
      obtain ⟨hnd, hmm⟩ := hms ms rfl
      dsimp only
      split
      · rename_i e he
        exfalso
        rcases registerAll_error (fun _ => rfl) hi.onePid he with ⟨_, m, hm, hn⟩ | ⟨m, hm, o, g1, g2, g3, g4, g5⟩
        · exact hn (hmm m hm)
        · dsimp only at g1 g3 g5
          rcases g5 with g5 | ⟨_, g5⟩
          · obtain ⟨f1, f2, f3, f4⟩ := h.regs o g5
            rw [g1, hk] at f2
            have hsk : o.skel = k := by simp only [Prod.mk.injEq] at f2; exact f2.1.symm
            obtain ⟨post, pre, h1, h2⟩ := hi.strong o g5
            rcases h2 with h2 | h2 | ⟨e, hem, l', p', u', q', rfl, h3, h4⟩
            · apply hc
              refine (MethodRes.contains_iff _ _ _ _).mpr ⟨o.region, ?_⟩
              unfold Holds at h2
              rw [hsk, g1, g3 hsk] at h2
              exact h2
            · unfold St.callAlive at h2
              rw [← f3] at h2
              rcases f4 with f4 | f4 <;> simp [f4] at h2
            · have := h.log _ _ _ _ _ (show Ev.subscribed o.skel l' p' u' q' ∈ s.log by rw [h1]; simp [hem])
              rw [h3] at this
              exact h4 (by rw [this, f1])
          · exact g5 hnd
      · rename_i regs new he
        obtain ⟨g1, g2, g3, g4⟩ := registerAll_ok hi.onePid he
        refine ⟨h.alive, h.sub, ?_, ?_⟩
        · intro r hr
          rcases g1 r hr with hr | hr
          · exact h.regs r hr
          · rw [g2] at hr
            obtain ⟨m, _, rfl⟩ := List.mem_map.mp hr
            exact ⟨hq, hk, rfl, hph⟩
        · intro k' l' p' u' q' hm
          rcases List.mem_append.mp hm with hm | hm
          · obtain ⟨_, _, h⟩ := List.mem_map.mp hm; cases h
          · rcases List.mem_cons.mp hm with hm | hm
            · exact hev _ _ _ _ _ hm.symm
            · exact h.log _ _ _ _ _ hm

theorem calmed_step {c : Cfg} {pid : Nat → Nat} {svc : Proxy → Nat × Lvl} {s : St} (hi : Inv c s) (h : Calmed pid svc s) (o : Op)
    (ho : Calm c pid svc s o) : Calmed pid svc (step c s o) := by
  unfold step
  rw [if_neg (by rw [h.alive]; simp)]
  have pcOnly : ∀ t v, (∀ k l p u q g, v ≠ Pc.sub k l p u q g) → Calmed pid svc { s with pc := upd s.pc t v } := fun t v hv =>
    calmed_pc h t v [] (fun k l p u q g he => absurd he (hv k l p u q g)) (fun _ _ _ _ _ he => by cases he)
  cases o with
  | offer k =>
    unfold stepCore
    dsimp only
    split
    · rename_i hst
      refine calmed_sub h rfl rfl (fun e he => .inl he) (fun r hr => ?_)
      have hne : r.skel ≠ k := by
        rintro rfl
        obtain ⟨_, _, _, h4⟩ := h.regs r hr
        rcases h4 with h4 | h4 <;> rw [hst] at h4 <;> cases h4
      exact ⟨hr, upd_ne _ _ hne, fun h => by dsimp only; rw [upd_ne _ _ hne]; exact h⟩
    · exact h
  | stop k =>
    show Calmed pid svc (stopStep s k _)
    unfold stopStep
    have away : ∀ (ph : Phase), s.phase k ≠ .offered → s.phase k ≠ .noSubscribe → ∀ r ∈ s.regs,
        (s.phase r.skel = .offered ∨ s.phase r.skel = .noSubscribe) →
        upd s.phase k ph r.skel = .offered ∨ upd s.phase k ph r.skel = .noSubscribe := by
      intro ph h1 h2 r _ h3
      have : r.skel ≠ k := by
        rintro rfl
        rcases h3 with h3 | h3
        · exact h1 h3
        · exact h2 h3
      rw [upd_ne _ _ this]; exact h3
    split
    · exact h
    · refine calmed_sub h rfl rfl (fun e he => .inl he) (fun r hr => ⟨hr, rfl, fun h3 => ?_⟩)
      dsimp only
      rw [upd_apply]
      split
      · exact .inr rfl
      · exact h3
    · refine calmed_sub h rfl rfl (fun e he => .inl he) (fun r hr => ⟨(List.mem_filter.mp hr).1, rfl, fun h3 => ?_⟩)
      have hk : r.skel ≠ k := by
        have := (List.mem_filter.mp hr).2
        simpa using this
      dsimp only
      rw [upd_ne _ _ hk]; exact h3
    · rename_i hp
      exact calmed_sub h rfl rfl (fun e he => .inl he)
        (fun r hr => ⟨hr, rfl, away _ (by rw [hp]; simp) (by rw [hp]; simp) r hr⟩)
    · rename_i hp
      split
      · exact h
      · exact calmed_sub h rfl rfl (fun e he => .inl he)
          (fun r hr => ⟨hr, rfl, away _ (by rw [hp]; simp) (by rw [hp]; simp) r hr⟩)
    · rename_i hp
      exact calmed_sub h rfl rfl (fun e he => .inl he)
        (fun r hr => ⟨hr, rfl, away _ (by rw [hp]; simp) (by rw [hp]; simp) r hr⟩)
  | subMsg t k l p uid q =>
    have key : Calmed pid svc { s with pc := upd s.pc t (.sub k l p uid q (s.gen k)) } :=
      calmed_pc h t _ [] (fun _ _ _ _ _ _ he => by cases he; exact ho) (fun _ _ _ _ _ he => by cases he)
    unfold stepCore
    dsimp only
    repeat' split
    all_goals first | exact h | exact key
  | subRun t opened =>
    unfold stepCore
    dsimp only
    unfold Calm at ho
    dsimp only at ho
    split
    · rename_i k l p u q g hpc
      rw [hpc] at ho
      dsimp only at ho
      have h' := pcOnly t .idle (fun _ _ _ _ _ _ he => by cases he)
      split
      · rename_i ha
        obtain ⟨h1, h2⟩ := h.sub t k l p u q g hpc
        refine calmed_subscribed (inv_idle hi t) h' h1 h2 opened ?_ ho.2
        unfold St.subAlive at ha
        simp only [Bool.and_eq_true, Bool.or_eq_true, beq_iff_eq] at ha
        rcases ha.2 with (ha | ha) | ha
        · exact .inl ha
        · exact .inr ha
        · exact absurd ha ho.1
      · exact h'
    · exact h
  | unsubMsg t k l p =>
    unfold stepCore
    dsimp only
    repeat' split
    all_goals first | exact h | exact pcOnly _ _ (fun _ _ _ _ _ _ he => by cases he)
  | unsubRun t =>
    unfold stepCore
    dsimp only
    split
    · split
      · refine calmed_sub (pcOnly t .idle (fun _ _ _ _ _ _ he => by cases he)) rfl rfl (fun e he => ?_)
          (fun r hr => ⟨(List.mem_filter.mp hr).1, rfl, id⟩)
        rcases List.mem_cons.mp he with rfl | he
        · exact .inr (fun _ _ _ _ _ he => by cases he)
        · exact .inl he
      · exact pcOnly _ _ (fun _ _ _ _ _ _ he => by cases he)
    · exact h
  | callMsg t l p m uid =>
    unfold stepCore
    dsimp only
    repeat' split
    all_goals first | exact h | exact pcOnly _ _ (fun _ _ _ _ _ _ he => by cases he)
  | callEnter t =>
    unfold stepCore
    dsimp only
    repeat' split
    all_goals first
      | exact h
      | exact pcOnly _ _ (fun _ _ _ _ _ _ he => by cases he)
      | exact calmed_pc h _ _ [_] (fun _ _ _ _ _ _ he => by cases he) (fun _ _ _ _ _ he => by simp at he)
  | callUse t =>
    unfold stepCore
    dsimp only
    repeat' split
    all_goals first
      | exact h
      | exact calmed_pc h _ _ [_] (fun _ _ _ _ _ _ he => by cases he) (fun _ _ _ _ _ he => by simp at he)

theorem calmed_run {c : Cfg} {pid : Nat → Nat} {svc : Proxy → Nat × Lvl} (ops : List Op) : ∀ {s : St}, Inv c s →
    Calmed pid svc s → CalmRun c pid svc s ops → Calmed pid svc (run c s ops) := by
  induction ops with
  | nil => exact fun _ h _ => h
  | cons o os ih => exact fun hi h hr => ih (inv_step hi o) (calmed_step hi h o hr.1) hr.2

end Verif.MethodSub
