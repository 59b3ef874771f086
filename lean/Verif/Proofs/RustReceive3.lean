import Verif.Proofs.RustReceive2

namespace Verif.RustReceive

theorem held_free (cfg : Cfg) (s : St) : cfg.maxNum - held s = free cfg s := by
  rw [held_eq]; rfl

theorem fetch_some {cfg : Cfg} {s : St} {cap limit : Nat} (box : List Nat) (h0 : 0 < limit) (h1 : limit ≤ cfg.maxNum) (h2 : 0 < free cfg s)
    (hc : limit ≤ cap) : ∃ xs b, fetch cfg s cap limit box = .got xs b := by
  rw [← held_free] at h2
  obtain ⟨b, hb⟩ := pushAll_some h0 hc (lastN (min limit (cfg.maxNum - held s)) s.unread) box
  refine ⟨lastN (min limit (cfg.maxNum - held s)) s.unread, b, ?_⟩
  unfold fetch
  rw [if_neg (by omega), if_neg (by omega), if_neg (by omega)]
  dsimp only
  rw [hb]

theorem fetch_full {cfg : Cfg} {s : St} {cap limit : Nat} (box : List Nat) (h0 : 0 < limit) (h1 : limit ≤ cfg.maxNum) (h2 : free cfg s = 0) :
    fetch cfg s cap limit box = .error .failed := by
  rw [← held_free] at h2
  unfold fetch
  rw [if_neg (by omega), if_neg (by omega), if_pos h2]

theorem Fetch.took {cfg : Cfg} {s s' : St} {cap limit : Nat} {box xs b : List Nat} (h : Fetch cfg s cap limit box xs b)
    (e1 : s'.got = s.got ++ xs) (e2 : s'.unread = []) : TookNewest s s' (min (min limit (RustReceive.free cfg s)) s.unread.length) xs := by
  have e := h.ex
  rw [held_free] at e
  refine ⟨⟨s.unread.take (s.unread.length - min limit (RustReceive.free cfg s)), ?_⟩, ?_, e1, e2⟩
  · rw [e, lastN, List.take_append_drop]
  · rw [e, length_lastN]

theorem Fetch.blen {cfg : Cfg} {s : St} {cap limit : Nat} {box xs b : List Nat} (h : Fetch cfg s cap limit box xs b) (hx : xs ≠ []) :
    b.length = min limit (box.length + xs.length) := by
  rcases h.eb with ⟨e, _⟩ | ⟨e, _⟩
  · exact absurd e hx
  · rw [e, length_lastN, List.length_append]

/-! The log. -/

def EvOk (cfg : Cfg) : Ev → Prop
  | .tried max (.ok n) => n ≤ max ∧ 0 < max ∧ max ≤ cfg.maxNum
  | .tried max (.err .bounds) => max = 0
  | .tried _ (.err .cancelled) => False
  | .received new max (.ok n) b => new ≤ n ∧ n ≤ max ∧ 0 < new ∧ max ≤ cfg.maxNum ∧ b.length ≤ cfg.cap ∧ Increasing b
  | .received new max (.err .bounds) _ => ¬ (0 < new ∧ new ≤ max ∧ max ≤ cfg.maxNum)
  | _ => True

theorem fetch_err {cfg : Cfg} {s : St} {cap limit : Nat} {box : List Nat} {e : Err} (h : fetch cfg s cap limit box = .error e) :
    (e = .bounds ∧ limit = 0) ∨ (e = .failed ∧ 0 < limit) := by
  unfold fetch at h
  split at h
  · injection h with h; exact .inl ⟨h.symm, by assumption⟩
  split at h
  · injection h with h; exact .inr ⟨h.symm, by omega⟩
  split at h
  · injection h with h; exact .inr ⟨h.symm, by omega⟩
  dsimp only at h
  split at h <;> cases h

/-- What a step appends to the log. -/
def LStep (cfg : Cfg) (s s' : St) : Prop := s'.log = s.log ∨ ∃ e, s'.log = s.log ++ [e] ∧ EvOk cfg e ∧
  (∀ a b c, e = .received a b (.err .cancelled) c → s.cancel = true)

theorem lstep_step {cfg : Cfg} {s : St} (w : WInv cfg s) (o : OInv cfg s) (op : Op) : LStep cfg s (step cfg s op) := by
  have hstay : LStep cfg s s := .inl rfl
  unfold step
  split
  · exact hstay
  cases op <;> dsimp only
  case store => exact .inl rfl
  case lose => exact .inl rfl
  case signal => unfold signal; split <;> exact .inl rfl
  case notify => unfold notify; split <;> exact .inl rfl
  case tryReceive m =>
    unfold tryReceive
    split
    · split <;> exact .inl rfl
    · split
      · rename_i hf
        refine .inr ⟨_, rfl, ?_, fun _ _ _ h => by cases h⟩
        rcases fetch_err hf with ⟨rfl, h⟩ | ⟨rfl, h⟩
        · exact h
        · trivial
      · exact .inl rfl
      · rename_i hf
        have hf := fetch_got hf
        exact .inr ⟨_, rfl, ⟨hf.len.1, hf.l0, hf.l1⟩, fun _ _ _ h => by cases h⟩
    · exact hstay
  case start a b => unfold start; split <;> exact .inl rfl
  case poll ok =>
    unfold poll finish
    split
    · exact hstay
    · rename_i f hf
      split
      · exact .inl rfl
      · split
        · split
          · exact .inl rfl
          · exact .inr ⟨_, rfl, trivial, fun _ _ _ h => by cases h⟩
        · rename_i hv
          exact .inr ⟨_, rfl, fun h => hv (valid_iff.2 h), fun _ _ _ h => by cases h⟩
      · exact hstay
  case go =>
    unfold go
    split
    · exact hstay
    · rename_i f hf
      split
      · split
        · rename_i hc; exact .inr ⟨_, rfl, trivial, fun _ _ _ _ => hc⟩
        · exact .inl rfl
      · rename_i hp
        obtain ⟨v1, v2, v3, v4, _⟩ := w.fv f hf (by rw [hp]; simp)
        split
        · rename_i e he
          rcases fetch_err he with ⟨_, h⟩ | ⟨rfl, h⟩
          · omega
          · exact .inr ⟨_, rfl, trivial, fun _ _ _ h => by cases h⟩
        · exact .inl rfl
        · rename_i xs b hg
          have hg := fetch_got hg
          have ho := oinv_fetch o hg
          have hl := hg.len.1
          dsimp only
          split
          · rename_i hn
            refine .inr ⟨_, rfl, ⟨hn, by omega, v1, v3, ho.bc, ho.bx⟩, fun _ _ _ h => by cases h⟩
          · exact .inl rfl
      · exact hstay
  case cancel => unfold cancel; split <;> exact .inl rfl
  case dropFut => unfold dropFut; (repeat' split) <;> exact .inl rfl
  case take => unfold take; (repeat' split) <;> exact .inl rfl
  case release x => exact .inl rfl
  case toStream ok => unfold toStream; (repeat' split) <;> exact .inl rfl
  case next =>
    unfold nextItem
    (repeat' split) <;> first
      | exact .inl rfl
      | exact .inr ⟨_, rfl, trivial, fun _ _ _ h => by cases h⟩
  case goStream =>
    unfold goStream
    (repeat' split) <;> first
      | exact .inl rfl
      | exact .inr ⟨_, rfl, trivial, fun _ _ _ h => by cases h⟩
      | (dsimp only; split <;> first | exact .inl rfl | exact .inr ⟨_, rfl, trivial, fun _ _ _ h => by cases h⟩)
  case dropStream => unfold dropStream; (repeat' split) <;> exact .inl rfl

theorem log_run {cfg : Cfg} : ∀ (ops : List Op) {s : St}, WInv cfg s → OInv cfg s → (∀ e ∈ s.log, EvOk cfg e) → ∀ e ∈ (run cfg s ops).log, EvOk cfg e
  | [], _, _, _, h => h
  | op :: ops, s, w, o, h => by
    refine log_run ops (winv_step w op) (oinv_step w o op) ?_
    rcases lstep_step w o op with e | ⟨e, he, hk, _⟩
    · rw [e]; exact h
    · rw [he]
      intro a ha
      rcases List.mem_append.1 ha with ha | ha
      · exact h a ha
      · rw [List.mem_singleton.1 ha]; exact hk

theorem cancel_step {cfg : Cfg} {s : St} (op : Op) (h : s.cancel = false) (hop : op ≠ .cancel) : (step cfg s op).cancel = false := by
  unfold step
  split
  · exact h
  cases op <;> dsimp only
  case cancel => exact absurd rfl hop
  case goStream =>
    unfold goStream
    (repeat' split) <;> first | exact h | (dsimp only; split <;> exact h)
  all_goals first
    | exact h
    | (unfold signal; split <;> exact h)
    | (unfold notify; split <;> exact h)
    | (unfold tryReceive; (repeat' split) <;> exact h)
    | (unfold start; (repeat' split) <;> first | exact h | rfl)
    | (unfold poll finish; (repeat' split) <;> first | exact h | rfl)
    | (unfold go finish; (repeat' split) <;> first | exact h | rfl | (dsimp only; split <;> first | exact h | rfl))
    | (unfold dropFut; (repeat' split) <;> first | exact h | rfl)
    | (unfold take; (repeat' split) <;> exact h)
    | (unfold toStream; (repeat' split) <;> exact h)
    | (unfold nextItem; (repeat' split) <;> exact h)
    | (unfold dropStream; (repeat' split) <;> exact h)

theorem cancelled_run {cfg : Cfg} : ∀ (ops : List Op) {s : St}, WInv cfg s → OInv cfg s → s.cancel = false →
    (∀ a b c, .received a b (.err .cancelled) c ∉ s.log) → .cancel ∉ ops → ∀ a b c, .received a b (.err .cancelled) c ∉ (run cfg s ops).log
  | [], _, _, _, _, h, _ => h
  | op :: ops, s, w, o, hc, h, hn => by
    refine cancelled_run ops (winv_step w op) (oinv_step w o op) (cancel_step op hc (fun e => hn (e ▸ List.mem_cons_self))) ?_
      (fun hm => hn (List.mem_cons_of_mem _ hm))
    rcases lstep_step w o op with e | ⟨e, he, _, hk⟩
    · rw [e]; exact h
    · rw [he]
      intro a b c ha
      rcases List.mem_append.1 ha with ha | ha
      · exact h a b c ha
      · have := hk a b c (List.mem_singleton.1 ha).symm
        rw [hc] at this; cases this

/-! Panics. -/

theorem panic_step {cfg : Cfg} {s : St} (w : WInv cfg s) (hc : cfg.maxNum ≤ cfg.cap) (h : s.panic = false) (op : Op)
    (h1 : ∀ m, op = .tryReceive m → ¬ Busy s) (h2 : op ≠ .toStream false) : (step cfg s op).panic = false := by
  have nofail : ∀ cap limit box, (limit ≤ cap ∨ cfg.maxNum ≤ cap) → fetch cfg s cap limit box ≠ .assertion := by
    intro cap limit box hl hf
    have hf' := hf
    unfold fetch at hf
    split at hf
    · cases hf
    split at hf
    · cases hf
    split at hf
    · cases hf
    obtain ⟨xs, b, e⟩ := fetch_some (cfg := cfg) (s := s) (cap := cap) (limit := limit) box (by omega) (by omega)
      (by rw [← held_free]; omega) (by omega)
    rw [e] at hf'; cases hf'
  unfold step
  split
  · exact h
  cases op <;> dsimp only
  case tryReceive m =>
    unfold tryReceive
    split
    · rename_i f _ hf
      split
      · exact h
      · rename_i hp; exact absurd ⟨f, hf, hp⟩ (h1 m rfl)
    · split
      · exact h
      · rename_i hf; exact absurd hf (nofail _ _ _ (.inr hc))
      · exact h
    · exact h
  case go =>
    unfold go finish
    split
    · exact h
    · split
      · split <;> exact h
      · split
        · exact h
        · rename_i hf; exact absurd hf (nofail _ _ _ (.inr hc))
        · dsimp only; split <;> exact h
      · exact h
  case goStream =>
    unfold goStream
    split
    · exact h
    · split
      · exact h
      · split
        · exact h
        · rename_i hf; exact absurd hf (nofail _ _ _ (.inl (Nat.le_refl _)))
        · dsimp only; split <;> exact h
      · exact h
  case toStream ok =>
    cases ok
    · exact absurd rfl h2
    · unfold toStream
      (repeat' split) <;> first | exact h | (rename_i hn; simp at hn)
  all_goals first
    | exact h
    | (unfold signal; split <;> exact h)
    | (unfold notify; split <;> exact h)
    | (unfold start; (repeat' split) <;> first | exact h | rfl)
    | (unfold poll finish; (repeat' split) <;> first | exact h | rfl)
    | (unfold cancel; (repeat' split) <;> first | exact h | rfl)
    | (unfold dropFut; (repeat' split) <;> first | exact h | rfl)
    | (unfold take; (repeat' split) <;> exact h)
    | (unfold nextItem; (repeat' split) <;> exact h)
    | (unfold dropStream; (repeat' split) <;> exact h)

theorem panic_run {cfg : Cfg} (hc : cfg.maxNum ≤ cfg.cap) : ∀ (ops : List Op) {s : St}, WInv cfg s → s.panic = false →
    (∀ pre op post, ops = pre ++ op :: post → (∀ m, op = .tryReceive m → ¬ Busy (run cfg s pre)) ∧ op ≠ .toStream false) →
    (run cfg s ops).panic = false
  | [], _, _, h, _ => h
  | op :: ops, s, w, h, hq => by
    obtain ⟨q1, q2⟩ := hq [] op ops rfl
    refine panic_run hc ops (winv_step w op) (panic_step w hc h op q1 q2) ?_
    intro pre o post e
    obtain ⟨r1, r2⟩ := hq (op :: pre) o post (by rw [e]; rfl)
    exact ⟨r1, r2⟩

/-! Streams. -/

theorem stream_step {cfg : Cfg} {s : St} (w : WInv cfg s) (op : Op) (hs : s.stream ≠ none) (ho : op ≠ .dropStream) :
    (step cfg s op).stream ≠ none ∧ ((step cfg s op).panic = false → ∃ d, (step cfg s op).got = s.got ++ d ∧
      (step cfg s op).out ++ inStream (step cfg s op) = s.out ++ inStream s ++ d) := by
  have keep : ∀ s' : St, s'.stream = s.stream → s'.got = s.got → s'.out = s.out →
      s'.stream ≠ none ∧ (s'.panic = false → ∃ d, s'.got = s.got ++ d ∧ s'.out ++ inStream s' = s.out ++ inStream s ++ d) := by
    intro s' e1 e2 e3
    exact ⟨e1 ▸ hs, fun _ => ⟨[], by simp [e2], by simp [inStream, e1, e3]⟩⟩
  have hfn : s.fut = none := by
    rcases w.x with h | h
    · exact h
    · exact absurd h hs
  obtain ⟨r, hr⟩ := Option.ne_none_iff_exists'.1 hs
  unfold step
  split
  · exact keep s rfl rfl rfl
  cases op <;> dsimp only
  case dropStream => exact absurd rfl ho
  case store => exact keep _ rfl rfl rfl
  case lose => exact keep _ rfl rfl rfl
  case release x => exact keep _ rfl rfl rfl
  case signal => unfold signal; split <;> exact keep _ rfl rfl rfl
  case notify => unfold notify; split <;> exact keep _ rfl rfl rfl
  case tryReceive m => unfold tryReceive; rw [hr]; exact keep _ rfl rfl rfl
  case start a b => unfold start; rw [hr]; exact keep _ rfl rfl rfl
  case poll ok => unfold poll; rw [hfn]; exact keep _ rfl rfl rfl
  case go => unfold go; rw [hfn]; exact keep _ rfl rfl rfl
  case cancel => unfold cancel; rw [hfn]; exact keep _ rfl rfl rfl
  case dropFut => unfold dropFut; rw [hfn]; exact keep _ rfl rfl rfl
  case take => unfold take; (repeat' split) <;> exact keep _ rfl rfl rfl
  case toStream ok => unfold toStream; rw [hr]; exact keep _ rfl rfl rfl
  case next =>
    unfold nextItem
    rw [hr]; dsimp only
    split <;> (try exact keep _ rfl rfl rfl)
    all_goals
      split
      · rename_i x b hb
        exact ⟨by simp, fun _ => ⟨[], by simp, by simp [inStream, hr, hb]⟩⟩
      · exact ⟨by simp, fun _ => ⟨[], by simp, by simp [inStream, hr]⟩⟩
  case goStream =>
    unfold goStream
    rw [hr]; dsimp only
    split
    · exact ⟨by simp, fun _ => ⟨[], by simp, by simp [inStream, hr]⟩⟩
    · rename_i hp
      have hb0 : r.buf = [] := w.sb r hr (by rw [hp]; simp)
      split
      · exact ⟨by simp, fun _ => ⟨[], by simp, by simp [inStream, hr]⟩⟩
      · exact ⟨by simp [hr], fun h => by cases h⟩
      · rename_i xs b hf
        have hf := fetch_got hf
        rw [hb0] at hf
        have eb := fill_eq hf
        subst eb
        cases b
        · exact ⟨by simp, fun _ => ⟨_, rfl, by simp [inStream, hr, hb0]⟩⟩
        · exact ⟨by simp, fun _ => ⟨_, rfl, by simp [inStream, hr, hb0]⟩⟩
    · exact keep _ rfl rfl rfl

theorem panic_stays {cfg : Cfg} : ∀ (ops : List Op) {s : St}, s.panic = true → run cfg s ops = s
  | [], _, _ => rfl
  | op :: ops, s, h => by
    have : step cfg s op = s := by unfold step; rw [if_pos h]
    show run cfg (step cfg s op) ops = s
    rw [this]; exact panic_stays ops h

theorem stream_run {cfg : Cfg} : ∀ (ops : List Op) {s : St}, WInv cfg s → s.stream ≠ none → .dropStream ∉ ops → (run cfg s ops).panic = false →
    (run cfg s ops).stream ≠ none ∧ ∃ d, (run cfg s ops).got = s.got ++ d ∧ (run cfg s ops).out ++ inStream (run cfg s ops) = s.out ++ inStream s ++ d
  | [], _, _, hs, _, _ => ⟨hs, [], by simp [run], by simp [run]⟩
  | op :: ops, s, w, hs, hn, hp => by
    obtain ⟨a, b⟩ := stream_step w op hs (fun e => hn (e ▸ List.mem_cons_self))
    have hp1 : (step cfg s op).panic = false := by
      cases h : (step cfg s op).panic with
      | false => rfl
      | true =>
        have : run cfg (step cfg s op) ops = step cfg s op := panic_stays ops h
        have hp' : (run cfg (step cfg s op) ops).panic = false := hp
        rw [this, h] at hp'; cases hp'
    obtain ⟨d, e1, e2⟩ := b hp1
    obtain ⟨a', d', e1', e2'⟩ := stream_run ops (winv_step w op) a (fun hm => hn (List.mem_cons_of_mem _ hm)) hp
    refine ⟨a', d ++ d', ?_, ?_⟩
    · show (run cfg (step cfg s op) ops).got = _
      rw [e1', e1, List.append_assoc]
    · show (run cfg (step cfg s op) ops).out ++ inStream (run cfg (step cfg s op) ops) = _
      simp only [e2', e2, List.append_assoc]

end Verif.RustReceive
