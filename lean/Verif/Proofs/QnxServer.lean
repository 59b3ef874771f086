import Verif.Spec.QnxServer

namespace Verif.QnxServer
open Verif.QnxServerSpec

theorem run_append (s : St) (a b : List Op) : run s (a ++ b) = run (run s a) b := List.foldl_append ..
theorem run_cons (s : St) (o : Op) (b : List Op) : run s (o :: b) = run (step s o) b := rfl

theorem seen_append (a b : List Event) (id : Nat) : seen (a ++ b) id = seen a id ++ seen b id := by
  simp [seen]

theorem seen_one (e : Event) (id : Nat) : seen [e] id = if session e = id then [e] else [] := by
  by_cases h : session e = id <;> simp [seen, h]

theorem seen_none {l : List Event} {id : Nat} (h : ∀ e ∈ l, session e ≠ id) : seen l id = [] := by
  unfold seen
  rw [List.filter_eq_nil_iff]
  intro e he
  simpa using h e he

theorem seen_map {l : List Conn} (nd : (l.map (·.id)).Nodup) {f : Conn → Event} (hf : ∀ c, session (f c) = c.id) {c : Conn} (hc : c ∈ l) :
    seen (l.map f) c.id = [f c] := by
  induction l with
  | nil => cases hc
  | cons d l ih =>
    rw [List.map_cons, List.nodup_cons] at nd
    rw [List.map_cons, show f d :: l.map f = [f d] ++ l.map f from rfl, seen_append, seen_one, hf]
    rcases List.mem_cons.1 hc with e | hc
    · subst e
      rw [if_pos rfl, seen_none]
      · rfl
      · intro e he
        obtain ⟨x, hx, rfl⟩ := List.mem_map.1 he
        rw [hf]
        intro e
        exact nd.1 (List.mem_map.2 ⟨x, hx, e⟩)
    · rw [if_neg, ih nd.2 hc]
      · rfl
      · intro e
        exact nd.1 (List.mem_map.2 ⟨c, hc, e.symm⟩)

/-- What holds at all times. -/
structure Inv (s : St) : Prop where
  fresh : ∀ e ∈ s.log, session e < s.nextId
  bnd : ∀ c ∈ s.conns, c.id < s.nextId ∧ c.att ∈ s.atts
  nd : (s.conns.map (·.id)).Nodup
  live : ∀ c ∈ s.conns, ∃ cl g ms, g ≤ s.gen ∧ (∀ m ∈ ms, Message c.id g c.user m) ∧
    seen s.log c.id = .connect c.id cl g (some c.user) :: ms
  ord : ∀ id, Orderly id (seen s.log id)
  satt : ∀ a ∈ s.atts, a < s.nextAtt
  natt : s.atts.Nodup

theorem inv_start (cap : Nat) : Inv (start cap) where
  fresh := by intro e h; cases h
  bnd := by intro c h; cases h
  nd := List.nodup_nil
  live := by intro c h; cases h
  ord := fun _ => .nothing
  satt := by intro c h; cases h
  natt := List.nodup_nil

theorem right_whom {s : St} {g : Nat} (h : g ≤ s.gen) (u : User) : Right g u (whom s u) := by
  cases u with
  | handler x => exact rfl
  | other => exact ⟨s.gen, h, rfl⟩

theorem conn_eq {s : St} (h : Inv s) {c d : Conn} (hc : c ∈ s.conns) (hd : d ∈ s.conns) (e : c.id = d.id) : c = d := by
  have nd := h.nd
  generalize s.conns = l at *
  clear h
  induction l with
  | nil => cases hc
  | cons x l ih =>
    rw [List.map_cons, List.nodup_cons] at nd
    rcases List.mem_cons.1 hc with e1 | hc' <;> rcases List.mem_cons.1 hd with e2 | hd'
    · rw [e1, e2]
    · subst e1; exact absurd (List.mem_map.2 ⟨d, hd', e.symm⟩) nd.1
    · subst e2; exact absurd (List.mem_map.2 ⟨c, hc', e⟩) nd.1
    · exact ih hc' hd' nd.2

/-- An event of a session that is open. -/
theorem inv_message {s : St} (h : Inv s) {c : Conn} (hc : c ∈ s.conns) (e : Event) (hs : session e = c.id)
    (he : ∀ g, g ≤ s.gen → Message c.id g c.user e) : Inv { s with log := s.log ++ [e] } where
  fresh := by
    intro x hx
    rcases List.mem_append.1 hx with hx | hx
    · exact h.fresh x hx
    · rw [List.mem_singleton] at hx; subst hx; rw [hs]; exact (h.bnd c hc).1
  bnd := h.bnd
  nd := h.nd
  live := by
    intro d hd
    obtain ⟨cl, g, ms, h1, h2, h3⟩ := h.live d hd
    dsimp only
    rw [seen_append, seen_one, hs, h3]
    by_cases e' : c.id = d.id
    · have := conn_eq h hc hd e'
      subst this
      rw [if_pos rfl]
      refine ⟨cl, g, ms ++ [e], h1, ?_, rfl⟩
      intro m hm
      rcases List.mem_append.1 hm with hm | hm
      · exact h2 m hm
      · rw [List.mem_singleton] at hm; subst hm; exact he g h1
    · rw [if_neg e', List.append_nil]
      exact ⟨cl, g, ms, h1, h2, rfl⟩
  ord := by
    intro id
    dsimp only
    rw [seen_append, seen_one, hs]
    by_cases e' : c.id = id
    · subst e'
      obtain ⟨cl, g, ms, h1, h2, h3⟩ := h.live c hc
      rw [if_pos rfl, h3]
      refine .running (ms := ms ++ [e]) ?_
      intro m hm
      rcases List.mem_append.1 hm with hm | hm
      · exact h2 m hm
      · rw [List.mem_singleton] at hm; subst hm; exact he g h1
    · rw [if_neg e', List.append_nil]; exact h.ord id
  satt := h.satt
  natt := h.natt

/-- Sessions are closed. -/
theorem inv_close {s : St} (h : Inv s) (p : Conn → Bool) (atts : List Nat) (ha : ∀ c ∈ s.conns, p c = false → c.att ∈ atts)
    (hs : ∀ a ∈ atts, a < s.nextAtt) (hn : atts.Nodup) :
    Inv { s with atts := atts, conns := s.conns.filter (!p ·),
                 log := s.log ++ (s.conns.filter p).map fun c => .disconnect c.id (whom s c.user) } := by
  have key : ∀ c ∈ s.conns, p c = true →
      seen ((s.conns.filter p).map fun c => Event.disconnect c.id (whom s c.user)) c.id = [.disconnect c.id (whom s c.user)] := by
    intro c hc hp
    exact seen_map (f := fun c => Event.disconnect c.id (whom s c.user))
      (List.Nodup.sublist ((List.filter_sublist).map _) h.nd) (fun _ => rfl) (List.mem_filter.2 ⟨hc, hp⟩)
  have key' : ∀ id, (∀ c ∈ s.conns, p c = true → c.id ≠ id) →
      seen ((s.conns.filter p).map fun c => Event.disconnect c.id (whom s c.user)) id = [] := by
    intro id hid
    refine seen_none ?_
    intro e he
    obtain ⟨c, hc, rfl⟩ := List.mem_map.1 he
    obtain ⟨hc, hp⟩ := List.mem_filter.1 hc
    exact hid c hc hp
  refine ⟨?_, ?_, ?_, ?_, ?_, hs, hn⟩
  · intro x hx
    rcases List.mem_append.1 hx with hx | hx
    · exact h.fresh x hx
    · obtain ⟨c, hc, rfl⟩ := List.mem_map.1 hx
      exact (h.bnd c (List.mem_filter.1 hc).1).1
  · intro c hc
    obtain ⟨hc, hp⟩ := List.mem_filter.1 hc
    exact ⟨(h.bnd c hc).1, ha c hc (by simpa using hp)⟩
  · exact List.Nodup.sublist ((List.filter_sublist).map _) h.nd
  · intro c hc
    obtain ⟨hc, hp⟩ := List.mem_filter.1 hc
    obtain ⟨cl, g, ms, h1, h2, h3⟩ := h.live c hc
    refine ⟨cl, g, ms, h1, h2, ?_⟩
    dsimp only
    rw [seen_append, h3, key', List.append_nil]
    intro d hd hpd e
    have := conn_eq h hd hc e
    subst this
    rw [hpd] at hp; cases hp
  · intro id
    dsimp only
    rw [seen_append]
    by_cases hid : ∃ c ∈ s.conns, p c = true ∧ c.id = id
    · obtain ⟨c, hc, hp, rfl⟩ := hid
      obtain ⟨cl, g, ms, h1, h2, h3⟩ := h.live c hc
      rw [key c hc hp, h3]
      exact .ended h2 (right_whom h1 _)
    · rw [key' id (fun c hc hp e => hid ⟨c, hc, hp, e⟩), List.append_nil]
      exact h.ord id

theorem inv_stop {s : St} (h : Inv s) : Inv (stopListening s) := by
  unfold stopListening
  split
  · exact h
  · rename_i a _
    have := inv_close h (·.att == a) (s.atts.erase a) (by
      intro c hc hp
      exact (List.mem_erase_of_ne (by simpa using hp)).2 (h.bnd c hc).2) (fun x hx => h.satt x (List.mem_of_mem_erase hx))
      (h.natt.sublist (List.erase_sublist))
    exact ⟨this.fresh, this.bnd, this.nd, this.live, this.ord, this.satt, this.natt⟩

theorem find_mem {s : St} {id : Nat} {c : Conn} (h : s.conns.find? (·.id == id) = some c) : c ∈ s.conns ∧ c.id = id :=
  ⟨List.mem_of_find?_eq_some h, by simpa using List.find?_some h⟩

theorem inv_open {s : St} (h : Inv s) {a : Nat} (ha : a ∈ s.atts) (c : Client) (o i : Bool) (an : Option User) (at' : Bool) :
    Inv (ioOpen s a c o i an at').1 := by
  have hnew : seen s.log s.nextId = [] := seen_none (fun e he => Nat.ne_of_lt (h.fresh e he))
  have base : Inv { s with nextId := s.nextId + 1, log := s.log ++ [.connect s.nextId c s.gen an] } := by
    refine ⟨?_, ?_, h.nd, ?_, ?_, h.satt, h.natt⟩
    · intro x hx
      rcases List.mem_append.1 hx with hx | hx
      · exact Nat.lt_succ_of_lt (h.fresh x hx)
      · rw [List.mem_singleton] at hx; subst hx; exact Nat.lt_succ_self _
    · exact fun d hd => ⟨Nat.lt_succ_of_lt (h.bnd d hd).1, (h.bnd d hd).2⟩
    · intro d hd
      obtain ⟨cl, g, ms, h1, h2, h3⟩ := h.live d hd
      refine ⟨cl, g, ms, h1, h2, ?_⟩
      dsimp only
      rw [seen_append, h3, seen_one, if_neg, List.append_nil]
      exact (Nat.ne_of_gt (h.bnd d hd).1)
    · intro id
      dsimp only
      rw [seen_append, seen_one]
      by_cases e : s.nextId = id
      · subst e
        rw [hnew, show session (.connect s.nextId c s.gen an) = s.nextId from rfl, if_pos rfl]
        cases an with
        | none => exact .refused
        | some u => exact .running (ms := []) (by intro m hm; cases hm)
      · rw [if_neg (show ¬ session (.connect s.nextId c s.gen an) = id from e), List.append_nil]
        exact h.ord id
  unfold ioOpen
  split
  · exact ⟨h.fresh, h.bnd, h.nd, h.live, h.ord, h.satt, h.natt⟩
  · split
    · exact h
    · split
      · exact h
      · dsimp only
        split
        · exact base
        · rename_i u
          split
          · exact base
          · refine ⟨base.fresh, ?_, ?_, ?_, base.ord, base.satt, base.natt⟩
            · intro d hd
              rcases List.mem_append.1 hd with hd | hd
              · exact base.bnd d hd
              · rw [List.mem_singleton] at hd; subst hd
                exact ⟨by dsimp only; omega, ha⟩
            · dsimp only
              rw [List.map_append, List.nodup_append]
              refine ⟨h.nd, by simp, ?_⟩
              intro x hx y hy e
              obtain ⟨d, hd, rfl⟩ := List.mem_map.1 hx
              have := (h.bnd d hd).1
              simp at hy
              omega
            · intro d hd
              rcases List.mem_append.1 hd with hd | hd
              · exact base.live d hd
              · rw [List.mem_singleton] at hd; subst hd
                refine ⟨c, s.gen, [], Nat.le_refl _, (by intro m hm; cases hm), ?_⟩
                dsimp only
                rw [Nat.add_sub_cancel, seen_append, hnew, seen_one]
                exact if_pos rfl

theorem inv_input {s : St} (h : Inv s) {c : Conn} (hc : c ∈ s.conns) (code : UInt8) (body : List UInt8) :
    Inv (processInput s c code body) := by
  unfold processInput
  split
  · exact inv_message h hc _ rfl (fun g hg => Or.inl ⟨_, _, right_whom hg _, Or.inr rfl⟩)
  · split
    · exact inv_message h hc _ rfl (fun g hg => Or.inl ⟨_, _, right_whom hg _, Or.inl rfl⟩)
    · exact h

theorem inv_write {s : St} (h : Inv s) {c : Conn} (hc : c ∈ s.conns) (r : Raw) (v : Bool) : Inv (ioWrite s c r v).1 := by
  have h' : ∀ b u, Inv { s with buf := b, ub := u } := fun b u => ⟨h.fresh, h.bnd, h.nd, h.live, h.ord, h.satt, h.natt⟩
  unfold ioWrite
  dsimp only
  split
  · exact h' _ _
  · split
    · exact h' _ _
    · split
      · exact h' _ _
      · split
        · exact h' _ _
        · split
          · exact h' _ _
          · split
            · exact h' _ _
            · split
              · exact h' _ _
              · exact inv_input (h' (received s r ++ s.buf.drop (received s r).length) s.ub) hc _ _

theorem filter_ne_id (l : List Conn) (c : Conn) : l.filter (·.id != c.id) = l.filter (!(fun d : Conn => d.id == c.id) ·) := rfl

theorem filter_eq_id {s : St} (h : Inv s) {c : Conn} (hc : c ∈ s.conns) : s.conns.filter (fun d : Conn => d.id == c.id) = [c] := by
  have nd := h.nd
  generalize s.conns = l at *
  clear h
  induction l with
  | nil => cases hc
  | cons x l ih =>
    rw [List.map_cons, List.nodup_cons] at nd
    rcases List.mem_cons.1 hc with e | hc
    · subst e
      rw [List.filter_cons_of_pos (by simp), List.filter_eq_nil_iff.2]
      intro d hd e
      exact nd.1 (List.mem_map.2 ⟨d, hd, by simpa using e⟩)
    · rw [List.filter_cons_of_neg, ih hc nd.2]
      intro e
      exact nd.1 (List.mem_map.2 ⟨c, hc, by simpa using (eq_comm.1 (by simpa using e))⟩)

theorem inv_ioClose {s : St} (h : Inv s) {c : Conn} (hc : c ∈ s.conns) : Inv (ioClose s c).1 := by
  unfold ioClose
  split
  · exact ⟨h.fresh, h.bnd, h.nd, h.live, h.ord, h.satt, h.natt⟩
  · have := inv_close h (fun d => d.id == c.id) s.atts (fun d hd _ => (h.bnd d hd).2) h.satt h.natt
    rw [filter_eq_id h hc] at this
    exact this

theorem inv_step {s : St} (h : Inv s) (o : Op) : Inv (step s o) := by
  cases o with
  | startListening ok =>
    unfold step; dsimp only
    split
    · unfold startListening
      have hl : ∀ c ∈ s.conns, ∃ cl g ms, g ≤ s.gen + 1 ∧ (∀ m ∈ ms, Message c.id g c.user m) ∧
          seen s.log c.id = .connect c.id cl g (some c.user) :: ms := by
        intro c hc
        obtain ⟨cl, g, ms, h1, h2⟩ := h.live c hc
        exact ⟨cl, g, ms, Nat.le_succ_of_le h1, h2⟩
      dsimp only
      split
      · refine ⟨h.fresh, fun c hc => ⟨(h.bnd c hc).1, List.mem_cons_of_mem _ (h.bnd c hc).2⟩, h.nd, hl, h.ord, ?_, ?_⟩
        · intro a ha
          rcases List.mem_cons.1 ha with e | ha
          · subst e; exact Nat.lt_succ_self _
          · exact Nat.lt_succ_of_lt (h.satt a ha)
        · exact List.nodup_cons.2 ⟨fun hm => Nat.lt_irrefl _ (h.satt _ hm), h.natt⟩
      · exact ⟨h.fresh, h.bnd, h.nd, hl, h.ord, h.satt, h.natt⟩
    · exact h
  | stopListening =>
    unfold step; dsimp only
    split
    · exact inv_stop h
    · exact h
  | destroy =>
    unfold step; dsimp only
    split
    · have h := inv_stop h
      exact ⟨h.fresh, h.bnd, h.nd, h.live, h.ord, h.satt, h.natt⟩
    · exact h
  | opens a c o i an at' =>
    unfold step; dsimp only
    split
    · rename_i ha
      exact inv_open h ha ..
    · exact h
  | writes id r v =>
    unfold step; dsimp only
    split
    · rename_i c hf
      exact inv_write h (find_mem hf).1 ..
    · exact h
  | closes id =>
    unfold step; dsimp only
    split
    · rename_i c hf
      exact inv_ioClose h (find_mem hf).1
    · exact h
  | reply id =>
    unfold step; dsimp only
    split
    · rename_i c hf
      exact inv_message h (find_mem hf).1 _ rfl (fun _ _ => Or.inr rfl)
    · exact h

theorem inv_run {s : St} (h : Inv s) (ops : List Op) : Inv (run s ops) := by
  induction ops generalizing s with
  | nil => exact h
  | cons o ops ih => exact ih (inv_step h o)

end Verif.QnxServer
