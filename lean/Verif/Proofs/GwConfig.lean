import Verif.Spec.GwConfig
import Verif.Proofs.ConfigParse3

namespace Verif.GwConfig
open Verif.Json Verif.Ident Verif.ConfigParse Verif.ConfigSays

theorem distinct_of {o : Obj} (p : Proper (.obj o)) : Distinct o := by cases p; assumption

theorem proper_of {o : Obj} (p : Proper (.obj o)) {k : String} {v : Json} (h : (k, v) ∈ o) : Proper v := by
  cases p with
  | obj _ _ a => exact a k v h

theorem find_iff {o : Obj} (d : Distinct o) (k : String) (v : Json) : find o k = some v ↔ (k, v) ∈ o :=
  ⟨ConfigParse.find_mem o k v, ConfigParse.find_of_mem o k v d⟩

theorem absent_iff {o : Obj} (d : Distinct o) (k : String) : find o k = none ↔ Absent o k := by
  constructor
  · intro h v a
    rw [(find_iff d k v).2 a] at h; cases h
  · intro h
    cases e : find o k with
    | none => rfl
    | some v => exact absurd ((find_iff d k v).1 e) (h v)

theorem asObj_iff (j : Json) (o : Obj) : asObj j = some o ↔ j = .obj o := by
  cases j <;> simp [asObj]

theorem asList_iff (j : Json) (l : List Json) : asList j = some l ↔ j = .list l := by
  cases j <;> simp [asList]

theorem services_iff {o : Obj} (d : Distinct o) (k : String) (l : List String) :
    services o k = some l ↔ ListAt o k l := by
  unfold services ListAt
  cases e : find o k with
  | none =>
    have a := (absent_iff d k).1 e
    simp only [Option.some.injEq]
    constructor
    · intro h; exact .inr ⟨a, h.symm⟩
    · rintro (h | ⟨_, h⟩)
      · exact absurd h (a _)
      · exact h.symm
  | some v =>
    have m := (find_iff d k v).1 e
    have u : ∀ w, (k, w) ∈ o → w = v := by
      intro w h
      have := (find_iff d k w).2 h
      rw [e] at this; injection this with this; exact this.symm
    have na : ¬ Absent o k := fun a => a v m
    constructor
    · intro h
      dsimp only at h
      cases f : asList v with
      | none => rw [f] at h; cases h
      | some x =>
        rw [f] at h
        have h2 := (mapAll_iff (fun a b => asStr_iff a b) x l).1 h
        left
        rw [asList_iff] at f
        rw [← h2, ← f]; exact m
    · rintro (h | ⟨h, _⟩)
      · have := u _ h
        subst this
        exact (mapAll_iff (fun a b => asStr_iff a b) _ l).2 rfl
      · exact absurd h na

theorem text_iff {o : Obj} (d : Distinct o) (k s : String) : text o k = some s ↔ TextAt o k s := by
  unfold text TextAt
  cases e : find o k with
  | none =>
    have a := (absent_iff d k).1 e
    simp only [Option.some.injEq]
    constructor
    · intro h; exact .inr ⟨a, h.symm⟩
    · rintro (h | ⟨_, h⟩)
      · exact absurd h (a _)
      · exact h.symm
  | some v =>
    have m := (find_iff d k v).1 e
    dsimp only
    rw [asStr_iff]
    constructor
    · intro h; subst h; exact .inl m
    · rintro (h | ⟨h, _⟩)
      · have := (find_iff d k _).2 h
        rw [e] at this; injection this
      · exact absurd m (h v)

theorem layerRef_iff {o : Obj} (p : Proper (.obj o)) (a b : String) :
    layerRef o = some (a, b) ↔ LayerAt o a b := by
  have d := distinct_of p
  unfold layerRef LayerAt
  cases e : find o "transport-layer" with
  | none =>
    have n := (absent_iff d _).1 e
    simp only [Option.some.injEq, Prod.mk.injEq]
    constructor
    · rintro ⟨h, h'⟩; exact .inr ⟨fun t => n _, h.symm, h'.symm⟩
    · rintro (⟨t, h, _⟩ | ⟨_, h, h'⟩)
      · exact absurd h (n _)
      · exact ⟨h.symm, h'.symm⟩
  | some v =>
    have m := (find_iff d _ v).1 e
    have u : ∀ w, ("transport-layer", w) ∈ o → w = v := by
      intro w h
      have := (find_iff d _ w).2 h
      rw [e] at this; injection this with this; exact this.symm
    dsimp only
    cases f : asObj v with
    | none =>
      have no : ∀ t, ("transport-layer", Json.obj t) ∉ o := by
        intro t h
        have := u _ h
        subst this; simp [asObj] at f
      simp only [Option.some.injEq, Prod.mk.injEq]
      constructor
      · rintro ⟨h, h'⟩; exact .inr ⟨no, h.symm, h'.symm⟩
      · rintro (⟨t, h, _⟩ | ⟨_, h, h'⟩)
        · exact absurd h (no t)
        · exact ⟨h.symm, h'.symm⟩
    | some t =>
      rw [asObj_iff] at f
      subst f
      have dt := distinct_of (proper_of p m)
      dsimp only
      constructor
      · intro h
        split at h
        · rename_i x y h1 h2
          simp only [Option.some.injEq, Prod.mk.injEq] at h
          obtain ⟨h3, h4⟩ := h
          subst h3; subst h4
          exact .inl ⟨t, m, (text_iff dt _ _).1 h1, (text_iff dt _ _).1 h2⟩
        · cases h
      · rintro (⟨t', h, h1, h2⟩ | ⟨h, _⟩)
        · have := u _ h
          injection this with this
          subst this
          rw [(text_iff dt _ _).2 h1, (text_iff dt _ _).2 h2]
        · exact absurd m (h t)

theorem gateway_iff (j : Json) (p : Proper j) (c : GwConf) : parseGateway j = some c ↔ GatewaySays j c := by
  unfold parseGateway GatewaySays
  cases e : asObj j with
  | none =>
    simp only [reduceCtorEq, false_iff, not_exists, not_and]
    intro o h
    subst h; simp [asObj] at e
  | some o =>
    rw [asObj_iff] at e
    subst e
    have d := distinct_of p
    dsimp only
    constructor
    · intro h
      split at h
      · rename_i a b f r h1 h2 h3
        injection h with h
        subst h
        exact ⟨o, rfl, (services_iff d _ _).1 h2, (services_iff d _ _).1 h3, (layerRef_iff p _ _).1 h1⟩
      · cases h
    · rintro ⟨o', h, h1, h2, h3⟩
      injection h with h
      subst h
      rw [(layerRef_iff p _ _).2 h3, (services_iff d _ _).2 h1, (services_iff d _ _).2 h2]

theorem timeout_iff {t : Obj} (d : Distinct t) (n : UInt32) : timeout t = some n ↔
    (("request-timeout-ms", Json.num n.toNat) ∈ t ∨ (Absent t "request-timeout-ms" ∧ n = 5000)) := by
  unfold timeout
  cases e : find t "request-timeout-ms" with
  | none =>
    have a := (absent_iff d _).1 e
    simp only [Option.some.injEq]
    constructor
    · intro h; exact .inr ⟨a, h.symm⟩
    · rintro (h | ⟨_, h⟩)
      · exact absurd h (a _)
      · exact h.symm
  | some v =>
    have m := (find_iff d _ v).1 e
    dsimp only
    rw [asU32_iff]
    constructor
    · intro h; subst h; exact .inl m
    · rintro (h | ⟨h, _⟩)
      · have := (find_iff d _ _).2 h
        rw [e] at this; injection this
      · exact absurd m (h v)

theorem socket_of {t : Obj} (d : Distinct t) {ip : String} {lp rp : UInt16} {n : UInt32}
    (h : socket t = some ⟨ip, lp, rp, n⟩) : ("remote-ip", Json.str ip) ∈ t ∧
    ("local-port", Json.num lp.toNat) ∈ t ∧ ("remote-port", Json.num rp.toNat) ∈ t ∧
    timeout t = some n := by
  unfold socket at h
  cases h1 : find t "remote-ip" with
  | none => simp [h1] at h
  | some i =>
    cases h2 : find t "local-port" with
    | none => simp [h1, h2] at h
    | some l =>
      cases h3 : find t "remote-port" with
      | none => simp [h1, h2, h3] at h
      | some r =>
        simp only [h1, h2, h3] at h
        cases g1 : asStr i with
        | none => simp [g1] at h
        | some i' =>
          cases g2 : asU16 l with
          | none => simp [g1, g2] at h
          | some l' =>
            cases g3 : asU16 r with
            | none => simp [g1, g2, g3] at h
            | some r' =>
              cases g4 : timeout t with
              | none => simp [g1, g2, g3, g4] at h
              | some n' =>
                simp only [g1, g2, g3, g4, Option.some.injEq, SockConf.mk.injEq] at h
                obtain ⟨e1, e2, e3, e4⟩ := h
                subst e1; subst e2; subst e3; subst e4
                rw [asStr_iff] at g1
                rw [asU16_iff] at g2 g3
                unfold num16 at g2 g3
                rw [g1, find_iff d] at h1
                rw [g2, find_iff d] at h2
                rw [g3, find_iff d] at h3
                exact ⟨h1, h2, h3, rfl⟩

theorem socket_parts {t : Obj} {i l r : Json} {ip : String} {lp rp : UInt16} {n : UInt32}
    (h1 : find t "remote-ip" = some i) (h2 : find t "local-port" = some l)
    (h3 : find t "remote-port" = some r) (g1 : asStr i = some ip) (g2 : asU16 l = some lp)
    (g3 : asU16 r = some rp) (g4 : timeout t = some n) : socket t = some ⟨ip, lp, rp, n⟩ := by
  unfold socket
  simp only [h1, h2, h3, g1, g2, g3, g4]

theorem socket_to {t : Obj} (d : Distinct t) {ip : String} {lp rp : UInt16} {n : UInt32}
    (h1 : ("remote-ip", Json.str ip) ∈ t) (h2 : ("local-port", Json.num lp.toNat) ∈ t)
    (h3 : ("remote-port", Json.num rp.toNat) ∈ t) (h4 : timeout t = some n) :
    socket t = some ⟨ip, lp, rp, n⟩ := by
  have a := (asU16_iff (.num lp.toNat) lp).2 (by unfold num16; rfl)
  have b := (asU16_iff (.num rp.toNat) rp).2 (by unfold num16; rfl)
  rw [← find_iff d] at h1 h2 h3
  exact socket_parts h1 h2 h3 ((asStr_iff _ _).2 rfl) a b h4

theorem socket_iff {t : Obj} (d : Distinct t) (c : SockConf) : socket t = some c ↔
    (("remote-ip", Json.str c.ip) ∈ t ∧
    ("local-port", Json.num c.localPort.toNat) ∈ t ∧ ("remote-port", Json.num c.remotePort.toNat) ∈ t ∧
    (("request-timeout-ms", Json.num c.timeout.toNat) ∈ t ∨
      (Absent t "request-timeout-ms" ∧ c.timeout = 5000))) := by
  constructor
  · intro h
    obtain ⟨a, b, e, f⟩ := socket_of d (ip := c.ip) (lp := c.localPort) (rp := c.remotePort) (n := c.timeout) h
    exact ⟨a, b, e, (timeout_iff d _).1 f⟩
  · rintro ⟨a, b, e, f⟩
    exact socket_to d a b e ((timeout_iff d _).2 f)

theorem parseSocket_iff (j : Json) (p : Proper j) (c : SockConf) :
    parseSocket j = some c ↔ SocketSays j c := by
  unfold parseSocket SocketSays
  cases e : asObj j with
  | none =>
    simp only [reduceCtorEq, false_iff, not_exists, not_and]
    intro o t h
    subst h; simp [asObj] at e
  | some o =>
    rw [asObj_iff] at e
    subst e
    have d := distinct_of p
    dsimp only
    constructor
    · intro h
      split at h
      · cases h
      · rename_i v hv
        split at h
        · cases h
        · rename_i t ht
          rw [asObj_iff] at ht
          subst ht
          have m := (find_iff d _ _).1 hv
          obtain ⟨h1, h2, h3, h4⟩ := (socket_iff (distinct_of (proper_of p m)) c).1 h
          exact ⟨o, t, rfl, m, h1, h2, h3, h4⟩
    · rintro ⟨o', t, h, m, hs⟩
      injection h with h
      subst h
      rw [(find_iff d _ _).2 m]
      dsimp only [asObj]
      exact (socket_iff (distinct_of (proper_of p m)) c).2 hs

theorem searched_eq (starts : String → Bool) : ∀ l : List String,
    searched starts l = l.filter (fun s => shortNameValid s.toList && starts s)
  | [] => rfl
  | s :: l => by
    unfold searched makeSpecifier
    rw [searched_eq starts l]
    cases h : shortNameValid s.toList <;> cases h' : starts s <;> simp [List.filter, h, h']

/-! ### What the schemas allow -/

theorem listAt_of {o : Obj} {k : String} (h : ∀ v, (k, v) ∈ o → IsTexts v) : ∃ l, ListAt o k l := by
  by_cases a : Absent o k
  · exact ⟨[], .inr ⟨a, rfl⟩⟩
  · simp only [Absent, Classical.not_forall, Classical.not_not] at a
    obtain ⟨v, hv⟩ := a
    obtain ⟨l, e⟩ := h v hv
    subst e
    exact ⟨l, .inl hv⟩

theorem gateway_schema {j : Json} (h : SchemaGateway j) : ∃ c, GatewaySays j c := by
  obtain ⟨o, e, m⟩ := h
  have f : ∀ v, ("forwarded-services", v) ∈ o → IsTexts v := by
    intro v hv
    rcases m _ _ hv with ⟨_, a⟩ | ⟨a, _⟩ | ⟨a, _⟩
    · exact a
    · exact absurd a (by decide)
    · exact absurd a (by decide)
  have r : ∀ v, ("expected-received-services", v) ∈ o → IsTexts v := by
    intro v hv
    rcases m _ _ hv with ⟨a, _⟩ | ⟨_, a⟩ | ⟨a, _⟩
    · exact absurd a (by decide)
    · exact a
    · exact absurd a (by decide)
  obtain ⟨fl, hf⟩ := listAt_of f
  obtain ⟨rl, hr⟩ := listAt_of r
  by_cases a : Absent o "transport-layer"
  · exact ⟨⟨fl, rl, "", ""⟩, o, e, hf, hr, .inr ⟨fun t => a _, rfl, rfl⟩⟩
  · simp only [Absent, Classical.not_forall, Classical.not_not] at a
    obtain ⟨v, hv⟩ := a
    have l : SchemaLayer v := by
      rcases m _ _ hv with ⟨b, _⟩ | ⟨b, _⟩ | ⟨_, b⟩
      · exact absurd b (by decide)
      · exact absurd b (by decide)
      · exact b
    obtain ⟨t, ht, hm, ⟨w, hw⟩, ⟨x, hx⟩⟩ := l
    subst ht
    obtain ⟨s1, e1⟩ := (hm _ _ hw).2
    obtain ⟨s2, e2⟩ := (hm _ _ hx).2
    subst e1; subst e2
    exact ⟨⟨fl, rl, s1, s2⟩, o, e, hf, hr, .inl ⟨t, hv, .inl hw, .inl hx⟩⟩

theorem num_fits16 {n : Int} (h0 : 0 ≤ n) (h : n < 65536) : ∃ u : UInt16, n = u.toNat := by
  refine ⟨UInt16.ofNat n.toNat, ?_⟩
  have : (UInt16.ofNat n.toNat).toNat = n.toNat := by
    rw [UInt16.toNat_ofNat']; exact Nat.mod_eq_of_lt (by omega)
  rw [this]; omega

theorem num_fits32 {n : Int} (h0 : 0 ≤ n) (h : n < 4294967296) : ∃ u : UInt32, n = u.toNat := by
  refine ⟨UInt32.ofNat n.toNat, ?_⟩
  have : (UInt32.ofNat n.toNat).toNat = n.toNat := by
    rw [UInt32.toNat_ofNat']; exact Nat.mod_eq_of_lt (by omega)
  rw [this]; omega

theorem socket_schema {j : Json} (h : SchemaSocket j) (r : InRange j) : ∃ c, SocketSays j c := by
  obtain ⟨o, e, m, ⟨v, hv⟩⟩ := h
  obtain ⟨_, t, et, ⟨k, ⟨i, hi⟩, ⟨l, hl⟩, ⟨p, hp⟩⟩⟩ := m _ _ hv
  subst et
  have rr := r o t e hv
  have c1 : IsText i := by
    rcases k _ _ hi with ⟨_, a⟩ | ⟨a, _⟩ | ⟨a, _⟩ | ⟨a, _⟩
    · exact a
    all_goals exact absurd a (by decide)
  have c2 : IsInt l := by
    rcases k _ _ hl with ⟨a, _⟩ | ⟨_, a⟩ | ⟨a, _⟩ | ⟨a, _⟩
    · exact absurd a (by decide)
    · exact a
    all_goals exact absurd a (by decide)
  have c3 : IsInt p := by
    rcases k _ _ hp with ⟨a, _⟩ | ⟨a, _⟩ | ⟨_, a⟩ | ⟨a, _⟩
    · exact absurd a (by decide)
    · exact absurd a (by decide)
    · exact a
    · exact absurd a (by decide)
  obtain ⟨s, e1⟩ := c1
  obtain ⟨n, e2⟩ := c2
  obtain ⟨n', e3⟩ := c3
  subst e1; subst e2; subst e3
  obtain ⟨a1, _, a2⟩ := rr _ _ hl
  obtain ⟨b1, _, b2⟩ := rr _ _ hp
  obtain ⟨u, hu⟩ := num_fits16 a1 (a2 (.inl rfl))
  obtain ⟨u', hu'⟩ := num_fits16 b1 (b2 (.inr rfl))
  subst hu; subst hu'
  by_cases a : Absent t "request-timeout-ms"
  · exact ⟨⟨s, u, u', 5000⟩, o, t, e, hv, hi, hl, hp, .inr ⟨a, rfl⟩⟩
  · simp only [Absent, Classical.not_forall, Classical.not_not] at a
    obtain ⟨w, hw⟩ := a
    have c4 : IsInt w := by
      rcases k _ _ hw with ⟨a, _⟩ | ⟨a, _⟩ | ⟨a, _⟩ | ⟨_, a⟩
      · exact absurd a (by decide)
      · exact absurd a (by decide)
      · exact absurd a (by decide)
      · exact a
    obtain ⟨x, e4⟩ := c4
    subst e4
    obtain ⟨d1, d2, _⟩ := rr _ _ hw
    obtain ⟨u'', hu''⟩ := num_fits32 d1 d2
    subst hu''
    exact ⟨⟨s, u, u', u''⟩, o, t, e, hv, hi, hl, hp, .inl hw⟩

theorem bringUp_iff (files : String → Option Json) (path : String) (c : GwConf) (k : SockConf) :
    bringUp files path = some (c, k) ↔ ∃ j, files path = some j ∧ parseGateway j = some c ∧
      c.layer = "sample_hypervisor" ∧ ∃ j', files c.path = some j' ∧ parseSocket j' = some k := by
  unfold bringUp create
  cases h1 : files path with
  | none => simp
  | some j =>
    cases h2 : parseGateway j with
    | none => simp [h2]
    | some c' =>
      dsimp only
      rw [h2]
      dsimp only
      by_cases hl : c'.layer = "sample_hypervisor"
      · rw [if_pos hl]
        cases h3 : files c'.path with
        | none =>
          simp only [reduceCtorEq, false_iff]
          rintro ⟨_, e, e2, _, j', e3, _⟩
          injection e with e; subst e
          rw [h2] at e2; injection e2 with e2; subst e2
          rw [h3] at e3; cases e3
        | some j' =>
          dsimp only
          cases h4 : parseSocket j' with
          | none =>
            simp only [reduceCtorEq, false_iff]
            rintro ⟨_, e, e2, _, j'', e3, e4⟩
            injection e with e; subst e
            rw [h2] at e2; injection e2 with e2; subst e2
            rw [h3] at e3; injection e3 with e3; subst e3
            rw [h4] at e4; cases e4
          | some k' =>
            simp only [Option.some.injEq, Prod.mk.injEq]
            constructor
            · rintro ⟨e, e'⟩
              subst e; subst e'
              exact ⟨j, rfl, h2, hl, j', h3, h4⟩
            · rintro ⟨_, e, e2, _, j'', e3, e4⟩
              subst e
              rw [h2] at e2; injection e2 with e2; subst e2
              rw [h3] at e3; injection e3 with e3; subst e3
              rw [h4] at e4; injection e4 with e4
              exact ⟨rfl, e4⟩
      · rw [if_neg hl]
        simp only [reduceCtorEq, false_iff]
        rintro ⟨_, e, e2, e3, _⟩
        injection e with e; subst e
        rw [h2] at e2; injection e2 with e2; subst e2
        exact hl e3

end Verif.GwConfig
