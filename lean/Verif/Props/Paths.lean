import Verif.Proofs.Paths

/-! C86: different things have different names, and names are read as they were written.
C87: servers with different identifiers have different addresses. -/
namespace Verif.Props.C86
open Verif.Paths Verif.PathsSpec

/-- Two things with the same name are the same: the same kind of thing, of the same
service instance, quality, proxy, process and offer. -/
theorem names_differ (a b : Thing) (different : a ≠ b) : name a ≠ name b :=
  fun h => different (name_inj h)

/-- The search path of an instance belongs to this instance alone. -/
theorem search_paths_differ (sid iid sid' iid' : Nat) (h : instanceDir sid iid = instanceDir sid' iid') :
    sid = sid' ∧ iid = iid' := by
  have := @flag_inj sid iid 0 0 sid' iid' 0 0 .b .b (by rw [flagName, flagName, h])
  exact ⟨this.1, this.2.1⟩

/-- The quality that a consumer reads from the name of a flag file is the quality
with which the file was created. -/
theorem quality_is_read_back (pid d : Nat) (q : Quality) : parseQuality (flagFile pid q d) = some q := by
  have hq : contains (qualityName q) (flagFile pid q d) = true := by
    rw [flagFile_eq]; exact contains_mid _ _ _
  cases q with
  | b => rw [parseQuality, if_pos hq]
  | qm =>
    have hb : ¬ contains (qualityName .b) (flagFile pid .qm d) = true := fun h =>
      flagFile_letter.1 (contains_mem h 'b' (by decide))
    rw [parseQuality, if_neg hb, if_pos hq]

/-- Old flag files are looked for by quality: exactly those of this quality match. -/
theorem match_is_exact (sid iid pid d : Nat) (q q' : Quality) :
    matchesQuality q (flagName sid iid pid q' d) = true ↔ q = q' := by
  constructor
  · intro h
    cases q <;> cases q'
    · rfl
    · exact absurd (contains_mem h 'q' (by decide)) flagName_letter.2
    · exact absurd (contains_mem h 'b' (by decide)) flagName_letter.1
    · rfl
  · rintro rfl
    rw [matchesQuality, flagName, flagFile_eq]
    have e : instanceDir sid iid ++ '/' :: (dec pid ++ ['_'] ++ (qualityName q ++ '_' :: dec d)) =
        (instanceDir sid iid ++ '/' :: (dec pid ++ ['_'])) ++ (qualityName q ++ '_' :: dec d) := by simp
    rw [e]
    exact contains_mid _ _ _

/-- The instance that a consumer reads from the name of a directory is the instance
for which the directory was created. -/
theorem instance_is_read_back (iid : Nat) (h : iid < 65536) : parseInstance (dec iid) = some iid := by
  have h1 := (split_digits (dec iid) [] (dec_digits iid) trivial).1
  rw [List.append_nil] at h1
  have h2 : (dec iid).isEmpty = false := by
    cases e : dec iid with
    | nil => exact absurd e Nat.toDigits_ne_nil
    | cons a b => rfl
  simp only [parseInstance, h1, h2, value_dec, h, if_true, Bool.false_eq_true, if_false]

/-- Endpoints of different processes or qualities have different socket addresses;
process ids are 32-bit numbers. -/
theorem addresses_differ (p p' : Nat) (q q' : Quality) (hp : p < 2 ^ 32) (hp' : p' < 2 ^ 32)
    (h : address (endpointName p q) = address (endpointName p' q')) : p = p' ∧ q = q' := by
  have len : ∀ (p : Nat) (q : Quality), p < 2 ^ 32 → (endpointName p q).length ≤ 106 := by
    intro p q hp
    have := @dec_length p 10 (by decide) (by omega)
    cases q <;> (simp only [endpointName, List.length_append, List.length_cons, List.length_nil]; omega)
  have nul : ∀ (p : Nat) (q : Quality), Char.ofNat 0 ∉ endpointName p q := by
    intro p q
    have : Char.ofNat 0 ∉ dec p := not_dec rfl
    cases q <;> (simp only [endpointName, List.mem_append]; simp [this])
  exact endpoint_inj (address_inj (len p q hp) (len p' q' hp') (nul p q) (nul p' q') h)

end Verif.Props.C86

/-! C87: servers with different identifiers can be told apart. -/
namespace Verif.Props.C87
open Verif.Paths Verif.PathsSpec

/-- Service identifiers of at most 106 characters without a zero character have
different socket addresses. -/
theorem identifiers_differ_partial (a b : Name) (ha : a.length ≤ 106) (hb : b.length ≤ 106)
    (na : Char.ofNat 0 ∉ a) (nb : Char.ofNat 0 ∉ b) (different : a ≠ b) : address a ≠ address b :=
  fun h => different (address_inj ha hb na nb h)

/-- The bound is needed: of longer identifiers only the first 106 characters count, so
two services can get the same address without any error. -/
theorem long_identifiers_collide (a x y : Name) (ha : a.length = 106) : address (a ++ x) = address (a ++ y) := by
  have e : ∀ z : Name, (a ++ z).take (sunPath - 2) = a := by
    intro z
    rw [show sunPath - 2 = a.length from by rw [ha]; rfl, List.take_left]
  rw [address, address, e, e]

end Verif.Props.C87

namespace Verif.Demo.C86
open Verif.Paths Verif.PathsSpec

/-- The names are those that the code creates. -/
example : String.ofList (name (.shm false 6432 7 (.ctl .b))) = "/lola-ctl-0000000000006432-00007-b" := by decide +kernel
example : String.ofList (name (.shm false 6432 7 (.method 12 3))) = "/lola-methods-0000000000006432-00007-00012-00003" := by
  decide +kernel
example : String.ofList (name (.lock false 6432 7 .data)) = "/tmp/lola-data-0000000000006432-00007_lock" := by
  decide +kernel
example : String.ofList (name (.marker true 6432 7)) =
    "/tmp/mw_com_lola/partial_restart/usage-0000000000006432-00007" := by decide +kernel
example : String.ofList (name (.flag 6432 7 345 .qm 99)) =
    "/tmp/mw_com_lola/service_discovery/6432/7/345_asil-qm_99" := by decide +kernel
example : String.ofList (name (.endpoint 345 .b)) = "LoLa_2_345_ASIL_B" := by decide +kernel

/-- `names_differ`: services 1 and 11 with instances 11 and 1. -/
example : name (.shm false 1 11 .data) ≠ name (.shm false 11 1 .data) :=
  Props.C86.names_differ _ _ (by decide)

/-- `names_differ`: the memory for the calls of two proxies of one process. -/
example : name (.shm false 1 2 (.method 3 4)) ≠ name (.shm false 1 2 (.method 3 5)) :=
  Props.C86.names_differ _ _ (by decide)

example : parseInstance (chars "65535") = some 65535 := Props.C86.instance_is_read_back 65535 (by decide)
example : parseInstance (chars "65536") = none := by decide +kernel
example : parseInstance (chars "x1") = none := by decide +kernel

/-- `addresses_differ`: two processes. -/
example : address (endpointName 12 .qm) ≠ address (endpointName 120 .qm) := by
  intro h
  exact absurd (Props.C86.addresses_differ 12 120 .qm .qm (by decide) (by decide) h).1 (by decide)

/-- `identifiers_differ_partial`: two services. -/
example : address (chars "speed") ≠ address (chars "speed2") :=
  Props.C87.identifiers_differ_partial _ _ (by decide) (by decide) (by decide) (by decide) (by decide)

/-- `long_identifiers_collide`: two different identifiers. -/
example : ∃ a b : Name, a ≠ b ∧ address a = address b :=
  ⟨List.replicate 106 'a' ++ chars "1", List.replicate 106 'a' ++ chars "2", by decide +kernel,
    Props.C87.long_identifiers_collide _ _ _ (by decide)⟩

end Verif.Demo.C86
