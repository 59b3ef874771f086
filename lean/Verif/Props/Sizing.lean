import Verif.Proofs.SizingFound
/-! C81: the calculated size of the shared memory of a service instance is enough for everything that offering the service creates in it. -/

namespace Verif.Props.C81
open Verif.Sizing

/-- `enough_partial`: offering a service with new shared memory never runs out of memory, whatever service elements are configured, in both
ways of calculating the size, with or without a QM/ASIL-B split, with configured sizes as long as these are not below the calculated ones,
and wherever the objects are mapped. At most the calculated size is used, and exactly that much if the containers allocate for zero elements
or the size was found by simulation. Missing for the full property: over-aligned types of samples (see `over_aligned_ends_process`), and, for
the analysis, fields with a getter or a setter (see `accessor_ends_process`). -/
theorem enough_partial (lib : Lib) (svc : Svc) (skip : Bool) (mode : Mode) (bases : Bases) (d c : Nat) (hlib : lib.Valid) (hsvc : svc.Valid)
    (samples : ∀ e ∈ svc.elems, e.sample.Fundamental lib) (accessors : mode = .analysis → ∀ e ∈ svc.elems, ¬ e.Accessor)
    (calculated : calculate lib skip svc mode = some (d, c))
    (manual : AtLeast svc.manualData d ∧ AtLeast svc.manualQm c ∧ AtLeast svc.manualB c) (mapped : bases.Mapped lib skip svc mode) :
    ∃ used, offer lib skip svc mode bases = some used ∧ used.data ≤ d ∧ used.qm ≤ c ∧
      used.asilB = (if svc.asilB then some used.qm else none) ∧
      (skip = false ∨ mode = .simulation → used.data = d ∧ used.qm = c) := by
  obtain ⟨ud, uc, h, h1, h2, h3⟩ := offer_spec hlib hsvc samples accessors calculated manual.1 manual.2.1 manual.2.2 mapped
  exact ⟨_, h, h1, h2, rfl, h3⟩

/-- `offered_partial`: every service whose slots and subscribers are configured, and whose sizes are far from the limits of 64 bits, can be
offered without configured memory sizes, and nothing is left over if the containers allocate for zero elements or the size was found by
simulation. Missing: as for `enough_partial`. -/
theorem offered_partial (lib : Lib) (svc : Svc) (skip : Bool) (mode : Mode) (bases : Bases) (hlib : lib.Valid) (hsvc : svc.Valid)
    (modest : Modest lib svc) (samples : ∀ e ∈ svc.elems, e.sample.Fundamental lib)
    (accessors : mode = .analysis → ∀ e ∈ svc.elems, ¬ e.Accessor) (configured : ∀ e ∈ svc.elems, e.Configured)
    (manual : svc.manualData = none ∧ svc.manualQm = none ∧ svc.manualB = none) (mapped : bases.Mapped lib skip svc mode) :
    ∃ d c b used, sizes lib skip svc mode = some (d, c, b) ∧ offer lib skip svc mode bases = some used ∧ used.data ≤ d ∧ used.qm ≤ c ∧
      b = c ∧ (skip = false ∨ mode = .simulation → used.data = d ∧ used.qm = c) := by
  obtain ⟨d, c, h⟩ := found hlib hsvc modest samples configured accessors skip
  obtain ⟨used, h1, h2, h3, -, h5⟩ := enough_partial lib svc skip mode bases d c hlib hsvc samples accessors h
    (by rw [manual.1, manual.2.1, manual.2.2]; exact ⟨nofun, nofun, nofun⟩) mapped
  refine ⟨d, c, c, used, ?_, h1, h2, h3, rfl, h5⟩
  rw [sizes_of_calculate h, manual.1, manual.2.1, manual.2.2]
  rfl

/-- `accessor_ends_process`: with the size calculated by analysis, offering a service ends the process if its last service element is a field
with a getter or a setter. -/
theorem accessor_ends_process (lib : Lib) (svc : Svc) (skip : Bool) (bases : Bases) (es : List Elem) (e : Elem) (hlib : lib.Valid)
    (hsvc : svc.Valid) (samples : ∀ e ∈ svc.elems, e.sample.Fundamental lib) (last : svc.elems = es ++ [e]) (accessor : e.Accessor)
    (typed : svc.generic = false) (slots : ∀ x ∈ svc.elems, x.slots ≠ some 0) (manual : svc.manualData = none)
    (mapped : bases.Mapped lib skip svc .analysis) : offer lib skip svc .analysis bases = none :=
  accessor_none hlib hsvc samples typed manual last accessor slots mapped

/-- `missing_subscribers_ends_process`: with the size calculated by analysis, offering ends the process if the maximum number of subscribers is
not configured for a service element, even if that is a field without notifier. -/
theorem missing_subscribers_ends_process (lib : Lib) (svc : Svc) (skip : Bool) (bases : Bases) (e : Elem) (elem : e ∈ svc.elems)
    (missing : e.maxSubs = none) (manual : svc.manualData = none ∨ svc.manualQm = none ∨ svc.manualB = none) :
    offer lib skip svc .analysis bases = none :=
  missing_none elem missing manual bases

end Verif.Props.C81

/-! ## The hypotheses are met -/
namespace Verif.Demo.C81
open Verif.Sizing Verif.Props.C81

/-- Plausible sizes for x86-64. -/
def lib : Lib where
  maxAlign := ⟨32, 16⟩
  block := ⟨16, 8⟩
  storage := ⟨96, 8⟩
  eventEntry := ⟨32, 8⟩
  metaEntry := ⟨40, 8⟩
  eventStorage := ⟨48, 8⟩
  control := ⟨128, 8⟩
  controlEntry := ⟨160, 8⟩
  pidEntry := ⟨8, 8⟩
  slot := ⟨8, 8⟩
  logSlot := ⟨1, 1⟩
  logNode := ⟨80, 8⟩

theorem lib_valid : lib.Valid := by
  refine ⟨by decide, ⟨⟨4, by decide⟩, by decide, by decide, by decide⟩, ?_⟩
  intro t ht
  simp only [lib, List.mem_cons, List.not_mem_nil, or_false] at ht
  rcases ht with rfl | rfl | rfl | rfl | rfl | rfl | rfl | rfl | rfl | rfl | rfl
  all_goals first
    | exact ⟨⟨⟨3, by decide⟩, by decide, by decide, by decide⟩, by simp [Ty.Fundamental, lib]⟩
    | exact ⟨⟨⟨0, by decide⟩, by decide, by decide, by decide⟩, by simp [Ty.Fundamental, lib]⟩

def event : Elem := ⟨⟨12, 4⟩, some 5, 1, some 3, none⟩
/-- A field with getter and notifier. -/
def field : Elem := ⟨⟨24, 8⟩, some 3, 0, some 2, some ⟨true, true, true⟩⟩
/-- A field with a notifier only. -/
def plain : Elem := ⟨⟨24, 8⟩, some 3, 0, some 2, some ⟨true, false, false⟩⟩
/-- A field with a getter only, for which no number of subscribers is configured. -/
def getter : Elem := ⟨⟨24, 8⟩, some 3, 0, none, some ⟨false, true, false⟩⟩

theorem elems_valid : ∀ e ∈ [event, field, plain, getter], e.Valid ∧ e.sample.Fundamental lib := by
  intro e he
  simp only [List.mem_cons, List.not_mem_nil, or_false] at he
  rcases he with rfl | rfl | rfl | rfl
  · exact ⟨⟨⟨⟨2, by decide⟩, by decide, by decide, by decide⟩, by simp [event], by decide, by simp [event], by simp [event]⟩, by simp [Ty.Fundamental, lib, event]⟩
  · exact ⟨⟨⟨⟨3, by decide⟩, by decide, by decide, by decide⟩, by simp [field], by decide, by simp [field], by simp [field]⟩, by simp [Ty.Fundamental, lib, field]⟩
  · exact ⟨⟨⟨⟨3, by decide⟩, by decide, by decide, by decide⟩, by simp [plain], by decide, by simp [plain], by simp [plain]⟩, by simp [Ty.Fundamental, lib, plain]⟩
  · exact ⟨⟨⟨⟨3, by decide⟩, by decide, by decide, by decide⟩, by simp [getter], by decide, by simp [getter], by simp [getter]⟩, by simp [Ty.Fundamental, lib, getter]⟩

def bases : Bases := ⟨0x10000, 0x20000, 0x30000⟩

theorem mapped {svc : Svc} {skip : Bool} {mode : Mode} {d q b : Nat} (h : sizes lib skip svc mode = some (d, q, b)) (hd : d < 2 ^ 40)
    (hq : q < 2 ^ 40) (hb : b < 2 ^ 40) : bases.Mapped lib skip svc mode := by
  intro d' q' b' h'
  rw [h] at h'
  cases h'
  refine ⟨⟨by decide, by decide, ?_⟩, ⟨by decide, by decide, ?_⟩, fun _ => ⟨by decide, by decide, ?_⟩⟩ <;>
    simp only [bases, lib] <;> omega

/-- Typed events and fields, QM and ASIL-B. -/
def typed : Svc := ⟨false, true, [event, plain, event], none, some 10000, none⟩
def accessors : Svc := ⟨false, true, [event, field, getter], none, none, some 20000⟩
def generic : Svc := ⟨true, false, [event, event], none, none, none⟩

theorem valid_of {svc : Svc} (h : ∀ e ∈ svc.elems, e ∈ [event, field, plain, getter]) (hc : svc.elems.length ≤ 100)
    (hg : svc.generic = true → ∀ e ∈ svc.elems, e.tags = none) : svc.Valid ∧ ∀ e ∈ svc.elems, e.sample.Fundamental lib :=
  ⟨⟨fun e he => (elems_valid e (h e he)).1, by omega, hg⟩, fun e he => (elems_valid e (h e he)).2⟩

theorem typed_valid : typed.Valid ∧ ∀ e ∈ typed.elems, e.sample.Fundamental lib :=
  valid_of (by simp [typed]) (by decide) (by simp [typed])
theorem accessors_valid : accessors.Valid ∧ ∀ e ∈ accessors.elems, e.sample.Fundamental lib :=
  valid_of (by simp [accessors]) (by decide) (by simp [accessors])
theorem generic_valid : generic.Valid ∧ ∀ e ∈ generic.elems, e.sample.Fundamental lib :=
  valid_of (by simp [generic]) (by decide) (by simp [generic, event])

/-- An event, and an event whose samples are aligned to a cache line. -/
def over : Svc := ⟨false, false, [⟨⟨8, 8⟩, some 6, 0, some 3, none⟩, ⟨⟨64, 64⟩, some 1, 0, some 3, none⟩], none, none, none⟩

end Verif.Demo.C81

namespace Verif.Props.C81
open Verif.Sizing Verif.Demo.C81

/-- `over_aligned_ends_process`: a service with an event whose samples are over-aligned cannot be offered, wherever the memory is mapped and
in both ways of calculating the size. -/
theorem over_aligned_ends_process : lib.Valid ∧ over.Valid ∧ (∀ e ∈ over.elems, ¬ e.Accessor) ∧
    ∀ skip mode bases, calculate lib skip over mode ≠ none ∧
      (bases.Mapped lib skip over mode → offer lib skip over mode bases = none) := by
  refine ⟨lib_valid, ⟨?_, by decide, by simp [over]⟩, ?_, ?_⟩
  · intro e he
    simp only [over, List.mem_cons, List.not_mem_nil, or_false] at he
    rcases he with rfl | rfl
    · exact ⟨⟨⟨3, by decide⟩, by decide, by decide, by decide⟩, by simp, by decide, by simp, by simp⟩
    · exact ⟨⟨⟨6, by decide⟩, by decide, by decide, by decide⟩, by simp, by decide, by simp, by simp⟩
  · intro e he ⟨t, ht, _⟩
    simp only [over, List.mem_cons, List.not_mem_nil, or_false] at he
    rcases he with rfl | rfl <;> cases ht
  · intro skip mode bases
    have hs : ∃ c, sizes lib skip over mode = some (448, c, c) ∧ calculate lib skip over mode = some (448, c) := by
      cases skip <;> cases mode <;> exact ⟨1428, by decide +kernel, by decide +kernel⟩
    obtain ⟨c, hs, hc⟩ := hs
    refine ⟨by rw [hc]; simp, fun hm => ?_⟩
    obtain ⟨⟨h1, h2, h3⟩, -⟩ := hm _ _ _ hs
    cases ho : offer lib skip over mode bases with
    | none => rfl
    | some u =>
      exfalso
      obtain ⟨d, q, b, ld, ud, hs', hld, hud⟩ := offer_data ho
      rw [hs] at hs'; cases hs'
      have : createData lib skip over = some [(96, 8), (64, 8), (80, 8), (48, 8), (48, 8), (48, 8), (64, 64)] := by
        cases skip <;> decide +kernel
      rw [this] at hld; cases hld
      unfold create at hud
      rw [show mgmt lib = some 16 by decide +kernel] at hud
      dsimp only [Option.bind_eq_bind, Option.bind_some] at hud
      rw [show ShmAlloc.safeAdd 448 16 = some 464 by decide +kernel] at hud
      dsimp only [Option.bind_some] at hud
      simp only [lib] at h3
      rw [place_eq (c := ⟨464, 16, fun _ => bases.data⟩) h2 (by dsimp only; omega) _ _ (by
        intro x hx
        dsimp only
        simp only [List.mem_cons, List.not_mem_nil, or_false] at hx
        have e8 : 8 ∣ bases.data := Nat.dvd_trans (by decide) h1
        have e64 : 64 ∣ bases.data := Nat.dvd_trans (by decide) h1
        rcases hx with rfl | rfl | rfl | rfl | rfl | rfl | rfl
        all_goals first
          | exact ⟨by decide, e8⟩
          | exact ⟨by decide, e64⟩) (by dsimp only; omega), if_neg (by dsimp only; decide +kernel)] at hud
      cases hud

end Verif.Props.C81

namespace Verif.Demo.C81
open Verif.Sizing Verif.Props.C81

/-- The size found by analysis, with a configured size for the QM object. -/
example : ∃ used, offer lib true typed .analysis bases = some used ∧ used.data ≤ 672 ∧ used.qm ≤ 1856 := by
  obtain ⟨used, h, h1, h2, -⟩ := enough_partial lib typed true .analysis bases 672 1856 lib_valid typed_valid.1 typed_valid.2
    (by
      intro _ e he ⟨t, ht, h⟩
      simp only [typed, List.mem_cons, List.not_mem_nil, or_false] at he
      rcases he with rfl | rfl | rfl
      · cases ht
      · cases ht; rcases h with h | h <;> cases h
      · cases ht)
    (by decide +kernel) (by simp [AtLeast, typed])
    (mapped (by decide +kernel : sizes lib true typed .analysis = some (672, 10000, 1856)) (by decide) (by decide) (by decide))
  exact ⟨used, h, h1, h2⟩

/-- The size found by simulation, for fields with getters and setters. -/
example : ∃ used, offer lib true accessors .simulation bases = some used ∧ used.data = 744 ∧ used.qm = 1592 := by
  obtain ⟨used, h, -, -, -, h5⟩ := enough_partial lib accessors true .simulation bases 744 1592 lib_valid accessors_valid.1 accessors_valid.2
    (by intro h; cases h) (by decide +kernel) (by simp [AtLeast, accessors])
    (mapped (by decide +kernel : sizes lib true accessors .simulation = some (744, 1592, 20000)) (by decide) (by decide) (by decide))
  exact ⟨used, h, h5 (.inr rfl)⟩

/-- A generic service. -/
example : ∃ used, offer lib false generic .analysis bases = some used ∧ used.data = 528 ∧ used.asilB = none := by
  obtain ⟨used, h, -, -, h4, h5⟩ := enough_partial lib generic false .analysis bases 528 1488 lib_valid generic_valid.1 generic_valid.2
    (by
      intro _ e he ⟨t, ht, _⟩
      simp only [generic, List.mem_cons, List.not_mem_nil, or_false] at he
      rcases he with rfl | rfl <;> cases ht)
    (by decide +kernel) (by simp [AtLeast, generic])
    (mapped (by decide +kernel : sizes lib false generic .analysis = some (528, 1488, 1488)) (by decide) (by decide) (by decide))
  exact ⟨used, h, (h5 (.inl rfl)).1, h4⟩

/-- The hypotheses of `offered_partial` are met. -/
example : ∃ used, offer lib false generic .analysis bases = some used ∧ used.data = 528 := by
  obtain ⟨d, c, b, used, h, h1, -, -, -, h5⟩ := offered_partial lib generic false .analysis bases lib_valid generic_valid.1
    ⟨by simp [lib], by
      intro e he n hn
      simp only [generic, List.mem_cons, List.not_mem_nil, or_false] at he
      rcases he with rfl | rfl <;> (simp only [event, Option.some.injEq] at hn; subst hn; decide)⟩ generic_valid.2
    (by
      intro _ e he ⟨t, ht, _⟩
      simp only [generic, List.mem_cons, List.not_mem_nil, or_false] at he
      rcases he with rfl | rfl <;> cases ht)
    (by
      intro e he
      simp only [generic, List.mem_cons, List.not_mem_nil, or_false] at he
      rcases he with rfl | rfl <;> exact ⟨5, 3, rfl, by decide, rfl⟩) ⟨rfl, rfl, rfl⟩
    (mapped (by decide +kernel : sizes lib false generic .analysis = some (528, 1488, 1488)) (by decide) (by decide) (by decide))
  rw [show sizes lib false generic .analysis = some (528, 1488, 1488) by decide +kernel] at h
  cases h
  exact ⟨used, h1, (h5 (.inl rfl)).1⟩

/-- An event and a field with getter and setter. -/
def last : Svc := ⟨false, false, [event, field], none, none, none⟩

theorem last_valid : last.Valid ∧ ∀ e ∈ last.elems, e.sample.Fundamental lib := valid_of (by simp [last]) (by decide) (by simp [last])

/-- The hypotheses of `accessor_ends_process` are met, and a size is calculated. -/
example : calculate lib true last .analysis ≠ none ∧ offer lib true last .analysis bases = none :=
  ⟨by decide +kernel, accessor_ends_process lib last true bases [event] field lib_valid last_valid.1 last_valid.2 rfl
    ⟨_, rfl, .inl rfl⟩ rfl (by simp [last, event, field]) rfl
    (mapped (by decide +kernel : sizes lib true last .analysis = some (480, 1369, 1369)) (by decide) (by decide) (by decide))⟩

/-- With a getter only and without a number of subscribers the service can be offered with the size found by simulation, but not with the
analysis. -/
example : offer lib true accessors .analysis bases = none ∧ offer lib true accessors .simulation bases ≠ none :=
  ⟨missing_subscribers_ends_process lib accessors true bases getter (by simp [accessors]) rfl (.inl rfl), by decide +kernel⟩

/-- The largest configurable number of slots together with a getter leaves no control slots at all, since the number is converted to 16
bits. -/
example : createElemControl lib true ⟨⟨8, 8⟩, some 65535, 0, some 0, some ⟨true, true, false⟩⟩ = some [] ∧
    createElemControl lib true ⟨⟨8, 8⟩, some 65535, 0, some 0, some ⟨true, false, false⟩⟩ ≠ some [] := by decide +kernel

end Verif.Demo.C81
