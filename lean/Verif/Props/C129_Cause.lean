import Verif.Spec.Cause
/-! C129: what one sees who walks from an error to its causes. -/
namespace Verif
open Spec

theorem walk_unique {F : ErrorCauses} {e : AnyError} {ds ds' : List Bytes} (h : Walk F e ds) (h' : Walk F e ds') : ds = ds' := by
  induction h generalizing ds' with
  | last e h =>
    cases h' with
    | last _ _ => rfl
    | next _ c _ g _ => rw [h] at g; simp at g
  | next e c ds h _ ih =>
    cases h' with
    | last _ g => rw [h] at g; simp at g
    | next _ c' _ g g' =>
      rw [h] at g
      simp only [Option.some.injEq] at g
      subst g
      rw [ih g']

/-- C129: who walks from an error of the loader to its causes sees exactly what they would see from the error that it passes on: this error is described once,
not twice, and nothing behind it is missed. -/
theorem C129_walk (F : ErrorCauses) (b : BuildError) (e : AnyError) (h : PassesOn b e) (ds : List Bytes) : Walk F (.build b) ds ↔ Walk F e ds := by
  have hc : (AnyError.build b).cause F = e.cause F := by cases h <;> rfl
  have hd : (AnyError.build b).description F = e.description F := by cases h <;> rfl
  constructor
  · intro hw
    cases hw with
    | last _ g => rw [hd]; exact .last _ (hc ▸ g)
    | next _ c ds g gw => rw [hd]; exact .next _ c ds (hc ▸ g) gw
  · intro hw
    cases hw with
    | last _ g => rw [← hd]; exact .last _ (hc ▸ g)
    | next _ c ds g gw => rw [← hd]; exact .next _ c ds (hc ▸ g) gw

/-- C129: errors of the library's own kinds are the end of the walk, with their own description. -/
theorem C129_own (F : ErrorCauses) (b : BuildError) (h : ∀ code e, b ≠ .io code ∧ b ≠ .deserJson e ∧ b ≠ .deserYaml e) (ds : List Bytes) :
    Walk F (.build b) ds ↔ ds = [b.description F.toErrorFacts] := by
  have hc : (AnyError.build b).cause F = none := by
    cases b with
    | testMessage e => rfl
    | io c => exact absurd rfl (h c (.other 0)).1
    | deserJson e => exact absurd rfl (h 0 e).2.1
    | deserYaml e => exact absurd rfl (h 0 e).2.2
    | unsupportedFileExtension => rfl
    | notUtf8FileName => rfl
  constructor
  · intro hw; exact walk_unique hw (.last _ hc)
  · rintro rfl; exact .last _ hc

/-- C129: the walk ends if it ends for the errors of other libraries. -/
theorem C129_ends (F : ErrorCauses) (hF : ∀ e, (∀ b, e ≠ .build b) → (∀ t, e ≠ .test t) → ∃ ds, Walk F e ds) (e : AnyError) : ∃ ds, Walk F e ds := by
  have htest : ∀ t, ∃ ds, Walk F (.test t) ds := fun t => ⟨_, .last _ rfl⟩
  cases e with
  | build b =>
    cases b with
    | testMessage t => exact (htest t).imp fun ds => (C129_walk F _ _ (.test t) ds).mpr
    | io c => exact (hF (.io c) nofun nofun).imp fun ds => (C129_walk F _ _ (.io c) ds).mpr
    | deserJson e => exact (hF (.json e) nofun nofun).imp fun ds => (C129_walk F _ _ (.json e) ds).mpr
    | deserYaml e => exact (hF (.yaml e) nofun nofun).imp fun ds => (C129_walk F _ _ (.yaml e) ds).mpr
    | unsupportedFileExtension => exact ⟨_, .last _ rfl⟩
    | notUtf8FileName => exact ⟨_, .last _ rfl⟩
  | test t => exact htest t
  | io c => exact hF _ nofun nofun
  | json e => exact hF _ nofun nofun
  | yaml e => exact hF _ nofun nofun
  | other n => exact hF _ nofun nofun

/-- Errors of other libraries: an error of JSON can be caused by an I/O error, which is the end. -/
def causeSample : ErrorCauses :=
  { ioDescription := fun _ => b!"entity not found", jsonDescription := fun _ => b!"syntax error", yamlDescription := fun _ => b!"", otherDescription := fun _ => b!"",
    ioCause := fun _ => none, jsonCause := fun _ => some (.io 5), yamlCause := fun _ => none, otherCause := fun _ => none }

theorem causeSample_ends : ∀ e, (∀ b, e ≠ .build b) → (∀ t, e ≠ .test t) → ∃ ds, Walk causeSample e ds := by
  intro e h h'
  cases e with
  | build b => exact absurd rfl (h b)
  | test t => exact absurd rfl (h' t)
  | io c => exact ⟨_, .last _ rfl⟩
  | json e => exact ⟨_, .next _ (.io 5) _ rfl (.last _ rfl)⟩
  | yaml e => exact ⟨_, .last _ rfl⟩
  | other n => exact ⟨_, .last _ rfl⟩

example (e : DeError) : Walk causeSample (.build (.deserJson e)) [b!"syntax error", b!"entity not found"] := .next _ (.io 5) _ rfl (.last _ rfl)
example := C129_ends causeSample causeSample_ends
example (e : DeError) := C129_walk causeSample (.deserJson e) (.json e) (.json e) [b!"syntax error", b!"entity not found"]
example := C129_own causeSample (.testMessage (.keyNotFound 1 b!"k")) (fun _ _ => ⟨nofun, nofun, nofun⟩)

end Verif
