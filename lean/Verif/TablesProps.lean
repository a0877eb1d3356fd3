/-
Property theorems C08: every keyword table is a pair of inverse functions.
-/
import Verif.Tables

namespace Verif

/-- The property of one table: printing then parsing is the identity, and the only text accepted for a value
is its printed form; every other text is the error `err`. -/
def KeywordTable {α ε : Type} (display : α → Str) (fromStr : Str → Except ε α) (err : Str → ε) : Prop :=
  (∀ v, fromStr (display v) = .ok v) ∧
  (∀ s v, fromStr s = .ok v ↔ s = display v) ∧
  (∀ s, (∀ v, s ≠ display v) → fromStr s = .error (err s))

theorem keywordTable_of {α ε : Type} {display : α → Str} {arms : List (Str × α)} {err : Str → ε}
    {fromStr : Str → Except ε α}
    (hf : ∀ s, fromStr s = match matchArms arms s with | some v => .ok v | none => .error (err s))
    (h1 : ∀ v, matchArms arms (display v) = some v)
    (h2 : ∀ e ∈ arms, display e.2 = e.1) : KeywordTable display fromStr err := by
  have h3 : ∀ s v, matchArms arms s = some v → s = display v := by
    intro s v h
    exact (h2 _ (AMap.mem_of_get h)).symm
  refine ⟨fun v => by rw [hf, h1], fun s v => ?_, fun s hs => ?_⟩
  · constructor
    · intro h
      rw [hf] at h
      cases hm : matchArms arms s with
      | none => simp [hm] at h
      | some w =>
        simp [hm] at h
        subst h
        exact h3 _ _ hm
    · rintro rfl; rw [hf, h1]
  · rw [hf]
    cases hm : matchArms arms s with
    | none => rfl
    | some w => exact absurd (h3 _ _ hm) (hs w)

/-- C08: the names of the simple shapes. -/
theorem C08_simple : KeywordTable Simple.display Simple.fromStr Err.invalidSimpleShape :=
  keywordTable_of (arms := Simple.arms) (fun s => by unfold Simple.fromStr; cases matchArms Simple.arms s <;> rfl) (by intro v; cases v <;> rfl) (by decide +kernel)

/-- C08: the names of the selector shape types. -/
theorem C08_shapeType : KeywordTable ShapeType.display ShapeType.fromStr Err.invalidSelector :=
  keywordTable_of (arms := ShapeType.arms) (fun s => by unfold ShapeType.fromStr; cases matchArms ShapeType.arms s <;> rfl) (by intro v; cases v <;> rfl) (by decide +kernel)

/-- C08: the selector comparators. -/
theorem C08_comparator : KeywordTable Comparator.display Comparator.fromStr Err.invalidSelector :=
  keywordTable_of (arms := Comparator.arms) (fun s => by unfold Comparator.fromStr; cases matchArms Comparator.arms s <;> rfl) (by intro v; cases v <;> rfl) (by decide +kernel)

/-- C08: the `error` trait's values (the error carries the trait's name). -/
theorem C08_errorSource : KeywordTable ErrorSource.display ErrorSource.fromStr (fun _ => .invalidTraitValue (%s"error")) :=
  keywordTable_of (arms := ErrorSource.arms) (fun s => by unfold ErrorSource.fromStr; cases matchArms ErrorSource.arms s <;> rfl) (by intro v; cases v <;> rfl) (by decide +kernel)

/-- C08: the command line's file formats. -/
theorem C08_fileFormat : KeywordTable FileFormat.display FileFormat.fromStr (fun s => s) :=
  keywordTable_of (arms := FileFormat.arms) (fun s => by unfold FileFormat.fromStr; cases matchArms FileFormat.arms s <;> rfl) (by intro v; cases v <;> rfl) (by decide +kernel)

/-- C08: `Version` accepts its printed form and the documented abbreviation, and nothing else. -/
theorem C08_version (s : Str) (v : Version) :
    Version.fromStr v.display = .ok v ∧
    (Version.fromStr s = .ok v ↔ s = v.display ∨ s = %s"1") ∧
    (s ≠ v.display → s ≠ %s"1" → Version.fromStr s = .error (.invalidVersionNumber (some s))) := by
  cases v
  refine ⟨rfl, ?_, ?_⟩
  · unfold Version.fromStr
    split
    · next h => simpa [Version.display] using h.symm
    · next h => simpa [Version.display, not_or, and_comm] using h
  · intro h1 h2
    simp only [Version.display] at h1
    simp [Version.fromStr, h1, h2]

/-- C08: every printed name of a simple shape also parses as the selector shape type of the same name, so a simple
shape kind can always be selected by its own name. -/
theorem C08_simple_subset_shapeType (k : Simple) : ∃ t, ShapeType.fromStr k.display = .ok t ∧ t.display = k.display := by
  cases k
  all_goals first
    | exact ⟨.blob, rfl, rfl⟩ | exact ⟨.boolean, rfl, rfl⟩ | exact ⟨.document, rfl, rfl⟩ | exact ⟨.string, rfl, rfl⟩
    | exact ⟨.byte, rfl, rfl⟩ | exact ⟨.short, rfl, rfl⟩ | exact ⟨.integer, rfl, rfl⟩ | exact ⟨.long, rfl, rfl⟩
    | exact ⟨.float, rfl, rfl⟩ | exact ⟨.double, rfl, rfl⟩ | exact ⟨.bigInteger, rfl, rfl⟩
    | exact ⟨.bigDecimal, rfl, rfl⟩ | exact ⟨.timestamp, rfl, rfl⟩

example : Comparator.fromStr (%s"{<<}") = .ok .projectionProperSubset ∧
    (∀ v, (%s"==") ≠ Comparator.display v) := by
  refine ⟨rfl, ?_⟩
  intro v; cases v <;> decide

end Verif
