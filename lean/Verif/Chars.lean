/-
Strings as lists of characters, splitting and joining.
-/
namespace Verif

/-- Rust `String` / `&str`: the list of its `char`s (used everywhere in /repo). -/
abbrev Str := List Char

open Lean in
/-- Character-list literal, expanded at elaboration time. -/
macro:max "%s" s:str : term => do
  let cs := s.getString.toList.toArray.map Syntax.mkCharLit
  `(([$cs,*] : List Char))

/-- `str::split(char)` of the Rust standard library (used at atelier-core/src/model/identity.rs:192, 220):
the pieces between separators; the empty string has one (empty) piece. -/
def splitOn (sep : Char) : Str → List Str
  | [] => [[]]
  | c :: cs =>
    if c = sep then [] :: splitOn sep cs
    else match splitOn sep cs with
      | [] => [[c]]
      | p :: ps => (c :: p) :: ps

/-- `[..].join(sep)` of the Rust standard library. -/
def joinWith (sep : Str) : List Str → Str
  | [] => []
  | [p] => p
  | p :: q :: ps => p ++ sep ++ joinWith sep (q :: ps)

/-- Text before and after the first occurrence of a character, if it occurs (`str::split_once`). -/
def splitFirst (sep : Char) : Str → Option (Str × Str)
  | [] => none
  | c :: cs =>
    if c = sep then some ([], cs)
    else (splitFirst sep cs).map fun (a, b) => (c :: a, b)

theorem splitOn_ne_nil (sep : Char) (s : Str) : splitOn sep s ≠ [] := by
  induction s with
  | nil => simp [splitOn]
  | cons c cs ih =>
    simp only [splitOn]
    split
    · simp
    · split <;> simp

theorem joinWith_splitOn (sep : Char) (s : Str) : joinWith [sep] (splitOn sep s) = s := by
  induction s with
  | nil => simp [splitOn, joinWith]
  | cons c cs ih =>
    simp only [splitOn]
    split
    · rename_i h
      cases hs : splitOn sep cs with
      | nil => exact absurd hs (splitOn_ne_nil _ _)
      | cons p ps => rw [hs] at ih; simp [joinWith, ih, h]
    · cases hs : splitOn sep cs with
      | nil => exact absurd hs (splitOn_ne_nil _ _)
      | cons p ps =>
        rw [hs] at ih
        cases ps with
        | nil => simp [joinWith] at ih ⊢; exact ih
        | cons q qs => simp [joinWith] at ih ⊢; exact ih

theorem splitOn_of_not_mem {sep : Char} {p : Str} (h : sep ∉ p) : splitOn sep p = [p] := by
  induction p with
  | nil => simp [splitOn]
  | cons c cs ih =>
    simp at h
    have hc : c ≠ sep := fun e => h.1 e.symm
    simp [splitOn, ih h.2, hc]

theorem splitOn_append {sep : Char} {p : Str} (h : sep ∉ p) (s : Str) :
    splitOn sep (p ++ sep :: s) = p :: splitOn sep s := by
  induction p with
  | nil => simp [splitOn]
  | cons c cs ih =>
    simp at h
    have hc : c ≠ sep := fun e => h.1 e.symm
    simp [splitOn, ih h.2, hc]

theorem splitOn_joinWith {sep : Char} {ps : List Str} (hne : ps ≠ []) (h : ∀ p ∈ ps, sep ∉ p) :
    splitOn sep (joinWith [sep] ps) = ps := by
  induction ps with
  | nil => exact absurd rfl hne
  | cons p ps ih =>
    cases ps with
    | nil => simp [joinWith]; exact splitOn_of_not_mem (h p (by simp))
    | cons q qs =>
      simp only [joinWith]
      have : p ++ [sep] ++ joinWith [sep] (q :: qs) = p ++ sep :: joinWith [sep] (q :: qs) := by simp
      rw [this, splitOn_append (h p (by simp)), ih (by simp) (fun x hx => h x (by simp [hx]))]

/-- No piece produced by splitting contains the separator. -/
theorem not_mem_of_mem_splitOn {sep : Char} {s p : Str} (h : p ∈ splitOn sep s) : sep ∉ p := by
  induction s generalizing p with
  | nil => simp [splitOn] at h; simp [h]
  | cons c cs ih =>
    simp only [splitOn] at h
    split at h
    · cases h with
      | head => simp
      | tail _ h => exact ih h
    · rename_i hc
      cases hs : splitOn sep cs with
      | nil => exact absurd hs (splitOn_ne_nil _ _)
      | cons q qs =>
        rw [hs] at h
        cases h with
        | head =>
          have := ih (p := q) (by rw [hs]; simp)
          simp [this]; exact fun e => hc e.symm
        | tail _ h => exact ih (by rw [hs]; exact List.mem_cons_of_mem _ h)

theorem splitFirst_eq_some {sep : Char} {s a b : Str} :
    splitFirst sep s = some (a, b) ↔ s = a ++ sep :: b ∧ sep ∉ a := by
  induction s generalizing a b with
  | nil => simp [splitFirst]
  | cons c cs ih =>
    simp only [splitFirst]
    split
    · rename_i h
      subst h
      constructor
      · intro h; simp at h; simp [h.1, h.2]
      · intro ⟨h1, h2⟩
        cases a with
        | nil => simp at h1; simp [h1]
        | cons x xs => simp at h1 h2; exact absurd h1.1 h2.1
    · rename_i hc
      constructor
      · intro h
        rw [Option.map_eq_some_iff] at h
        obtain ⟨⟨x, y⟩, h1, h2⟩ := h
        simp at h2
        obtain ⟨rfl, rfl⟩ := h2
        have := ih.mp h1
        simp [this.1, this.2]
        exact fun e => hc e.symm
      · intro ⟨h1, h2⟩
        cases a with
        | nil => simp at h1; exact absurd h1.1 hc
        | cons x xs =>
          simp at h1 h2
          obtain ⟨rfl, h1⟩ := h1
          have := (ih (a := xs) (b := b)).mpr ⟨h1, h2.2⟩
          simp [this]

theorem splitFirst_eq_none {sep : Char} {s : Str} : splitFirst sep s = none ↔ sep ∉ s := by
  induction s with
  | nil => simp [splitFirst]
  | cons c cs ih =>
    simp only [splitFirst]
    split
    · rename_i h; subst h; simp
    · rename_i hc
      simp only [Option.map_eq_none_iff, ih, List.mem_cons, not_or]
      exact ⟨fun h => ⟨fun e => hc e.symm, h⟩, fun h => h.2⟩

end Verif
