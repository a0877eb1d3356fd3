/-
The remaining functions of atelier-assembler/src/lib.rs: what a registry and an assembler hold (C42, C43).
-/
import Verif.AssemblerProps
import Verif.Commands
import Mathlib.Data.Finset.Card

namespace Verif
open Spec
variable {C : Type}

/-- `FileType::new`, `new_with_mime_type`, `name`, `mime_type` and `reader`, atelier-assembler/src/lib.rs:143-181. -/
def FileType.new (name : Str) (reader : C → Except Err Model) : FileType C := ⟨name, none, reader⟩
@[inherit_doc FileType.new] def FileType.newWithMimeType (name : Str) (reader : C → Except Err Model) (mimeType : Str) : FileType C := ⟨name, some mimeType, reader⟩

/-- `FileTypeRegistry::extensions`, atelier-assembler/src/lib.rs:283-285. -/
def Registry.extensions (r : Registry C) : List Str := AMap.keys r.byExtension

/-- What `FileTypeRegistry::remove` returns, atelier-assembler/src/lib.rs:276-278. -/
def Registry.removed (r : Registry C) (ext : Str) : Option (FileType C) := AMap.get r.byExtension (lower ext)

namespace Assembler

/-- `len` and `paths`, atelier-assembler/src/lib.rs:390-399. -/
def len (a : Assembler C) : Nat := a.paths.length

end Assembler

namespace Access

theorem run_wf {r : Registry C} (h : AMap.Wf r.byExtension) (op : RegOp C) : AMap.Wf (op.run r).byExtension := by
  cases op with
  | register f e =>
    have : (r.register f e).byExtension = AMap.insert r.byExtension (lower e) f := by
      unfold Registry.register; cases f.mimeType <;> rfl
    rw [RegOp.run, this]; exact AMap.wf_insert h _ _
  | registerAll f es =>
    rw [RegOp.run, Registry.registerAll]
    induction es generalizing r with
    | nil => exact h
    | cons e es ih => exact ih (r := { r with byExtension := AMap.insert r.byExtension (lower e) f }) (AMap.wf_insert h _ _)
  | remove e => exact AMap.wf_erase h _

theorem run_lower {r : Registry C} (h : ∀ k ∈ AMap.keys r.byExtension, lower k = k) (op : RegOp C) : ∀ k ∈ AMap.keys (op.run r).byExtension, lower k = k := by
  have ins : ∀ {m : AMap Str (FileType C)} {e f}, (∀ k ∈ AMap.keys m, lower k = k) → ∀ k ∈ AMap.keys (AMap.insert m (lower e) f), lower k = k := by
    intro m e f h k hk
    rcases (AMap.mem_keys_insert _ _ _ _).mp hk with rfl | hk
    · exact Assembler.lower_lower e
    · exact h k hk
  cases op with
  | register f e =>
    have : (r.register f e).byExtension = AMap.insert r.byExtension (lower e) f := by
      unfold Registry.register; cases f.mimeType <;> rfl
    rw [RegOp.run, this]; exact ins h
  | registerAll f es =>
    rw [RegOp.run, Registry.registerAll]
    induction es generalizing r with
    | nil => exact h
    | cons e es ih => exact ih (r := { r with byExtension := AMap.insert r.byExtension (lower e) f }) (ins h)
  | remove e =>
    intro k hk
    rw [AMap.mem_keys_iff] at hk
    refine h k ((AMap.mem_keys_iff _ _).mpr ?_)
    rw [RegOp.run, Registry.remove, AMap.get_erase] at hk
    split at hk
    · cases hk
    · exact hk

theorem after_inv (ops : List (RegOp C)) : AMap.Wf (Registry.after ops).byExtension ∧ ∀ k ∈ AMap.keys (Registry.after ops).byExtension, lower k = k := by
  induction ops using List.reverseRecOn with
  | nil => exact ⟨AMap.wf_nil, fun k hk => by cases hk⟩
  | append_singleton ops o ih =>
    unfold Registry.after at *
    rw [List.foldl_append]
    exact ⟨run_wf ih.1 o, run_lower ih.2 o⟩

end Access

/-- C42: after any history, the extensions that are listed are those that have a file type, in lower case, each once. -/
theorem C42_extensions (ops : List (RegOp C)) (ext : Str) :
    (ext ∈ (Registry.after ops).extensions ↔ lower ext = ext ∧ ∃ ft, (Registry.after ops).get ext = some ft) ∧ (Registry.after ops).extensions.Nodup := by
  obtain ⟨h1, h2⟩ := Access.after_inv ops
  refine ⟨⟨fun h => ⟨h2 ext h, ?_⟩, ?_⟩, h1⟩
  · have hk := (AMap.mem_keys_iff _ _).mp h
    rw [Registry.get, h2 ext h]
    exact Option.isSome_iff_exists.mp hk
  · rintro ⟨hl, ft, h⟩
    rw [Registry.get, hl] at h
    exact (AMap.mem_keys_iff _ _).mpr (by rw [h]; rfl)

/-- C42: removing gives the file type that was there, and then there is none; other extensions keep theirs. -/
theorem C42_removed (r : Registry C) (ext other : Str) :
    r.removed ext = r.get ext ∧ (r.remove ext).get ext = none ∧ (lower other ≠ lower ext → (r.remove ext).get other = r.get other) := by
  refine ⟨rfl, ?_, fun h => ?_⟩
  · simp [Registry.get, Registry.remove, AMap.get_erase]
  · simp only [Registry.get, Registry.remove, AMap.get_erase]
    rw [if_neg (fun e => h e.symm)]

namespace Access

theorem push_mem (a : Assembler C) (p q : Path) : q ∈ (a.push p).paths ↔ q = p ∨ q ∈ a.paths := by
  unfold Assembler.push
  split
  · rename_i h
    constructor
    · exact .inr
    · rintro (rfl | h')
      · exact h
      · exact h'
  · simp [or_comm]

theorem push_nodup {a : Assembler C} (h : a.paths.Nodup) (p : Path) : (a.push p).paths.Nodup := by
  unfold Assembler.push
  split
  · exact h
  · rename_i hp
    rw [List.nodup_append]
    refine ⟨h, by simp, ?_⟩
    intro x hx y hy e
    rw [List.mem_singleton] at hy
    subst hy; subst e; exact hp hx

theorem pushes (a : Assembler C) (ps : List Path) (h : a.paths.Nodup) :
    (∀ q, q ∈ (ps.foldl Assembler.push a).paths ↔ q ∈ ps ∨ q ∈ a.paths) ∧ (ps.foldl Assembler.push a).paths.Nodup ∧
      (ps.foldl Assembler.push a).fileTypes = a.fileTypes := by
  induction ps generalizing a with
  | nil => exact ⟨fun q => by simp, h, rfl⟩
  | cons p ps ih =>
    obtain ⟨h1, h2, h3⟩ := ih (a.push p) (push_nodup h p)
    refine ⟨fun q => ?_, h2, ?_⟩
    · rw [List.foldl_cons, h1 q, push_mem, List.mem_cons]
      constructor
      · rintro (h | h | h)
        · exact .inl (.inr h)
        · exact .inl (.inl h)
        · exact .inr h
      · rintro ((h | h) | h)
        · exact .inr (.inl h)
        · exact .inl h
        · exact .inr (.inr h)
    · rw [List.foldl_cons, h3]
      unfold Assembler.push; split <;> rfl

theorem new_eq (r : Registry C) (sp : Option (List Path)) : Cli.newAssembler r sp = (sp.getD []).foldl Assembler.push ⟨r, []⟩ := by cases sp <;> rfl

end Access

/-- C43: an assembler has the paths of the search path it was made with and those that were pushed, each once; their number is its length, and it is
empty if there are none; its registry is the one it was made with. -/
theorem C43_paths (r : Registry C) (sp : Option (List Path)) (pushed : List Path) (a : Assembler C) (h : a = pushed.foldl Assembler.push (Cli.newAssembler r sp)) :
    (∀ p, p ∈ a.paths ↔ p ∈ pushed ∨ ∃ ps, sp = some ps ∧ p ∈ ps) ∧ a.paths.Nodup ∧ a.fileTypes = r ∧ a.len = a.paths.toFinset.card ∧
      (a.isEmpty = true ↔ pushed = [] ∧ (sp = none ∨ sp = some [])) := by
  subst h
  obtain ⟨h1, h2, h3⟩ := Access.pushes (⟨r, []⟩ : Assembler C) (sp.getD []) List.nodup_nil
  rw [← Access.new_eq] at h1 h2 h3
  obtain ⟨h4, h5, h6⟩ := Access.pushes (Cli.newAssembler r sp) pushed h2
  have mem : ∀ p, p ∈ (pushed.foldl Assembler.push (Cli.newAssembler r sp)).paths ↔ p ∈ pushed ∨ ∃ ps, sp = some ps ∧ p ∈ ps := by
    intro p
    rw [h4 p, h1 p]
    cases sp with
    | none => simp
    | some ps => simp
  refine ⟨mem, h5, h6.trans h3, (List.toFinset_card_of_nodup h5).symm, ?_⟩
  rw [Assembler.isEmpty, List.isEmpty_iff, List.eq_nil_iff_forall_not_mem]
  constructor
  · intro h
    refine ⟨List.eq_nil_iff_forall_not_mem.mpr fun p hp => h p ((mem p).mpr (.inl hp)), ?_⟩
    cases sp with
    | none => exact .inl rfl
    | some ps =>
      right
      rw [List.eq_nil_iff_forall_not_mem.mpr fun p hp => h p ((mem p).mpr (.inr ⟨ps, rfl, hp⟩))]
  · rintro ⟨rfl, rfl | rfl⟩ p hp
    · rcases (mem p).mp hp with h | ⟨_, h, -⟩
      · cases h
      · cases h
    · rcases (mem p).mp hp with h | ⟨_, h, h'⟩
      · cases h
      · injection h with h; subst h; cases h'

/-- Two registrations of one extension, in different case, and a removal. -/
example (f g : FileType C) : (Registry.after [.register f %s"JSON", .registerAll g [%s"json", %s"Smithy"], .remove %s"SMITHY"]).extensions = [%s"json"] := by
  cases f with | mk n m r => cases m <;> rfl

/-- A path that is pushed twice, and is in the search path. -/
example (r : Registry C) : ([[%s"b"], [%s"a"], [%s"b"]].foldl Assembler.push (Cli.newAssembler r (some [[%s"a"]]))).paths = [[%s"a"], [%s"b"]] := rfl

end Verif
