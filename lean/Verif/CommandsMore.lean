/-
C89, C92: what the command line program assembles, and what its commands do end to end.
-/
import Verif.CommandsProps
import Verif.MergeSame

namespace Verif.Spec.Cli
open Verif.Cli
variable {C F : Type}

/-- The readers' crates give JSON objects without repeated names, and shapes are enumerated in some order. -/
structure ReadsWell (o : Outside C F) : Prop where
  json : ∀ c j, o.parseJson c = some j → WfJson j
  enum : Enumerates o.enum
  order : ∀ l, (o.order l).Perm l

/-- The path was given to the command, by itself or in the search path. -/
def Given (files : List Path) (sp : Option (List Path)) (p : Path) : Prop := p ∈ files ∨ ∃ l, sp = some l ∧ p ∈ l

/-- What reading the file gives: it is read as JSON or as Smithy, by its extension in any case; a file that cannot be opened is a panic. -/
inductive FileGives (o : Outside C F) : Path × Option C → Except Err Model → Prop
  | json {q c ext} : HasType q ext → lower ext = %s"json" → FileGives o (q, some c) (jsonReader o c)
  | smithy {q c ext} : HasType q ext → lower ext = %s"smithy" → FileGives o (q, some c) (smithyReader o c)
  | closed {q ext} : HasType q ext → lower ext = %s"json" ∨ lower ext = %s"smithy" → FileGives o (q, none) (.error .panic)

end Verif.Spec.Cli

namespace Verif.Cli
open Spec Spec.Cli
variable {C F : Type}

abbrev registry (o : Outside C F) : Registry C := Registry.default (jsonReader o) (smithyReader o)

theorem registry_get (o : Outside C F) (ext : Str) (ft : FileType C) : (registry o).get ext = some ft ↔
    (lower ext = %s"json" ∧ ft = ⟨%s"JSON AST", none, jsonReader o⟩) ∨ (lower ext = %s"smithy" ∧ ft = ⟨%s"Smithy IDL", none, smithyReader o⟩) := by
  have hb : (registry o).get ext = AMap.get [(%s"json", ⟨%s"JSON AST", none, jsonReader o⟩), (%s"smithy", ⟨%s"Smithy IDL", none, smithyReader o⟩)] (lower ext) := rfl
  rw [hb]
  by_cases h1 : lower ext = %s"json"
  · rw [h1]
    constructor
    · intro h; exact .inl ⟨rfl, (Option.some.inj h).symm⟩
    · rintro (⟨-, rfl⟩ | ⟨h, -⟩)
      · rfl
      · exact absurd h (by decide)
  · by_cases h2 : lower ext = %s"smithy"
    · rw [h2]
      constructor
      · intro h; exact .inr ⟨rfl, (Option.some.inj h).symm⟩
      · rintro (⟨h, -⟩ | ⟨-, rfl⟩)
        · exact absurd h (by decide)
        · rfl
    · constructor
      · intro h
        rw [AMap.get_cons, if_neg (fun h => h1 h.symm), AMap.get_cons, if_neg (fun h => h2 h.symm)] at h
        cases h
      · rintro (⟨h, -⟩ | ⟨h, -⟩)
        · exact absurd h h1
        · exact absurd h h2

theorem typeOf_iff (o : Outside C F) (q : Path) (ft : FileType C) : TypeOf (registry o) q ft ↔ ∃ ext, HasType q ext ∧
    ((lower ext = %s"json" ∧ ft = ⟨%s"JSON AST", none, jsonReader o⟩) ∨ (lower ext = %s"smithy" ∧ ft = ⟨%s"Smithy IDL", none, smithyReader o⟩)) := by
  constructor
  · rintro ⟨init, name, ext, rfl, he, hg⟩
    exact ⟨ext, ⟨init, name, rfl, he⟩, (registry_get o ext ft).mp hg⟩
  · rintro ⟨ext, ⟨init, name, rfl, he⟩, h⟩
    exact ⟨init, name, ext, rfl, he, (registry_get o ext ft).mpr h⟩

theorem readsAs_iff (o : Outside C F) (f : Path × Option C) (r : Except Err Model) : ReadsAs (registry o) f r ↔ FileGives o f r := by
  obtain ⟨q, c⟩ := f
  constructor
  · rintro ⟨ft, ht, h⟩
    obtain ⟨ext, he, hf⟩ := (typeOf_iff o q ft).mp ht
    rcases h with ⟨c, rfl, rfl⟩ | ⟨rfl, rfl⟩
    · rcases hf with ⟨h, rfl⟩ | ⟨h, rfl⟩
      · exact .json he h
      · exact .smithy he h
    · exact .closed he (hf.imp (·.1) (·.1))
  · intro h
    cases h with
    | json he hx => exact ⟨_, (typeOf_iff o q _).mpr ⟨_, he, .inl ⟨hx, rfl⟩⟩, .inl ⟨_, rfl, rfl⟩⟩
    | smithy he hx => exact ⟨_, (typeOf_iff o q _).mpr ⟨_, he, .inr ⟨hx, rfl⟩⟩, .inl ⟨_, rfl, rfl⟩⟩
    | closed he hx =>
      rcases hx with hx | hx
      · exact ⟨_, (typeOf_iff o q _).mpr ⟨_, he, .inl ⟨hx, rfl⟩⟩, .inr ⟨rfl, rfl⟩⟩
      · exact ⟨_, (typeOf_iff o q _).mpr ⟨_, he, .inr ⟨hx, rfl⟩⟩, .inr ⟨rfl, rfl⟩⟩

theorem registry_good (o : Outside C F) (ho : ReadsWell o) : GoodReaders (registry o) := by
  intro ext ft h c m hm
  rcases (registry_get o ext ft).mp h with ⟨-, rfl⟩ | ⟨-, rfl⟩
  · simp only [jsonReader] at hm
    split at hm
    · cases hm
    · rename_i j hj
      exact (C30_read_model_wf j m (ho.json c j hj) hm).1
  · simp only [smithyReader] at hm
    split at hm
    · cases hm
    · exact (C52_read_models o.flt o.enum ho.enum _ m hm).1

theorem foldl_push (l : List Path) (a : Assembler C) (hn : a.paths.Nodup) : (l.foldl Assembler.push a).fileTypes = a.fileTypes ∧
    (l.foldl Assembler.push a).paths.Nodup ∧ ∀ p, p ∈ (l.foldl Assembler.push a).paths ↔ p ∈ a.paths ∨ p ∈ l := by
  induction l generalizing a with
  | nil => exact ⟨rfl, hn, fun p => by simp⟩
  | cons x l ih =>
    have hx : (Assembler.push a x).fileTypes = a.fileTypes ∧ (Assembler.push a x).paths.Nodup ∧ ∀ p, p ∈ (Assembler.push a x).paths ↔ p ∈ a.paths ∨ p = x := by
      unfold Assembler.push
      by_cases h : x ∈ a.paths
      · rw [if_pos h]
        exact ⟨rfl, hn, fun p => ⟨.inl, fun hp => hp.elim id fun e => e ▸ h⟩⟩
      · rw [if_neg h]
        refine ⟨rfl, ?_, fun p => by simp⟩
        simp only
        rw [List.nodup_append]
        exact ⟨hn, by simp, fun y hy z hz e => h (by rw [List.mem_singleton.mp hz] at e; exact e ▸ hy)⟩
    obtain ⟨h1, h2, h3⟩ := hx
    obtain ⟨i1, i2, i3⟩ := ih (Assembler.push a x) h2
    refine ⟨i1.trans h1, i2, fun p => ?_⟩
    rw [List.foldl_cons, i3, h3, List.mem_cons, or_assoc]

theorem assemble_paths (o : Outside C F) (ho : ReadsWell o) (fs : Path → Node C) (files : List Path) (sp : Option (List Path)) :
    ∃ paths : List Path, paths.Nodup ∧ (∀ p, p ∈ paths ↔ Given files sp p) ∧ assembleModel o fs files sp = Assembler.tryFrom ⟨registry o, paths⟩ fs := by
  have hnew : (newAssembler (registry o) sp).fileTypes = registry o ∧ (newAssembler (registry o) sp).paths.Nodup ∧
      ∀ p, p ∈ (newAssembler (registry o) sp).paths ↔ ∃ l, sp = some l ∧ p ∈ l := by
    cases sp with
    | none => exact ⟨rfl, List.nodup_nil, fun p => by simp [newAssembler]⟩
    | some l =>
      obtain ⟨h1, h2, h3⟩ := foldl_push l (⟨registry o, []⟩ : Assembler C) List.nodup_nil
      exact ⟨h1, h2, fun p => by simp [newAssembler, h3]⟩
  obtain ⟨h1, h2, h3⟩ := hnew
  obtain ⟨i1, i2, i3⟩ := foldl_push files _ h2
  refine ⟨o.order (files.foldl Assembler.push (newAssembler (registry o) sp)).paths, (ho.order _).nodup_iff.mpr i2, fun p => ?_, ?_⟩
  · rw [(ho.order _).mem_iff, i3, h3, or_comm]
    rfl
  · unfold assembleModel
    simp only [i1, h1]

theorem forall₂_iff {α β : Type} {R S : α → β → Prop} (h : ∀ a b, R a b ↔ S a b) (l : List α) (m : List β) : List.Forall₂ R l m ↔ List.Forall₂ S l m :=
  ⟨fun hh => hh.imp fun a b => (h a b).mp, fun hh => hh.imp fun a b => (h a b).mpr⟩

/-- C92: a command reads the files below the paths it is given, by themselves or in the search path, through directories at any depth, whose extension
is `json` or `smithy` in any case, each by the reader for its extension; the model it works on is what is read, merged; it fails with the error of
the first file that cannot be read, or else of the first that cannot be merged. -/
theorem C92_assembled (o : Outside C F) (ho : ReadsWell o) (fs : Path → Node C) (files : List Path) (sp : Option (List Path))
    (hl : ∀ p, Given files sp p → ¬ Unlistable (fs p)) :
    ∃ read : List (Path × Option C),
      (∀ q c, (q, c) ∈ read ↔ (∃ p, Given files sp p ∧ Under (fs p) p q c) ∧ ∃ r, FileGives o (q, c) r) ∧
      (∀ m, assembleModel o fs files sp = .ok m ↔
        ∃ models, List.Forall₂ (fun f x => FileGives o f (.ok x)) read models ∧ MergesTo (Model.new .v10) models m) ∧
      ∀ e, assembleModel o fs files sp = .error e ↔
        (∃ before f after, read = before ++ f :: after ∧ (∃ ms, List.Forall₂ (fun f x => FileGives o f (.ok x)) before ms) ∧ FileGives o f (.error e)) ∨
        ∃ models, List.Forall₂ (fun f x => FileGives o f (.ok x)) read models ∧ MergeFails (Model.new .v10) models e := by
  obtain ⟨paths, -, hp, ha⟩ := assemble_paths o ho fs files sp
  obtain ⟨read, h1, h2, h3⟩ := C43_assembly ⟨registry o, paths⟩ fs (registry_good o ho) fun p hm => hl p ((hp p).mp hm)
  have hall : ∀ l ms, AllRead (registry o) l ms ↔ List.Forall₂ (fun f x => FileGives o f (.ok x)) l ms := fun l ms =>
    forall₂_iff (fun f x => readsAs_iff o f (.ok x)) l ms
  refine ⟨read, fun q c => ?_, fun m => ?_, fun e => ?_⟩
  · rw [h1]
    refine and_congr ⟨fun ⟨p, hm, hu⟩ => ⟨p, (hp p).mp hm, hu⟩, fun ⟨p, hm, hu⟩ => ⟨p, (hp p).mpr hm, hu⟩⟩ ⟨?_, ?_⟩
    · rintro ⟨ft, ht⟩
      cases c with
      | none => exact ⟨_, (readsAs_iff o _ _).mp ⟨ft, ht, .inr ⟨rfl, rfl⟩⟩⟩
      | some c => exact ⟨_, (readsAs_iff o _ _).mp ⟨ft, ht, .inl ⟨c, rfl, rfl⟩⟩⟩
    · rintro ⟨r, hr⟩
      obtain ⟨ft, ht, -⟩ := (readsAs_iff o _ _).mpr hr
      exact ⟨ft, ht⟩
  · rw [ha, h2]
    exact exists_congr fun ms => and_congr (hall read ms) Iff.rfl
  · rw [ha, h3]
    refine or_congr ?_ (exists_congr fun ms => and_congr (hall read ms) Iff.rfl)
    unfold FirstUnread
    refine exists_congr fun b => exists_congr fun f => exists_congr fun a => and_congr Iff.rfl (and_congr (exists_congr fun ms => hall b ms) (readsAs_iff o f _))

/-- C92: a directory that cannot be listed, anywhere below the given paths, is a panic. -/
theorem C92_unlistable (o : Outside C F) (ho : ReadsWell o) (fs : Path → Node C) (files : List Path) (sp : Option (List Path)) (p : Path)
    (hp : Given files sp p) (hu : Unlistable (fs p)) : assembleModel o fs files sp = .error .panic := by
  obtain ⟨paths, -, hm, ha⟩ := assemble_paths o ho fs files sp
  rw [ha]
  exact C43_unlistable_panics _ fs p ((hm p).mpr hp) hu

theorem mergesTo_wf {a m : Model} {ms : List Model} (h : MergesTo a ms m) (ha : WfModel a) (hms : ∀ x ∈ ms, WfModel x) : WfModel m := by
  induction h with
  | done => exact ha
  | step hm _ ih =>
    have := wf_merge ha (hms _ List.mem_cons_self)
    rw [hm] at this
    exact ih this fun x hx => hms x (by simp [hx])

/-- C92: whatever is in the files, the model a command works on is well-formed. -/
theorem C92_well_formed (o : Outside C F) (ho : ReadsWell o) (fs : Path → Node C) (files : List Path) (sp : Option (List Path)) (m : Model)
    (h : assembleModel o fs files sp = .ok m) : WfModel m := by
  have hnew : WfModel (Model.new .v10) :=
    ⟨AMap.wf_nil, by simp [Model.new], AMap.wf_nil, by simp [Model.shape, Model.new], by simp [Model.shape, Model.new], by simp [Model.shape, Model.new]⟩
  by_cases hl : ∀ p, Given files sp p → ¬ Unlistable (fs p)
  · obtain ⟨read, -, h2, -⟩ := C92_assembled o ho fs files sp hl
    obtain ⟨models, hall, hmm⟩ := (h2 m).mp h
    refine mergesTo_wf hmm hnew fun x hx => ?_
    have : ∃ f ∈ read, FileGives o f (.ok x) := by
      clear h2 hmm
      induction hall with
      | nil => cases hx
      | cons hh _ ih =>
        rcases List.mem_cons.mp hx with rfl | hx
        · exact ⟨_, by simp, hh⟩
        · obtain ⟨f, hf, hg⟩ := ih hx
          exact ⟨f, by simp [hf], hg⟩
    obtain ⟨f, -, hg⟩ := this
    obtain ⟨ft, ⟨_, _, ext, _, _, hx⟩, hr⟩ := (readsAs_iff o f _).mpr hg
    rcases hr with ⟨c, -, hc⟩ | ⟨-, hc⟩
    · exact registry_good o ho ext ft hx c x hc.symm
    · cases hc
  · exfalso
    apply hl
    intro p hp hu
    rw [C92_unlistable o ho fs files sp p hp hu] at h
    cases h

/-- C92: `validate` reports the placeholders, the bad references and the simple shapes without traits of the model it is given, and nothing else. -/
theorem run_validate (o : Outside C F) (ho : ReadsWell o) (w : World C) (files : List Path) (sp : Option (List Path)) (color : Bool) (m : Model)
    (ha : assembleModel o w.fs files sp = .ok m) :
    ∃ issues, (∀ i, i ∈ issues ↔ Validation m i) ∧
      runCommand o w (.validate files sp color) = (⟨w.fs, w.stdout ++ reportActionIssues o.paint issues color⟩, .success) := by
  obtain ⟨a, b, hv, hi, -⟩ := C91_validation m (C92_well_formed o ho w.fs files sp m ha) false
  refine ⟨a ++ b, hi, ?_⟩
  obtain ⟨⟨issues, hs, hm⟩, -⟩ := run_printed o w files sp color m ha
  rw [hv] at hs
  cases hs
  exact hm

/-- C92: without colours, `validate` says that there are no issues exactly about impeccable models. -/
theorem run_validate_clean (o : Outside C F) (ho : ReadsWell o) (w : World C) (files : List Path) (sp : Option (List Path)) (m : Model)
    (ha : assembleModel o w.fs files sp = .ok m) :
    (runCommand o w (.validate files sp false)).1.stdout = w.stdout ++ %s"\nNo issues reported.\n" ↔ Impeccable m := by
  have hw := C92_well_formed o ho w.fs files sp m ha
  obtain ⟨⟨issues, hs, hm⟩, -⟩ := run_printed o w files sp false m ha
  rw [hm, ← C91_silent_iff m hw false, hs]
  constructor
  · intro h
    have h := List.append_cancel_left h
    cases issues with
    | nil => rfl
    | cons i l =>
      simp [reportActionIssues, reportIssueNoColor, line] at h
  · intro h
    cases h
    rfl

/-- C92: for every command without an output file, all files and the standard output before it are kept; something is added to the standard
output only if the model could be assembled. -/
theorem run_output_appended (o : Outside C F) (hs : Sensible o) (w : World C) (c : Command F) :
    (runCommand o w c).1.fs = w.fs ∧ ∃ text, (runCommand o w c).1.stdout = w.stdout ++ text := by
  refine ⟨run_files_kept o hs w c, ?_⟩
  have hno : ∃ text, w.stdout = w.stdout ++ text := ⟨[], (List.append_nil _).symm⟩
  have hfin : ∀ r : World C × Except Failure Unit, (∃ text, r.1.stdout = w.stdout ++ text) → ∃ text, (finish r).1.stdout = w.stdout ++ text := by
    rintro ⟨w', r⟩ h
    cases r <;> exact h
  have hall : ∀ t text, ∃ x, (writeAll o w t text).1.stdout = w.stdout ++ x := by
    intro t text
    cases t with
    | stdout => exact ⟨text, rfl⟩
    | file p b => cases b <;> exact hno
  cases c with
  | lint files sp color =>
    simp only [runCommand]
    split
    · exact hno
    · split
      · exact hno
      · exact ⟨_, rfl⟩
  | validate files sp color =>
    simp only [runCommand]
    split
    · exact hno
    · split
      · exact hno
      · exact ⟨_, rfl⟩
  | convert files out format ns sp =>
    simp only [runCommand]
    split
    · exact hfin _ hno
    · rename_i m _
      apply hfin
      unfold writeModel
      split
      · exact hno
      · rename_i t _
        cases format with
        | json =>
          simp only [writeJson]
          split
          · exact hno
          · rename_i j _
            obtain ⟨x, hx⟩ := hall t (o.prettyJson j)
            split
            · rename_i h; rw [h] at hx; exact ⟨x, hx⟩
            · exact ⟨x, hx⟩
        | smithy =>
          simp only [writeSmithy]
          split
          · split
            · exact hno
            · exact hall t _
          · split
            · exact hall t _
            · exact hno
        | uml =>
          simp only [writeUml]
          split
          · exact hno
          · exact hall t _
  | document files out format sp =>
    simp only [runCommand]
    split
    · exact hfin _ hno
    · apply hfin
      unfold documentAFile
      split
      · exact hno
      · split
        · exact hno
        · rename_i d _ _ t _
          obtain ⟨x, hx⟩ := hall t (o.render format d)
          split
          · rename_i h; rw [h] at hx; exact ⟨x, hx⟩
          · exact ⟨x, hx⟩

theorem exOutside_reads : ReadsWell exOutside := by
  refine ⟨fun c j h => ?_, ⟨fun l => PlantUml.nodup_eraseDups _ _ (Nat.le_refl _), fun l id => List.mem_eraseDups⟩, fun _ => .refl _⟩
  simp only [exOutside] at h
  split at h
  · cases h
    exact .object AMap.wf_nil nofun
  · cases h

/-- A file by itself, one in the search path, and one that is none of the two. -/
example : Given [[%s"a.smithy"]] (some [[%s"lib"]]) [%s"lib"] ∧ ¬ Given [[%s"a.smithy"]] (some [[%s"lib"]]) [%s"b.Json"] := by
  refine ⟨.inr ⟨_, rfl, by simp⟩, ?_⟩
  rintro (h | ⟨l, hl, h⟩)
  · exact absurd h (by decide)
  · cases hl
    exact absurd h (by decide)

example : ∀ p, Given [[%s"a.smithy"]] none p → ¬ Unlistable (exWorld.fs p) := by
  rintro p (h | ⟨l, hl, -⟩)
  · rw [List.mem_singleton.mp h]
    nofun
  · cases hl

example : FileGives exOutside ([%s"b.Json"], some %s"no json") (.error (.other %s"An error occurred de-serializing a model")) :=
  .json (ext := %s"Json") ⟨[], _, rfl, %s"b", nofun, rfl, by decide⟩ (by decide)

end Verif.Cli
