/-
Model of cargo-atelier/src/command_line.rs, and C110: the options of the command line say what the program does. Not modelled: how structopt
takes the arguments apart (names of options and sub-commands, `--help`), logging. Modelled: what the declarations of the options say about their
values (defaults, `FromStr`, conflicts), and `parse` from there to the command.
-/
import Verif.CommandsMain

namespace Verif.Cli
variable {C F : Type}

/-- `FileInput`, cargo-atelier/src/command_line.rs:28-41. -/
structure FileInput where
  inFile : List Path
  defaultSearchEnv : Bool
  searchEnv : Option Str

/-- `SubCommand`, cargo-atelier/src/command_line.rs:43-83, with the texts of the formats as they are given (`none`: not given). -/
inductive SubCommand where
  | lint (input : FileInput)
  | validate (input : FileInput)
  | convert (input : FileInput) (outFile : Option Path) (writeFormat : Option Str) (ns : Option Str)
  | document (input : FileInput) (outFile : Option Path) (writeFormat : Option Str)

/-- `CommandLine`, cargo-atelier/src/command_line.rs:12-26. -/
structure CommandLine where
  verbose : Int
  noColor : Bool
  cmd : SubCommand

/-- What other crates make of texts: `SearchPath::default()` and `SearchPath::new_or_default`, which looks at an environment variable, of the crate
search_path; `OutputFormat::from_str` of somedoc. -/
structure Crates (F : Type) where
  defaultPath : List Path
  pathIn : Str → List Path
  outputFormat : Str → Option F

/-- Errors of the parsing of arguments, after which the program stops. -/
inductive UsageError where
  /-- Two options that exclude each other. -/
  | conflict
  /-- The value of an option is not valid. -/
  | value (text : Str)
  deriving DecidableEq

/-- `make_search_path`, cargo-atelier/src/command_line.rs:181-187. -/
def makeSearchPath (x : Crates F) (defaultSearchEnv : Bool) (searchEnv : Option Str) : Option (List Path) :=
  if defaultSearchEnv then some x.defaultPath else searchEnv.map x.pathIn

/-- `conflicts_with`, cargo-atelier/src/command_line.rs:35, 39: structopt refuses both options together. -/
def FileInput.accepted (f : FileInput) : Except UsageError FileInput :=
  if f.defaultSearchEnv && f.searchEnv.isSome then .error .conflict else .ok f

/-- `write_format: FileFormat` with `default_value = "json"`, cargo-atelier/src/command_line.rs:66-67. -/
def fileFormatOf (given : Option Str) : Except UsageError FileFormat :=
  match FileFormat.fromStr (given.getD %s"json") with
  | .ok f => .ok f
  | .error s => .error (.value s)

/-- `write_format: OutputFormat` with `default_value = "markdown"`, cargo-atelier/src/command_line.rs:81-82. -/
def outputFormatOf (x : Crates F) (given : Option Str) : Except UsageError F :=
  match x.outputFormat (given.getD %s"markdown") with
  | some f => .ok f
  | none => .error (.value (given.getD %s"markdown"))

/-- `parse`, cargo-atelier/src/command_line.rs:90-163. The options (`use_color: !args.no_color`, 93-95) of the last two commands are not used
(cargo-atelier/src/bin/main.rs:13-14). -/
def parse (x : Crates F) (args : CommandLine) : Except UsageError (Command F) :=
  match args.cmd with
  | .lint input => do
    let f ← input.accepted
    return .lint f.inFile (makeSearchPath x f.defaultSearchEnv f.searchEnv) (!args.noColor)
  | .validate input => do
    let f ← input.accepted
    return .validate f.inFile (makeSearchPath x f.defaultSearchEnv f.searchEnv) (!args.noColor)
  | .convert input out format ns => do
    let f ← input.accepted
    let format ← fileFormatOf format
    return .convert f.inFile out format ns (makeSearchPath x f.defaultSearchEnv f.searchEnv)
  | .document input out format => do
    let f ← input.accepted
    let format ← outputFormatOf x format
    return .document f.inFile out format (makeSearchPath x f.defaultSearchEnv f.searchEnv)

/-- `main`, cargo-atelier/src/bin/main.rs:4-22, with `command_line::parse()?`: structopt ends the program when the arguments are wrong. -/
def program (o : Outside C F) (x : Crates F) (w : World C) (args : CommandLine) : Except UsageError (World C × Ending) :=
  (parse x args).map (main o w)

end Verif.Cli

namespace Verif.Spec.Cli
open Verif.Cli
variable {C F : Type}

/-- The files of a sub-command. -/
def input : SubCommand → FileInput
  | .lint i => i
  | .validate i => i
  | .convert i _ _ _ => i
  | .document i _ _ => i

/-- The paths that the options name: the files; with `-d` those of the default search path; with `-s` those in the environment variable. -/
def Named (x : Crates F) (i : FileInput) (p : Path) : Prop :=
  p ∈ i.inFile ∨ (i.defaultSearchEnv = true ∧ p ∈ x.defaultPath) ∨ (∃ v, i.searchEnv = some v ∧ p ∈ x.pathIn v)

/-- The search path of the options: there is none; with `-d` it is the default; with `-s` it is in the environment variable. The two options are not
given together. -/
inductive Searches (x : Crates F) (i : FileInput) : Option (List Path) → Prop
  | nowhere : i.defaultSearchEnv = false → i.searchEnv = none → Searches x i none
  | standard : i.defaultSearchEnv = true → i.searchEnv = none → Searches x i (some x.defaultPath)
  | inVariable {v} : i.defaultSearchEnv = false → i.searchEnv = some v → Searches x i (some (x.pathIn v))

/-- The texts of formats that `convert` takes. -/
inductive Written : Option Str → FileFormat → Prop
  | byDefault : Written none .json
  | json : Written (some %s"json") .json
  | smithy : Written (some %s"smithy") .smithy
  | uml : Written (some %s"uml") .uml

/-- What a command line asks for. -/
inductive AsksFor (x : Crates F) : CommandLine → Command F → Prop
  | lint {v nc i sp} : Searches x i sp → AsksFor x ⟨v, nc, .lint i⟩ (.lint i.inFile sp (!nc))
  | validate {v nc i sp} : Searches x i sp → AsksFor x ⟨v, nc, .validate i⟩ (.validate i.inFile sp (!nc))
  | convert {v nc i out given ns f sp} : Searches x i sp → Written given f → AsksFor x ⟨v, nc, .convert i out given ns⟩ (.convert i.inFile out f ns sp)
  | document {v nc i out given f sp} : Searches x i sp → x.outputFormat (given.getD %s"markdown") = some f →
      AsksFor x ⟨v, nc, .document i out given⟩ (.document i.inFile out f sp)

/-- What is wrong with a command line. -/
inductive Misused (x : Crates F) : CommandLine → UsageError → Prop
  | conflict {a v} : (input a.cmd).defaultSearchEnv = true → (input a.cmd).searchEnv = some v → Misused x a .conflict
  | convert {v nc i out t ns} : t ∉ [%s"json", %s"smithy", %s"uml"] → Misused x ⟨v, nc, .convert i out (some t) ns⟩ (.value t)
  | document {v nc i out given} : x.outputFormat (given.getD %s"markdown") = none → Misused x ⟨v, nc, .document i out given⟩ (.value (given.getD %s"markdown"))

/-- The same program with other styles of text. -/
def painted (o : Outside C F) (p : Paint) : Outside C F := { o with paint := p }

end Verif.Spec.Cli

namespace Verif.Cli
open Spec.Cli
variable {C F : Type}

theorem format_cases (given : Option Str) :
    (∃ f, fileFormatOf given = .ok f ∧ ∀ g, Written given g ↔ g = f) ∨
    ∃ t, given = some t ∧ t ∉ [%s"json", %s"smithy", %s"uml"] ∧ fileFormatOf given = .error (.value t) ∧ ∀ g, ¬ Written given g := by
  cases given with
  | none => exact .inl ⟨.json, rfl, fun g => ⟨by rintro ⟨⟩; rfl, by rintro rfl; exact .byDefault⟩⟩
  | some s =>
    by_cases h1 : s = %s"json"
    · subst h1; exact .inl ⟨.json, rfl, fun g => ⟨by rintro ⟨⟩; rfl, by rintro rfl; exact .json⟩⟩
    by_cases h2 : s = %s"smithy"
    · subst h2; exact .inl ⟨.smithy, rfl, fun g => ⟨by rintro ⟨⟩; rfl, by rintro rfl; exact .smithy⟩⟩
    by_cases h3 : s = %s"uml"
    · subst h3; exact .inl ⟨.uml, rfl, fun g => ⟨by rintro ⟨⟩; rfl, by rintro rfl; exact .uml⟩⟩
    refine .inr ⟨s, rfl, by simp [h1, h2, h3], ?_, ?_⟩
    · have h : matchArms FileFormat.arms s = none := by
        unfold matchArms FileFormat.arms
        rw [AMap.get_cons, if_neg (Ne.symm h1), AMap.get_cons, if_neg (Ne.symm h2), AMap.get_cons, if_neg (Ne.symm h3), AMap.get_nil]
      unfold fileFormatOf FileFormat.fromStr
      rw [Option.getD_some, h]
    · intro g hg
      cases hg
      · exact h1 rfl
      · exact h2 rfl
      · exact h3 rfl

theorem search_cases (x : Crates F) (i : FileInput) :
    (i.accepted = .ok i ∧ (∀ v, i.defaultSearchEnv = true → i.searchEnv = some v → False) ∧
      ∀ sp, Searches x i sp ↔ sp = makeSearchPath x i.defaultSearchEnv i.searchEnv) ∨
    (i.accepted = .error .conflict ∧ i.defaultSearchEnv = true ∧ (∃ v, i.searchEnv = some v) ∧ ∀ sp, ¬ Searches x i sp) := by
  obtain ⟨fs, d, s⟩ := i
  cases d with
  | false =>
    cases s with
    | none =>
      refine .inl ⟨rfl, nofun, fun sp => ⟨fun h => ?_, by rintro rfl; exact .nowhere rfl rfl⟩⟩
      cases h with
      | nowhere => rfl
      | standard h => cases h
      | inVariable _ h => cases h
    | some v =>
      refine .inl ⟨rfl, nofun, fun sp => ⟨fun h => ?_, by rintro rfl; exact .inVariable rfl rfl⟩⟩
      cases h with
      | nowhere _ h => cases h
      | standard h => cases h
      | inVariable _ h => cases h; rfl
  | true =>
    cases s with
    | none =>
      refine .inl ⟨rfl, nofun, fun sp => ⟨fun h => ?_, by rintro rfl; exact .standard rfl rfl⟩⟩
      cases h with
      | nowhere h => cases h
      | standard => rfl
      | inVariable h => cases h
    | some v =>
      refine .inr ⟨rfl, rfl, ⟨v, rfl⟩, fun sp h => ?_⟩
      cases h with
      | nowhere h => cases h
      | standard _ h => cases h
      | inVariable h => cases h

/-- C110: the program runs the command that the command line asks for; it stops with an error exactly if something is wrong with the command line,
and the error says what. -/
theorem C110_command (x : Crates F) (a : CommandLine) :
    (∀ c, parse x a = .ok c ↔ AsksFor x a c) ∧
    (∀ e, parse x a = .error e → Misused x a e) ∧ ((∃ e, Misused x a e) → ∃ e, parse x a = .error e) := by
  obtain ⟨v, nc, cmd⟩ := a
  rcases search_cases x (input cmd) with ⟨h1, h0, h2⟩ | ⟨h1, h3, ⟨t, h4⟩, h2⟩
  · generalize hsp : makeSearchPath x (input cmd).defaultSearchEnv (input cmd).searchEnv = sp at h2
    cases cmd with
    | lint i =>
      have hp : parse x ⟨v, nc, .lint i⟩ = .ok (.lint i.inFile sp (!nc)) := by
        rw [← hsp]; simp only [input] at h1; simp only [parse, h1]; rfl
      rw [hp]
      refine ⟨fun c => ⟨?_, fun h => ?_⟩, nofun, ?_⟩
      · rintro ⟨⟩; exact .lint ((h2 _).mpr rfl)
      · cases h with | lint hs => rw [(h2 _).mp hs]
      · rintro ⟨e, he⟩
        cases he with | conflict hd hs => exact (h0 _ hd hs).elim
    | validate i =>
      have hp : parse x ⟨v, nc, .validate i⟩ = .ok (.validate i.inFile sp (!nc)) := by
        rw [← hsp]; simp only [input] at h1; simp only [parse, h1]; rfl
      rw [hp]
      refine ⟨fun c => ⟨?_, fun h => ?_⟩, nofun, ?_⟩
      · rintro ⟨⟩; exact .validate ((h2 _).mpr rfl)
      · cases h with | validate hs => rw [(h2 _).mp hs]
      · rintro ⟨e, he⟩
        cases he with | conflict hd hs => exact (h0 _ hd hs).elim
    | convert i out given ns =>
      rcases format_cases given with ⟨f, hf, hw⟩ | ⟨t, rfl, ht, hf, hw⟩
      · have hp : parse x ⟨v, nc, .convert i out given ns⟩ = .ok (.convert i.inFile out f ns sp) := by
          rw [← hsp]; simp only [input] at h1; simp only [parse, h1, hf]; rfl
        rw [hp]
        refine ⟨fun c => ⟨?_, fun h => ?_⟩, nofun, ?_⟩
        · rintro ⟨⟩; exact .convert ((h2 _).mpr rfl) ((hw _).mpr rfl)
        · cases h with | convert hs hg => rw [(h2 _).mp hs, (hw _).mp hg]
        · rintro ⟨e, he⟩
          cases he with
          | conflict hd hs => exact (h0 _ hd hs).elim
          | convert hn =>
            exfalso
            have hww := (hw f).mpr rfl
            cases hww <;> exact hn (by simp)
      · have hp : parse x ⟨v, nc, .convert i out (some t) ns⟩ = .error (.value t) := by
          simp only [input] at h1; simp only [parse, h1, hf]; rfl
        rw [hp]
        refine ⟨fun c => ⟨nofun, fun h => ?_⟩, ?_, fun _ => ⟨_, rfl⟩⟩
        · cases h with | convert hs hg => exact absurd hg (hw _)
        · rintro e ⟨⟩; exact .convert ht
    | document i out given =>
      cases hf : x.outputFormat (given.getD %s"markdown") with
      | some f =>
        have hp : parse x ⟨v, nc, .document i out given⟩ = .ok (.document i.inFile out f sp) := by
          rw [← hsp]; simp only [input] at h1; simp only [parse, h1, outputFormatOf, hf]; rfl
        rw [hp]
        refine ⟨fun c => ⟨?_, fun h => ?_⟩, nofun, ?_⟩
        · rintro ⟨⟩; exact .document ((h2 _).mpr rfl) hf
        · cases h with | document hs hg => rw [hf] at hg; cases hg; rw [(h2 _).mp hs]
        · rintro ⟨e, he⟩
          cases he with
          | conflict hd hs => exact (h0 _ hd hs).elim
          | document hn => rw [hf] at hn; cases hn
      | none =>
        have hp : parse x ⟨v, nc, .document i out given⟩ = .error (.value (given.getD %s"markdown")) := by
          simp only [input] at h1; simp only [parse, h1, outputFormatOf, hf]; rfl
        rw [hp]
        refine ⟨fun c => ⟨nofun, fun h => ?_⟩, ?_, fun _ => ⟨_, rfl⟩⟩
        · cases h with | document hs hg => rw [hf] at hg; cases hg
        · rintro e ⟨⟩; exact .document hf
  · have hp : parse x ⟨v, nc, cmd⟩ = .error .conflict := by
      cases cmd <;> simp only [input] at h1 <;> simp only [parse, h1] <;> rfl
    rw [hp]
    refine ⟨fun c => ⟨nofun, fun h => ?_⟩, ?_, fun _ => ⟨_, rfl⟩⟩
    · cases h <;> exact absurd ‹Searches x _ _› (h2 _)
    · rintro e ⟨⟩; exact .conflict h3 h4

/-- C110: the paths that are searched for models are those that the options name. -/
theorem C110_files (x : Crates F) (a : CommandLine) (c : Command F) (h : parse x a = .ok c) (p : Path) :
    Given c.input.1 c.input.2 p ↔ Named x (input a.cmd) p := by
  have key : ∀ {i : FileInput} {sp}, Searches x i sp → (Given i.inFile sp p ↔ Named x i p) := by
    intro i sp hs
    unfold Given Named
    cases hs with
    | nowhere h1 h2 => simp [h1, h2]
    | standard h1 h2 => simp [h1, h2]
    | inVariable h1 h2 => simp [h1, h2]
  have ha := ((C110_command x a).1 c).mp h
  cases ha with
  | lint hs => exact key hs
  | validate hs => exact key hs
  | convert hs _ => exact key hs
  | document hs _ => exact key hs

theorem identifierLines_painted (o : Outside C F) (q : Paint) : ∀ es, identifierLines (painted o q) es = identifierLines o es
  | [] => rfl
  | e :: es => by
    rw [identifierLines, identifierLines, identifierLines_painted o q es]; rfl

theorem shapePrints_painted (o : Outside C F) (q : Paint) (j : Json) : shapePrints (painted o q) j = shapePrints o j := by
  unfold shapePrints identifiersPrints
  simp only [identifierLines_painted]

theorem shapesPrint_painted (o : Outside C F) (q : Paint) : ∀ es, shapesPrint (painted o q) es = shapesPrint o es
  | [] => rfl
  | e :: es => by
    rw [shapesPrint, shapesPrint, shapesPrint_painted o q es, shapePrints_painted]

theorem filePrints_painted (o : Outside C F) (q : Paint) (p : Path) (c : Option C) : filePrints (painted o q) p c = filePrints o p c := by
  have h : ∀ j, modelPrints (painted o q) j = modelPrints o j := by
    intro j
    unfold modelPrints
    simp only [shapesPrint_painted]
  unfold filePrints jsonPrints
  simp only [h]
  rfl

theorem filesPrint_painted (o : Outside C F) (q : Paint) : ∀ fs, filesPrint (painted o q) fs = filesPrint o fs
  | [] => rfl
  | f :: fs => by
    rw [filesPrint, filesPrint, filesPrint_painted o q fs, filePrints_painted]; rfl

theorem assemble_painted (o : Outside C F) (q : Paint) (fs : Path → Node C) (files : List Path) (sp : Option (List Path)) :
    assembleModel (painted o q) fs files sp = assembleModel o fs files sp ∧ assemblyPrints (painted o q) fs files sp = assemblyPrints o fs files sp := by
  refine ⟨rfl, ?_⟩
  unfold assemblyPrints
  simp only [filesPrint_painted]
  rfl

/-- What a command does depends on the styles only if it is told to use them. -/
theorem main_painted (o : Outside C F) (q : Paint) (w : World C) (c : Command F)
    (h : (∃ files sp, c = .lint files sp false ∨ c = .validate files sp false) ∨ (∃ files out f ns sp, c = .convert files out f ns sp) ∨
      ∃ files out f sp, c = .document files out f sp) : main (painted o q) w c = main o w c := by
  unfold main
  rw [(assemble_painted o q _ _ _).2]
  rcases h with ⟨_, _, rfl | rfl⟩ | ⟨_, _, _, _, _, rfl⟩ | ⟨_, _, _, _, rfl⟩ <;> rfl

/-- C110: how much is logged does not matter; with `--no-color`, and for `convert` and `document` always, nothing that is printed is styled, so
that nothing depends on the styles; for `convert` and `document` the option does not matter. -/
theorem C110_options (o : Outside C F) (x : Crates F) (w : World C) (a : CommandLine) :
    (∀ v, program o x w { a with verbose := v } = program o x w a) ∧
    (a.noColor = true → ∀ q, program (painted o q) x w a = program o x w a) ∧
    ((∀ i, a.cmd ≠ .lint i ∧ a.cmd ≠ .validate i) → ∀ nc q, program (painted o q) x w { a with noColor := nc } = program o x w a) := by
  obtain ⟨v, nc, cmd⟩ := a
  refine ⟨fun v => rfl, ?_, ?_⟩
  · rintro ⟨⟩ q
    unfold program
    cases hp : parse x ⟨v, true, cmd⟩ with
    | error e => rfl
    | ok c =>
      have ha := ((C110_command x _).1 c).mp hp
      change Except.ok _ = Except.ok _
      rw [main_painted]
      cases ha with
      | lint => exact .inl ⟨_, _, .inl rfl⟩
      | validate => exact .inl ⟨_, _, .inr rfl⟩
      | convert => exact .inr (.inl ⟨_, _, _, _, _, rfl⟩)
      | document => exact .inr (.inr ⟨_, _, _, _, rfl⟩)
  · intro hc nc' q
    cases cmd with
    | lint i => exact absurd rfl (hc i).1
    | validate i => exact absurd rfl (hc i).2
    | convert i out given ns =>
      have hp : parse x ⟨v, nc', .convert i out given ns⟩ = parse x ⟨v, nc, .convert i out given ns⟩ := rfl
      unfold program
      rw [hp]
      cases hp : parse x ⟨v, nc, .convert i out given ns⟩ with
      | error e => rfl
      | ok c =>
        have ha := ((C110_command x _).1 c).mp hp
        change Except.ok _ = Except.ok _
        rw [main_painted]
        cases ha with | convert => exact .inr (.inl ⟨_, _, _, _, _, rfl⟩)
    | document i out given =>
      have hp : parse x ⟨v, nc', .document i out given⟩ = parse x ⟨v, nc, .document i out given⟩ := rfl
      unfold program
      rw [hp]
      cases hp : parse x ⟨v, nc, .document i out given⟩ with
      | error e => rfl
      | ok c =>
        have ha := ((C110_command x _).1 c).mp hp
        change Except.ok _ = Except.ok _
        rw [main_painted]
        cases ha with | document => exact .inr (.inr ⟨_, _, _, _, rfl⟩)

/-- C110: no environment variable is looked at unless its name is given with `-s`: neither without `-s`, nor with `-d`, for which the default search
path of the crate is taken. -/
theorem C110_environment (o : Outside C F) (x : Crates F) (w : World C) (a : CommandLine) (pathIn : Str → List Path)
    (h : ∀ v, (input a.cmd).searchEnv = some v → pathIn v = x.pathIn v) :
    program o { x with pathIn := pathIn } w a = program o x w a := by
  have hm : makeSearchPath { x with pathIn := pathIn } (input a.cmd).defaultSearchEnv (input a.cmd).searchEnv =
      makeSearchPath x (input a.cmd).defaultSearchEnv (input a.cmd).searchEnv := by
    unfold makeSearchPath
    cases hs : (input a.cmd).searchEnv with
    | none => rfl
    | some v => simp only [Option.map_some, h v hs]
  obtain ⟨v, nc, cmd⟩ := a
  have hp : parse { x with pathIn := pathIn } ⟨v, nc, cmd⟩ = parse x ⟨v, nc, cmd⟩ := by
    cases cmd <;> simp only [input] at hm <;> simp only [parse, FileInput.accepted] <;> split <;> first | rfl | skip
    all_goals (simp only [bind, Except.bind, pure, Except.pure, hm]; try rfl)
  unfold program
  rw [hp]

/-! ### A concrete command line -/

def exCrates : Crates Unit where
  defaultPath := [[%s"models"]]
  pathIn v := if v = %s"MY_MODELS" then [[%s"lib"]] else []
  outputFormat s := if s = %s"markdown" then some () else none

/-- Files, a variable with a search path, a format. -/
example : AsksFor exCrates ⟨2, true, .convert ⟨[[%s"a.smithy"]], false, some %s"MY_MODELS"⟩ none none none⟩
    (.convert [[%s"a.smithy"]] none .json none (some [[%s"lib"]])) := .convert (Searches.inVariable (v := %s"MY_MODELS") rfl rfl) .byDefault

/-- C110: command lines that are accepted and some that are not. -/
theorem C110_examples :
    parse exCrates ⟨0, true, .lint ⟨[[%s"a.smithy"]], true, none⟩⟩ = .ok (.lint [[%s"a.smithy"]] (some [[%s"models"]]) false) ∧
    parse exCrates ⟨1, false, .validate ⟨[], false, some %s"MY_MODELS"⟩⟩ = .ok (.validate [] (some [[%s"lib"]]) true) ∧
    parse exCrates ⟨0, false, .convert ⟨[[%s"a.smithy"]], false, none⟩ none (some %s"smithy") (some %s"ex")⟩ =
      .ok (.convert [[%s"a.smithy"]] none .smithy (some %s"ex") none) ∧
    parse exCrates ⟨0, false, .document ⟨[[%s"a.smithy"]], false, none⟩ (some [%s"out.md"]) none⟩ =
      .ok (.document [[%s"a.smithy"]] (some [%s"out.md"]) () none) ∧
    parse exCrates ⟨0, false, .lint ⟨[], true, some %s"MY_MODELS"⟩⟩ = .error .conflict ∧
    parse exCrates ⟨0, false, .convert ⟨[], false, none⟩ none (some %s"JSON") none⟩ = .error (.value %s"JSON") :=
  ⟨rfl, rfl, rfl, rfl, rfl, rfl⟩

end Verif.Cli
