/-
C87-C91: the command line program.
-/
import Verif.CommandsSpec
import Verif.JsonWrites
import Verif.LintProps
import Verif.ActionsProps
import Verif.AssemblerProps
import Verif.PlantUmlProps
import Verif.IdlProps
import Verif.DescribeProps
import Verif.JsonProps

namespace Verif.Cli
open Spec Spec.Cli
variable {C F : Type}

/-! ### C87: output files -/

theorem writeAll_readOnly (o : Outside C F) (w : World C) (p : Path) {text : Str} (h : text ≠ []) :
    writeAll o w (.file p false) text = (w, .error (.io false)) := by
  cases text with
  | nil => exact absurd rfl h
  | cons c s => rfl

theorem writeIdl_ne (f : Fmt) (ns : Str) (m : Model) : writeIdl f ns m ≠ [] := by
  intro h
  simp [writeIdl, IdlWriter.control] at h

theorem plantUml_ne (f : Fmt) (m : Model) : PlantUml.write false f m ≠ .ok [] := by
  unfold PlantUml.write PlantUml.thenWrite
  simp only
  split
  · exact nofun
  · rename_i b _
    intro h
    have := congrArg (fun r : Except Err Str => match r with | .ok s => s.length | .error _ => 1) h
    simp [PlantUml.line] at this

theorem writeModel_file (o : Outside C F) (hs : Sensible o) (w : World C) (m : Model) (p : Path) (format : FileFormat) (ns : Option Str) :
    ∃ f, writeModel o w m (some p) format ns = (w, .error f) := by
  unfold writeModel openTarget fileOpen
  simp only
  cases opens o w p with
  | false => exact ⟨_, rfl⟩
  | true =>
    simp only [if_true]
    cases format with
    | json =>
      simp only [writeJson]
      cases JsonWriter.modelToJson m with
      | error e => exact ⟨_, rfl⟩
      | ok j =>
        simp only [writeAll_readOnly o w p (hs.json j)]
        exact ⟨_, rfl⟩
    | smithy =>
      have hw : ∀ ns, ∃ f, writeSmithy o w (.file p false) m ns = (w, .error f) := fun ns =>
        ⟨_, writeAll_readOnly o w p (writeIdl_ne o.fmt ns m)⟩
      cases ns with
      | some ns =>
        simp only
        cases NamespaceID.fromStr ns with
        | error e => exact ⟨_, rfl⟩
        | ok ns => exact hw ns
      | none =>
        simp only
        split
        · exact hw _
        · exact ⟨_, rfl⟩
    | uml =>
      simp only [writeUml]
      cases h : PlantUml.write false o.fmt m with
      | error e => exact ⟨_, rfl⟩
      | ok text => exact ⟨_, writeAll_readOnly o w p fun he => plantUml_ne o.fmt m (he ▸ h)⟩

theorem documentAFile_file (o : Outside C F) (hs : Sensible o) (w : World C) (m : Model) (p : Path) (format : F) :
    ∃ f, documentAFile o w m (some p) format = (w, .error f) := by
  unfold documentAFile openTarget fileOpen
  cases Describe.describeModel o.fmt m with
  | error e => exact ⟨_, rfl⟩
  | ok d =>
    simp only
    cases opens o w p with
    | false => exact ⟨_, rfl⟩
    | true =>
      simp only [if_true, writeAll_readOnly o w p (hs.document format d)]
      exact ⟨_, rfl⟩

theorem finish_error (w : World C) (f : Failure) : (finish (w, .error f)).1 = w ∧ (finish (w, .error f)).2 ≠ .success := by
  refine ⟨rfl, ?_⟩
  simp only [finish]
  split <;> exact nofun

/-- C87, violated by every command with an output file: whatever the input, the format and the state of the file system, such a command does
not succeed, and neither a file nor the standard output is changed. -/
theorem run_never_written (o : Outside C F) (hs : Sensible o) (w : World C) (c : Command F) (p : Path) (hc : OutputTo p c) :
    (runCommand o w c).1 = w ∧ (runCommand o w c).2 ≠ .success := by
  cases hc with
  | convert =>
    simp only [runCommand]
    split
    · exact finish_error w _
    · rename_i m _
      obtain ⟨f, hf⟩ := writeModel_file o hs w m p _ _
      rw [hf]
      exact finish_error w f
  | document =>
    simp only [runCommand]
    split
    · exact finish_error w _
    · rename_i m _
      obtain ⟨f, hf⟩ := documentAFile_file o hs w m p _
      rw [hf]
      exact finish_error w f

/-- C87: `write_model_to_file` fails for every writer that writes something, and the file stays as it is. -/
theorem C87_write_model_to_file (o : Outside C F) (w : World C) (writer : Model → Except Err Str) (m : Model) (p : Path) (h : writer m ≠ .ok []) :
    ∃ f, writeModelToFile o w writer m p = (w, .error f) := by
  unfold writeModelToFile fileOpen
  cases opens o w p with
  | false => exact ⟨_, rfl⟩
  | true =>
    simp only [if_true]
    cases hm : writer m with
    | error e => exact ⟨_, rfl⟩
    | ok text => exact ⟨_, writeAll_readOnly o w p fun he => h (he ▸ hm)⟩

/-- C87, C88: converting to JSON into a file that exists ends with the exit status of a success, although nothing is written. -/
theorem run_status_zero (o : Outside C F) (hs : Sensible o) (w : World C) (files : List Path) (sp : Option (List Path)) (ns : Option Str) (p : Path)
    (old : C) (hp : w.fs p = .file (some old)) (m : Model) (hm : assembleModel o w.fs files sp = .ok m) (hw : WfModel m) (hf : FiniteModel m) :
    (runCommand o w (.convert files (some p) .json ns sp)).1 = w ∧ (runCommand o w (.convert files (some p) .json ns sp)).2.status = 0 := by
  obtain ⟨j, hj⟩ := (C32_model_panics_iff m hw).2.1 hf
  have ho : opens o w p = true := by simp [opens, hp]
  have : writeModel o w m (some p) .json ns = (w, .error (.io true)) := by
    simp only [writeModel, openTarget, fileOpen, ho, if_true, writeJson, hj, writeAll_readOnly o w p (hs.json j)]
  simp only [runCommand, hm, this]
  exact ⟨rfl, rfl⟩

/-! ### C91: the standard validation and lint -/

theorem run_two (m : Model) (ff : Bool) (a b : Action) {sa sb} (ha : a.act m a.state = (sa, .ok ())) (hb : b.act m b.state = (sb, .ok ())) :
    (runActions m ff [a, b]).2 = .ok (a.issues sa ++ b.issues sb) := by
  have h0 : runActions m ff [a, b] = runActions m false [a, b] := by cases ff; rfl; exact C37_failFast_ignored m _
  rw [h0]
  simp [runActions, runActionsFrom, ha, hb]

theorem validation_eq (m : Model) (ff : Bool) : standardModelValidation m ff = .ok (unresolvedValidate m ++ TypeRefs.validate m) :=
  run_two m ff _ _ rfl rfl

theorem lint_eq (h : Heck) (m : Model) (ff : Bool) :
    standardModelLint h m ff = .ok (Naming.check h m ++ (Terms.check h m ⟨[], []⟩).issues) :=
  run_two m ff _ _ rfl rfl

/-- C91: the standard validation never fails; it reports exactly the placeholders of the model, the references to shapes of the wrong kind or to
no shape, and the simple shapes without traits, the placeholders before the others. -/
theorem C91_validation (m : Model) (hw : WfModel m) (ff : Bool) : ∃ a b, standardModelValidation m ff = .ok (a ++ b) ∧
    (∀ i, i ∈ a ++ b ↔ Validation m i) ∧ (∀ i ∈ a, i.reporter = %s"NoUnresolvedReferences") ∧ ∀ i ∈ b, i.reporter = %s"CorrectTypeReferences" := by
  refine ⟨_, _, validation_eq m ff, fun i => ?_, fun i hi => ?_, fun i hi => ?_⟩
  · rw [List.mem_append, C35_issues_iff m hw, C36_issues_iff m hw]
    constructor
    · rintro (⟨id, s, hs, hu, rfl⟩ | ⟨id, s, hs, h⟩)
      · exact .unresolved hs hu
      · exact .reference hs h
    · intro h
      cases h with
      | unresolved hs hu => exact .inl ⟨_, _, hs, hu, rfl⟩
      | reference hs h => exact .inr ⟨_, _, hs, h⟩
  · obtain ⟨_, _, _, _, rfl⟩ := (C35_issues_iff m hw i).mp hi
    rfl
  · obtain ⟨_, _, _, h⟩ := (C36_issues_iff m hw i).mp hi
    cases h <;> rfl

/-- C91: nothing is reported exactly about impeccable models. -/
theorem C91_silent_iff (m : Model) (hw : WfModel m) (ff : Bool) : standardModelValidation m ff = .ok [] ↔ Impeccable m := by
  obtain ⟨a, b, hv, hi, -⟩ := C91_validation m hw ff
  have hnil : standardModelValidation m ff = .ok [] ↔ ∀ i, ¬ Validation m i := by
    rw [hv]
    constructor
    · intro h i hc
      cases h' : a ++ b with
      | nil => rw [← hi i, h'] at hc; cases hc
      | cons x l => rw [h'] at h; cases h
    · intro h
      cases h' : a ++ b with
      | nil => rfl
      | cons x l => exact absurd ((hi x).mp (by rw [h']; simp)) (h x)
  rw [hnil]
  constructor
  · intro h id s hs
    refine ⟨fun hu => h _ (.unresolved hs hu), fun place role t hr => ⟨fun hk => h _ (.reference hs (.wrong hr hk)), fun hd => h _ (.reference hs (.dangling hr hd))⟩,
      fun t ht htr => h _ (.reference hs (.synonym ht htr))⟩
  · intro h i hc
    cases hc with
    | unresolved hs hu => exact (h _ _ hs).1 hu
    | reference hs hi =>
      cases hi with
      | synonym ht htr => exact (h _ _ hs).2.2 _ ht htr
      | wrong hr hk => exact ((h _ _ hs).2.1 _ _ _ hr).1 hk
      | dangling hr hd => exact ((h _ _ hs).2.1 _ _ _ hr).2 hd

/-- C91: the standard lint never fails; it reports first every name that does not follow its convention, then every unwelcome word. -/
theorem C91_lint (h : Heck) (m : Model) (hw : WfModel m) (ff : Bool) : ∃ a b, standardModelLint h m ff = .ok (a ++ b) ∧
    (∀ i, i ∈ a ↔ ∃ name upper text locus, Named m name upper text locus ∧ convention h upper name ≠ name ∧
      i = ⟨%s"NamingConventions", .info, text ++ convention h upper name, some locus⟩) ∧
    (∀ i ∈ b, i.level = .warning) ∧
    ∀ w, (∃ i ∈ b, i.message = termMessage w) ↔ ∃ p, MentionsWord m p ∧ w ∈ splitOn '_' (h.snake p) ∧ Unwelcome w := by
  refine ⟨_, _, lint_eq h m ff, C47_issues_iff h m hw, fun i hi => ?_, fun w => ?_⟩
  · rcases C38_terms_warn h m _ i hi with h | h
    · cases h
    · exact h
  · obtain ⟨new, he, hn⟩ := C48_reported_iff h m hw ⟨[], []⟩
    rw [he, List.nil_append, hn]
    simp

/-! ### C88: the exit status -/

theorem failWith_status (e : Err) : (failWith e).status = if e = .panic then 101 else 1 := by
  unfold failWith
  split <;> rfl

/-- C88: the exit status of `lint` and `validate` says if the model could be assembled, and nothing else. In particular it is 0 whatever they
report. -/
theorem run_check_status (o : Outside C F) (w : World C) (files : List Path) (sp : Option (List Path)) (color : Bool) :
    (∀ c ∈ [Command.lint files sp color, .validate files sp color],
      ((runCommand o w c).2.status = 0 ↔ ∃ m, assembleModel o w.fs files sp = .ok m) ∧
      ((runCommand o w c).2.status = 1 ↔ ∃ e, e ≠ .panic ∧ assembleModel o w.fs files sp = .error e) ∧
      ((runCommand o w c).2.status = 101 ↔ assembleModel o w.fs files sp = .error .panic)) := by
  intro c hc
  simp only [List.mem_cons, List.not_mem_nil, or_false] at hc
  cases ha : assembleModel o w.fs files sp with
  | error e =>
    have : (runCommand o w c).2.status = if e = .panic then 101 else 1 := by
      rcases hc with rfl | rfl <;> simp [runCommand, ha, failWith_status]
    rw [this]
    by_cases he : e = .panic <;> simp [he]
  | ok m =>
    have : (runCommand o w c).2.status = 0 := by
      rcases hc with rfl | rfl
      · simp only [runCommand, ha, lint_eq]; rfl
      · simp only [runCommand, ha, validation_eq]; rfl
    rw [this]
    simp

/-- C88, violated: whatever errors there are in the model, `validate` has the exit status of a success. -/
theorem run_errors_ignored (o : Outside C F) (w : World C) (files : List Path) (sp : Option (List Path)) (color : Bool) (m : Model)
    (h : assembleModel o w.fs files sp = .ok m) :
    (runCommand o w (.validate files sp color)).2.status = 0 ∧ (runCommand o w (.lint files sp color)).2.status = 0 :=
  ⟨((run_check_status o w files sp color) _ (by simp)).1.mpr ⟨m, h⟩, ((run_check_status o w files sp color) _ (by simp)).1.mpr ⟨m, h⟩⟩

theorem finish_status (r : World C × Except Failure Unit) : (finish r).2.status = 0 ∨ (finish r).2.status = 101 := by
  obtain ⟨w, r⟩ := r
  cases r with
  | ok u => exact .inl rfl
  | error f =>
    simp only [finish]
    split
    · exact .inl rfl
    · exact .inr rfl

/-- C88: `convert` and `document` never end with the error status 1: an error is a panic, or has the status of a success. -/
theorem run_convert_status (o : Outside C F) (w : World C) (files : List Path) (out : Option Path) (sp : Option (List Path)) :
    (∀ format ns, (runCommand o w (.convert files out format ns sp)).2.status = 0 ∨ (runCommand o w (.convert files out format ns sp)).2.status = 101) ∧
    ∀ format, (runCommand o w (.document files out format sp)).2.status = 0 ∨ (runCommand o w (.document files out format sp)).2.status = 101 := by
  constructor <;> intros <;> simp only [runCommand] <;> split <;> exact finish_status _

theorem push_single (r : Registry C) (p : Path) : [p].foldl Assembler.push (newAssembler r none) = ⟨r, [p]⟩ := by
  simp [newAssembler, Assembler.push]

theorem order_single {o : Outside C F} (hs : Sensible o) (p : Path) : o.order [p] = [p] :=
  List.perm_singleton.mp (hs.order [p])

theorem assemble_single (o : Outside C F) (hs : Sensible o) (fs : Path → Node C) (p : Path) (content : C) (hp : fs p = .file (some content)) (ext : Str)
    (he : HasType p ext) (reader : C → Except Err Model)
    (hr : (lower ext = %s"json" ∧ reader = jsonReader o) ∨ (lower ext = %s"smithy" ∧ reader = smithyReader o)) :
    assembleModel o fs [p] none = reader content := by
  obtain ⟨dir, name, rfl, hn⟩ := he
  have hx : Assembler.extensionOf (dir ++ [name]) = some ext := by
    simp only [Assembler.extensionOf, List.getLast?_append, List.getLast?_singleton]
    exact (fileExtension_iff name ext).mpr hn
  have hk : ∃ ft : FileType C, (Registry.default (jsonReader o) (smithyReader o)).get (lower ext) = some ft ∧ ft.reader = reader ∧
      (Registry.default (jsonReader o) (smithyReader o)).contains ext = true := by
    rcases hr with ⟨h, rfl⟩ | ⟨h, rfl⟩
    · exact ⟨_, by rw [h]; rfl, rfl, by unfold Registry.contains; rw [h]; rfl⟩
    · exact ⟨_, by rw [h]; rfl, rfl, by unfold Registry.contains; rw [h]; rfl⟩
  obtain ⟨ft, h1, h2, h4⟩ := hk
  unfold assembleModel
  rw [push_single]
  simp only [order_single hs, Assembler.tryFrom, Assembler.isEmpty, List.isEmpty_cons, Bool.false_eq_true, if_false, Assembler.expandAll, hp,
    Assembler.expandPath, Assembler.expandFile, hx, h4, if_true]
  have hread : Assembler.readModel (Registry.default (jsonReader o) (smithyReader o)) (dir ++ [name]) (some content) = reader content := by
    simp only [Assembler.readModel, hx, h1, h2]
  change ((Assembler.readAll _ [(dir ++ [name], some content)]) >>= _) = _
  cases hc : reader content with
  | error e =>
    have : Assembler.readAll (Registry.default (jsonReader o) (smithyReader o)) [(dir ++ [name], some content)] = .error e := by
      unfold Assembler.readAll; rw [hread, hc]; rfl
    rw [this]; rfl
  | ok m =>
    have : Assembler.readAll (Registry.default (jsonReader o) (smithyReader o)) [(dir ++ [name], some content)] = .ok [m] := by
      unfold Assembler.readAll; rw [hread, hc]; rfl
    rw [this]; rfl

/-- C88, violated: converting or documenting a file that is not JSON has the exit status of a success, and gives no output. -/
theorem run_not_json (o : Outside C F) (hs : Sensible o) (w : World C) (p : Path) (content : C) (hp : w.fs p = .file (some content))
    (ext : Str) (he : HasType p ext) (hx : lower ext = %s"json") (hj : o.parseJson content = none) :
    (∀ out format ns, (runCommand o w (.convert [p] out format ns none)).1 = w ∧ (runCommand o w (.convert [p] out format ns none)).2.status = 0) ∧
    ∀ out format, (runCommand o w (.document [p] out format none)).1 = w ∧ (runCommand o w (.document [p] out format none)).2.status = 0 := by
  have ha : assembleModel o w.fs [p] none = .error (.other %s"An error occurred de-serializing a model") := by
    rw [assemble_single o hs w.fs p content hp _ he (jsonReader o) (.inl ⟨hx, rfl⟩)]
    simp only [jsonReader, hj]
  constructor <;> intros <;> simp only [runCommand, ha] <;> exact ⟨rfl, rfl⟩

/-! ### C89: what is converted -/

theorem writeModel_stdout (o : Outside C F) (w : World C) (m : Model) (format : FileFormat) (ns : Option Str) (r : World C × Except Failure Unit)
    (h : writeModel o w m none format ns = r) (files : List Path) (sp : Option (List Path)) (ha : assembleModel o w.fs files sp = .ok m) :
    runCommand o w (.convert files none format ns sp) = finish r := by
  simp only [runCommand, ha, h]

/-- C89: converting to JSON prints the JSON of the assembled model; it panics exactly if the model has a NaN or an infinity in it. -/
theorem run_json (o : Outside C F) (w : World C) (files : List Path) (sp : Option (List Path)) (ns : Option Str) (m : Model)
    (ha : assembleModel o w.fs files sp = .ok m) (hw : WfModel m) :
    (FiniteModel m → ∃ j, JsonWriter.modelToJson m = .ok j ∧
      runCommand o w (.convert files none .json ns sp) = (⟨w.fs, w.stdout ++ o.prettyJson j⟩, .success)) ∧
    (¬ FiniteModel m → (runCommand o w (.convert files none .json ns sp)).2 = .panicked) := by
  constructor
  · intro hf
    obtain ⟨j, hj⟩ := (C32_model_panics_iff m hw).2.1 hf
    refine ⟨j, hj, writeModel_stdout o w m .json ns (⟨w.fs, w.stdout ++ o.prettyJson j⟩, .ok ()) ?_ files sp ha⟩
    simp only [writeModel, openTarget, writeJson, hj, writeAll]
  · intro hf
    have hj := (C32_model_panics_iff m hw).1.mpr hf
    rw [writeModel_stdout o w m .json ns (w, .error (.model .panic)) (by simp only [writeModel, openTarget, writeJson, hj]) files sp ha]
    rfl

/-- C89: converting to Smithy IDL with a namespace prints the text of that namespace; it panics exactly if it is not the text of a namespace. -/
theorem run_smithy (o : Outside C F) (w : World C) (files : List Path) (sp : Option (List Path)) (ns : Str) (m : Model)
    (ha : assembleModel o w.fs files sp = .ok m) :
    (IsNamespace ns → runCommand o w (.convert files none .smithy (some ns) sp) = (⟨w.fs, w.stdout ++ writeIdl o.fmt ns m⟩, .success)) ∧
    (¬ IsNamespace ns → (runCommand o w (.convert files none .smithy (some ns) sp)).2 = .panicked) := by
  constructor
  · intro hn
    refine writeModel_stdout o w m .smithy (some ns) (⟨w.fs, w.stdout ++ writeIdl o.fmt ns m⟩, .ok ()) ?_ files sp ha
    simp only [writeModel, openTarget, ((C02_namespace_syntax ns).1 ns).mpr ⟨rfl, hn⟩]
    rfl
  · intro hn
    rw [writeModel_stdout o w m .smithy (some ns) (w, .error (.model .panic)) (by simp only [writeModel, openTarget, (C02_namespace_syntax ns).2.2.2 hn]) files sp ha]
    rfl

/-- C89: converting to Smithy IDL without a namespace prints the text of the only namespace of the model; it panics exactly if there is none or more
than one. -/
theorem run_smithy_default (o : Outside C F) (w : World C) (files : List Path) (sp : Option (List Path)) (m : Model)
    (ha : assembleModel o w.fs files sp = .ok m) (hw : WfModel m) :
    (∀ ns, (∀ x, Uml.IsNamespaceOf m x ↔ x = ns) →
      runCommand o w (.convert files none .smithy none sp) = (⟨w.fs, w.stdout ++ writeIdl o.fmt ns m⟩, .success)) ∧
    ((¬ ∃ ns, ∀ x, Uml.IsNamespaceOf m x ↔ x = ns) → (runCommand o w (.convert files none .smithy none sp)).2 = .panicked) := by
  have hnd : m.namespaces.Nodup := PlantUml.nodup_eraseDups _ _ (Nat.le_refl _)
  constructor
  · intro ns hns
    have : m.namespaces = [ns] := by
      refine List.perm_singleton.mp ((List.perm_ext_iff_of_nodup hnd (by simp)).mpr fun x => ?_)
      rw [PlantUml.mem_namespaces hw, hns]
      simp
    refine writeModel_stdout o w m .smithy none (⟨w.fs, w.stdout ++ writeIdl o.fmt ns m⟩, .ok ()) ?_ files sp ha
    simp only [writeModel, openTarget, this]
    rfl
  · intro h
    have hne : ∀ ns, m.namespaces ≠ [ns] := fun ns hns => h ⟨ns, fun x => by rw [← PlantUml.mem_namespaces hw, hns]; simp⟩
    have : writeModel o w m none .smithy none = (w, .error (.model .panic)) := by
      simp only [writeModel, openTarget]
    rw [writeModel_stdout o w m .smithy none _ this files sp ha]
    rfl

/-- C89: converting to UML prints the drawing of the assembled model; it panics exactly if a service or resource names an operation that the model does
not have. -/
theorem run_uml (o : Outside C F) (w : World C) (files : List Path) (sp : Option (List Path)) (ns : Option Str) (m : Model)
    (ha : assembleModel o w.fs files sp = .ok m) (hw : WfModel m) :
    ((∃ id s, m.shape id = some s ∧ ∃ x ∈ Uml.operationsOf s.body, ∀ op, ¬ Uml.IsOperation m x op) →
      (runCommand o w (.convert files none .uml ns sp)).2 = .panicked) ∧
    ((¬ ∃ id s, m.shape id = some s ∧ ∃ x ∈ Uml.operationsOf s.body, ∀ op, ¬ Uml.IsOperation m x op) → ∃ text, PlantUml.write false o.fmt m = .ok text ∧
      runCommand o w (.convert files none .uml ns sp) = (⟨w.fs, w.stdout ++ text⟩, .success)) := by
  obtain ⟨h1, h2⟩ := PlantUml.C76_panics_iff false o.fmt m hw
  constructor
  · intro h
    rw [writeModel_stdout o w m .uml ns (w, .error (.model .panic)) (by simp only [writeModel, openTarget, writeUml, h1.mpr h]) files sp ha]
    rfl
  · intro h
    obtain ⟨text, ht⟩ := h2 fun he => h (h1.mp he)
    refine ⟨text, ht, writeModel_stdout o w m .uml ns (⟨w.fs, w.stdout ++ text⟩, .ok ()) ?_ files sp ha⟩
    simp only [writeModel, openTarget, writeUml, ht, writeAll]

/-- C89: `document` prints the document of the assembled model in the format asked for; it panics exactly for models that cannot be documented. -/
theorem run_document (o : Outside C F) (w : World C) (files : List Path) (sp : Option (List Path)) (format : F) (m : Model)
    (ha : assembleModel o w.fs files sp = .ok m) (hw : WfModel m) :
    (Doc.Undocumentable m → (runCommand o w (.document files none format sp)).2 = .panicked) ∧
    (¬ Doc.Undocumentable m → ∃ d, Describe.describeModel o.fmt m = .ok d ∧
      runCommand o w (.document files none format sp) = (⟨w.fs, w.stdout ++ o.render format d⟩, .success)) := by
  obtain ⟨h1, h2⟩ := Describe.C80_panics_iff o.fmt m hw
  constructor
  · intro h
    simp only [runCommand, ha, documentAFile, h1.mpr h]
    rfl
  · intro h
    obtain ⟨d, hd⟩ := h2 h
    refine ⟨d, hd, ?_⟩
    simp only [runCommand, ha, documentAFile, hd, openTarget, writeAll]
    rfl

/-- C89: converting one file with the JSON AST of a model to JSON prints a JSON AST of that model, with the names and trait values that
`jsonNormal` describes. -/
theorem run_json_to_json (o : Outside C F) (hs : Sensible o) (w : World C) (p : Path) (content : C) (hp : w.fs p = .file (some content))
    (ext : Str) (he : HasType p ext) (hx : lower ext = %s"json") (ns : Option Str) (m : Model) (hw : WfModel m) (hv : ValidModel m)
    (j : Json) (hj : WfJson j) (hm : ModelOf m j) (hc : o.parseJson content = some j) :
    ∃ m' j', SameModel (jsonNormal m) m' ∧ ModelOf m' j' ∧
      runCommand o w (.convert [p] none .json ns none) = (⟨w.fs, w.stdout ++ o.prettyJson j'⟩, .success) := by
  obtain ⟨m', hm', hsame⟩ := C30_read_ast m j hw hv hm
  obtain ⟨hw', hv', hf'⟩ := C30_read_model_wf j m' hj hm'
  have ha : assembleModel o w.fs [p] none = .ok m' := by
    rw [assemble_single o hs w.fs p content hp _ he (jsonReader o) (.inl ⟨hx, rfl⟩)]
    simp only [jsonReader, hc, hm']
  obtain ⟨j', hj', ho⟩ := C30_written_is_ast m' hw' hv' hf'
  obtain ⟨j'', hj'', hmain⟩ := (run_json o w [p] none ns m' ha hw').1 hf'
  rw [hj''] at hj'
  cases hj'
  exact ⟨m', j', hsame, ho, hmain⟩

/-- C89: a file that is not JSON, not UTF-8 or not a model gives no output with any command. -/
theorem run_no_output (o : Outside C F) (w : World C) (files : List Path) (sp : Option (List Path)) (e : Err)
    (ha : assembleModel o w.fs files sp = .error e) :
    (∀ color, (runCommand o w (.lint files sp color)).1 = w ∧ (runCommand o w (.validate files sp color)).1 = w) ∧
    (∀ out format ns, (runCommand o w (.convert files out format ns sp)).1 = w) ∧ ∀ out format, (runCommand o w (.document files out format sp)).1 = w := by
  refine ⟨fun color => ?_, fun out format ns => ?_, fun out format => ?_⟩ <;> simp [runCommand, ha, finish]

/-- C89: no command changes a file. -/
theorem run_files_kept (o : Outside C F) (hs : Sensible o) (w : World C) (c : Command F) : (runCommand o w c).1.fs = w.fs := by
  by_cases hc : ∃ p, OutputTo p c
  · obtain ⟨p, hp⟩ := hc
    rw [(run_never_written o hs w c p hp).1]
  · have hstd : ∀ text, (writeAll o w .stdout text).1.fs = w.fs := fun _ => rfl
    have hfin : ∀ r : World C × Except Failure Unit, (finish r).1 = r.1 := by
      rintro ⟨w', r⟩
      cases r <;> rfl
    cases c with
    | lint files sp color => simp only [runCommand]; split <;> [rfl; (split <;> rfl)]
    | validate files sp color => simp only [runCommand]; split <;> [rfl; (split <;> rfl)]
    | convert files out format ns sp =>
      cases out with
      | some p => exact absurd ⟨p, .convert⟩ hc
      | none =>
        simp only [runCommand]
        split
        · rfl
        · rename_i m _
          rw [hfin]
          simp only [writeModel, openTarget]
          cases format with
          | json => simp only [writeJson]; split <;> rfl
          | smithy => simp only [writeSmithy]; split <;> split <;> rfl
          | uml => simp only [writeUml]; split <;> rfl
    | document files out format sp =>
      cases out with
      | some p => exact absurd ⟨p, .document⟩ hc
      | none =>
        simp only [runCommand]
        split
        · rfl
        · rw [hfin]
          simp only [documentAFile, openTarget]
          split <;> rfl

/-! ### C90: reports -/

theorem cut {c : Char} {a b x y : Str} (ha : c ∉ a) (hb : c ∉ b) (h : a ++ c :: x = b ++ c :: y) : a = b ∧ x = y := by
  induction a generalizing b with
  | nil =>
    cases b with
    | nil => exact ⟨rfl, by simpa using h⟩
    | cons d b => simp at h; exact absurd (h.1 ▸ List.mem_cons_self) hb
  | cons d a ih =>
    cases b with
    | nil => simp at h; exact absurd (h.1 ▸ List.mem_cons_self) ha
    | cons e b =>
      simp only [List.cons_append, List.cons.injEq] at h
      obtain ⟨rfl, h⟩ := h
      have := ih (fun hm => ha (List.mem_cons_of_mem _ hm)) (fun hm => hb (List.mem_cons_of_mem _ hm)) h
      exact ⟨by rw [this.1], this.2⟩

theorem level_display {a b : IssueLevel} (h : a.display = b.display) : a = b := by
  cases a <;> cases b <;> first | rfl | (exact absurd h (by decide))

theorem display_newline {id : ShapeID} (h : id.Valid) : '\n' ∉ id.display ∧ id.display ≠ [] := by
  obtain ⟨ns, name, member⟩ := id
  obtain ⟨h1, h2, h3⟩ := h
  constructor
  · have hn := namespace_not_mem h1 (c := '\n') (by decide) (by decide)
    have hi := identifier_not_mem h2 (c := '\n') (by decide)
    cases member with
    | none => simp [ShapeID.display]; exact ⟨hn, hi⟩
    | some mb =>
      have hm := identifier_not_mem (h3 mb rfl) (c := '\n') (by decide)
      simp [ShapeID.display]; exact ⟨hn, hi, hm⟩
  · cases member <;> simp [ShapeID.display]

def locusText (o : Option ShapeID) : Str := (o.map ShapeID.display).getD []

theorem locus_display {a b : Option ShapeID} (ha : ∀ id, a = some id → id.Valid) (hb : ∀ id, b = some id → id.Valid)
    (h : locusText a = locusText b) : a = b := by
  cases a with
  | none =>
    cases b with
    | none => rfl
    | some y => exact absurd h.symm (display_newline (hb y rfl)).2
  | some x =>
    cases b with
    | none => exact absurd h (display_newline (ha x rfl)).2
    | some y => rw [C03_display_injective x y (ha x rfl) (hb y rfl) h]

theorem reportIssue_eq (i : Issue) (x : Str) : reportIssueNoColor i ++ x = %s"[" ++ (i.level.display ++ ']' :: (%s" " ++ (i.message ++ '\n' :: (%s"\tReported by " ++
    (i.reporter ++ ' ' :: (%s"for element " ++ ((locusText i.locus ++ %s".") ++ '\n' :: '\n' :: x))))))) := by
  obtain ⟨r, l, m, o⟩ := i
  cases o <;> simp [reportIssueNoColor, line, locusText]

theorem reportIssue_injective {i j : Issue} (hi : OneLine i) (hj : OneLine j) {x y : Str} (h : reportIssueNoColor i ++ x = reportIssueNoColor j ++ y) :
    i = j ∧ x = y := by
  obtain ⟨r1, l1, m1, o1⟩ := i
  obtain ⟨r2, l2, m2, o2⟩ := j
  obtain ⟨hm1, hr1, -, ho1⟩ := hi
  obtain ⟨hm2, hr2, -, ho2⟩ := hj
  simp only at *
  have hlev : ∀ l : IssueLevel, ']' ∉ l.display := by intro l; cases l <;> decide
  have hloc : ∀ o : Option ShapeID, (∀ id, o = some id → id.Valid) → '\n' ∉ (locusText o ++ %s".") := by
    intro o ho
    cases o with
    | none => decide
    | some id => simp [locusText]; exact (display_newline (ho id rfl)).1
  rw [reportIssue_eq, reportIssue_eq] at h
  obtain ⟨h1, h⟩ := cut (hlev l1) (hlev l2) (List.append_cancel_left h)
  obtain ⟨h2, h⟩ := cut hm1 hm2 (List.append_cancel_left h)
  obtain ⟨h3, h⟩ := cut hr1 hr2 (List.append_cancel_left h)
  obtain ⟨h4, h⟩ := cut (hloc o1 ho1) (hloc o2 ho2) (List.append_cancel_left h)
  have h5 := locus_display ho1 ho2 (List.append_cancel_right h4)
  have h6 := (List.cons.inj h).2
  cases level_display h1
  subst h2 h3 h5
  exact ⟨rfl, h6⟩

/-- C90: without colours, the report determines the issues and their order, if the messages are of one line and the reporters of one word. -/
theorem C90_report_injective (p : Paint) (a b : List Issue) (ha : ∀ i ∈ a, OneLine i) (hb : ∀ i ∈ b, OneLine i)
    (h : reportActionIssues p a false = reportActionIssues p b false) : a = b := by
  have hrep : ∀ l : List Issue, reportActionIssues p l false =
      line [] ++ if !l.isEmpty then l.flatMap reportIssueNoColor else line %s"No issues reported." := fun l => rfl
  rw [hrep, hrep] at h
  have h := List.append_cancel_left h
  have hhead : ∀ (i : Issue) x, reportIssueNoColor i ++ x ≠ line %s"No issues reported." := by
    intro i x hc
    simp [reportIssueNoColor, line] at hc
  have hmain : ∀ a b : List Issue, (∀ i ∈ a, OneLine i) → (∀ i ∈ b, OneLine i) → a.flatMap reportIssueNoColor = b.flatMap reportIssueNoColor → a = b := by
    intro a
    induction a with
    | nil =>
      intro b _ _ h
      cases b with
      | nil => rfl
      | cons j b => simp [reportIssueNoColor, line] at h
    | cons i a ih =>
      intro b ha hb h
      cases b with
      | nil => simp [reportIssueNoColor, line] at h
      | cons j b =>
        rw [List.flatMap_cons, List.flatMap_cons] at h
        obtain ⟨rfl, h'⟩ := reportIssue_injective (ha i (by simp)) (hb j (by simp)) h
        rw [ih b (fun i hi => ha i (by simp [hi])) (fun i hi => hb i (by simp [hi])) h']
  cases a with
  | nil =>
    cases b with
    | nil => rfl
    | cons j b =>
      simp only [List.isEmpty_nil, List.isEmpty_cons, Bool.not_true, Bool.not_false, if_true, Bool.false_eq_true, if_false, List.flatMap_cons] at h
      exact absurd h.symm (hhead j _)
  | cons i a =>
    cases b with
    | nil =>
      simp only [List.isEmpty_nil, List.isEmpty_cons, Bool.not_true, Bool.not_false, if_true, Bool.false_eq_true, if_false, List.flatMap_cons] at h
      exact absurd h (hhead i _)
    | cons j b =>
      simp only [List.isEmpty_cons, Bool.not_false, if_true] at h
      exact hmain _ _ ha hb h

/-- C90: `lint` and `validate` print the report of what the standard actions report, and nothing else. -/
theorem run_printed (o : Outside C F) (w : World C) (files : List Path) (sp : Option (List Path)) (color : Bool) (m : Model)
    (ha : assembleModel o w.fs files sp = .ok m) :
    (∃ issues, standardModelValidation m false = .ok issues ∧
      runCommand o w (.validate files sp color) = (⟨w.fs, w.stdout ++ reportActionIssues o.paint issues color⟩, .success)) ∧
    ∃ issues, standardModelLint o.heck m false = .ok issues ∧
      runCommand o w (.lint files sp color) = (⟨w.fs, w.stdout ++ reportActionIssues o.paint issues color⟩, .success) := by
  refine ⟨⟨_, validation_eq m false, ?_⟩, ⟨_, lint_eq o.heck m false, ?_⟩⟩
  · simp only [runCommand, ha, validation_eq]
  · simp only [runCommand, ha, lint_eq]

/-- C90: as a sub-command of cargo the arguments are those that follow the name `atelier`; without that name nothing is taken away. -/
theorem C90_command_line (prog : Str) (rest : List Str) :
    checkCommandLine (prog :: %s"atelier" :: rest) = prog :: rest ∧
    ((∀ tail, rest ≠ %s"atelier" :: tail) → checkCommandLine (prog :: rest) = prog :: rest) := by
  refine ⟨rfl, fun h => ?_⟩
  cases rest with
  | nil => rfl
  | cons c rest =>
    simp only [checkCommandLine]
    rw [if_neg fun hc => h rest (by rw [hc])]

/-! ### A concrete program -/

def exOutside : Outside Str Unit where
  parseJson c := if c = %s"{}" then some (.object []) else none
  utf8 c := some c
  encode s := s
  flt _ := none
  enum l := l.eraseDups
  fmt := ⟨fun _ => [], fun _ => []⟩
  heck := ⟨fun s => s, fun s => s, fun s => s⟩
  prettyJson _ := %s"{ }"
  render _ _ := %s"# Smithy Model"
  documentErrorsChained := false
  paint := ⟨id, id, id, id, id, id⟩
  order l := l
  opensOther _ := false
  debugEntry k _ := k

theorem exOutside_sensible : Sensible exOutside := ⟨nofun, nofun, fun _ => .refl _⟩

def exWorld : World Str where
  fs p := if p = [%s"a.smithy"] then .file (some %s"namespace ex\nstring S\n") else if p = [%s"b.Json"] then .file (some %s"no json") else
    if p = [%s"out.txt"] then .file (some %s"old") else .other
  stdout := []

theorem exSmithy : assembleModel exOutside exWorld.fs [[%s"a.smithy"]] none = .ok ⟨.v10, [], [(⟨%s"ex", %s"S", none⟩, ⟨⟨%s"ex", %s"S", none⟩, [], .simple .string⟩)]⟩ := by
  rw [assemble_single exOutside exOutside_sensible exWorld.fs [%s"a.smithy"] %s"namespace ex\nstring S\n" rfl %s"smithy"
    ⟨[], _, rfl, %s"a", nofun, rfl, by decide⟩ (smithyReader exOutside) (.inr ⟨by decide, rfl⟩)]
  rfl

/-- With an output file that exists, nothing is written; without one, the text is. -/
example : (runCommand exOutside exWorld (.convert [[%s"a.smithy"]] (some [%s"out.txt"]) .json none none)).2.status = 0 ∧
    (runCommand exOutside exWorld (.convert [[%s"a.smithy"]] (some [%s"out.txt"]) .json none none)).1.fs [%s"out.txt"] = .file (some %s"old") := by
  have hc := run_never_written exOutside exOutside_sensible exWorld (.convert [[%s"a.smithy"]] (some [%s"out.txt"]) .json none none) _ .convert
  rw [hc.1]
  refine ⟨?_, rfl⟩
  simp only [runCommand, exSmithy]
  rfl

example : (runCommand exOutside exWorld (.convert [[%s"a.smithy"]] none .smithy none none)).1.stdout =
    %s"$version: \"1.0\"\n\nnamespace ex\n\n\nstring S\n\n" := by
  simp only [runCommand, exSmithy]
  rfl

example : runCommand exOutside exWorld (.convert [[%s"b.Json"]] none .smithy none none) = (exWorld, .printedSource (.model (.other %s"An error occurred de-serializing a model"))) ∧
    (runCommand exOutside exWorld (.lint [[%s"b.Json"]] none false)).2.status = 1 := by
  have hj := assemble_single exOutside exOutside_sensible exWorld.fs [%s"b.Json"] %s"no json" rfl %s"Json"
    ⟨[], _, rfl, %s"b", nofun, rfl, by decide⟩ (jsonReader exOutside) (.inl ⟨by decide, rfl⟩)
  constructor
  · simp only [runCommand, hj]; rfl
  · simp only [runCommand, hj]; rfl

example : (runCommand exOutside exWorld (.validate [[%s"a.smithy"]] none false)).1.stdout ≠ [] := by
  simp only [runCommand, exSmithy]
  exact nofun

example : OneLine ⟨%s"CorrectTypeReferences", .warning, %s"a b", some ⟨%s"ex", %s"S", none⟩⟩ :=
  ⟨by decide, by decide, by decide, fun id h => by cases h; exact valid_sid (by decide)⟩

end Verif.Cli
