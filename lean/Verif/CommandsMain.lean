/-
C87-C90, C92, C93: the theorems about the whole program, with what is printed while files are read.
-/
import Verif.CommandsEnd

namespace Verif.Spec.Cli
open Verif.Cli
variable {C F : Type}

/-- The identifiers of the shapes of a JSON AST that are resources, in their order. -/
def resourceIdentifiers (shape : Json) : List (Str × Json) :=
  match shape.get %s"type", shape.get %s"identifiers" with
  | some (.string t), some (.object ms) => if t = %s"resource" then ms else []
  | _, _ => []

def identifiersIn (j : Json) : List (Str × Json) :=
  match j.get %s"shapes" with
  | some (.object ss) => ss.flatMap fun e => resourceIdentifiers e.2
  | _ => []

/-- What is printed for a file when all of it is read: a line for every identifier of a JSON AST, and nothing for other files. -/
inductive Says (o : Outside C F) : Path × Option C → Str → Prop
  | json {q c ext j} : HasType q ext → lower ext = %s"json" → o.parseJson c = some j →
      Says o (q, some c) ((identifiersIn j).flatMap fun e => o.debugEntry e.1 e.2 ++ %s"\n")
  | notJson {q c ext} : HasType q ext → lower ext = %s"json" → o.parseJson c = none → Says o (q, some c) []
  | smithy {q c ext} : HasType q ext → lower ext ≠ %s"json" → Says o (q, some c) []
  | closed {q} : Says o (q, none) []

/-- No JSON file at or below the given paths has a resource with identifiers. -/
def Quiet (o : Outside C F) (fs : Path → Node C) (files : List Path) (sp : Option (List Path)) : Prop :=
  ∀ p q c ext j, Given files sp p → Under (fs p) p q (some c) → HasType q ext → lower ext = %s"json" → o.parseJson c = some j → identifiersIn j = []

end Verif.Spec.Cli

namespace Verif.Cli
open Spec Spec.Cli
variable {C F : Type}

/-! ### C93: what is printed while files are read -/

theorem identifierLines_spec (o : Outside C F) (ms : List (Str × Json)) :
    identifierLines o ms <+: ms.flatMap (fun e => o.debugEntry e.1 e.2 ++ %s"\n") ∧
    ((∃ l, mapE JsonReader.identifierEntry ms = .ok l) → identifierLines o ms = ms.flatMap fun e => o.debugEntry e.1 e.2 ++ %s"\n") := by
  induction ms with
  | nil => exact ⟨List.prefix_rfl, fun _ => rfl⟩
  | cons e es ih =>
    simp only [identifierLines, List.flatMap_cons]
    have hl : line (o.debugEntry e.1 e.2) = o.debugEntry e.1 e.2 ++ %s"\n" := rfl
    rw [hl]
    cases he : JsonReader.identifierEntry e with
    | error x =>
      refine ⟨?_, ?_⟩
      · simp
      · rintro ⟨l, h⟩
        simp only [mapE, he] at h
        cases h
    | ok x =>
      refine ⟨(List.prefix_append_right_inj _).mpr ih.1, ?_⟩
      rintro ⟨l, h⟩
      simp only [mapE, he] at h
      cases hm : mapE JsonReader.identifierEntry es with
      | error e => rw [hm] at h; cases h
      | ok l' => rw [ih.2 ⟨l', hm⟩]

theorem shapePrints_spec (o : Outside C F) (j : Json) :
    shapePrints o j <+: (resourceIdentifiers j).flatMap (fun e => o.debugEntry e.1 e.2 ++ %s"\n") ∧
    ((∃ b, JsonReader.shape j = .ok b) → shapePrints o j = (resourceIdentifiers j).flatMap fun e => o.debugEntry e.1 e.2 ++ %s"\n") := by
  by_cases hr : j.get %s"type" = some (.string %s"resource")
  · have hi : shapePrints o j = identifiersPrints o (j.get %s"identifiers") := by
      unfold shapePrints; rw [hr]; rfl
    have hs : JsonReader.shape j = JsonReader.resource j := by
      unfold JsonReader.shape; rw [hr]; rfl
    rw [hi, hs]
    by_cases ho : ∃ ms, j.get %s"identifiers" = some (.object ms)
    · obtain ⟨ms, hm⟩ := ho
      have hx : resourceIdentifiers j = ms := by unfold resourceIdentifiers; rw [hr, hm]; rfl
      rw [hx, hm]
      obtain ⟨h1, h2⟩ := identifierLines_spec o ms
      refine ⟨h1, ?_⟩
      rintro ⟨b, hb⟩
      apply h2
      unfold JsonReader.resource at hb
      rw [hm] at hb
      simp only [JsonReader.identifiersHash] at hb
      cases hq : mapE JsonReader.identifierEntry ms with
      | ok l => exact ⟨l, rfl⟩
      | error e => rw [hq] at hb; cases hb
    · have hx : resourceIdentifiers j = [] := by
        unfold resourceIdentifiers
        split
        · rename_i hm; exact absurd ⟨_, hm⟩ ho
        · rfl
      have hp : identifiersPrints o (j.get %s"identifiers") = [] := by
        unfold identifiersPrints
        split
        · rename_i hm; exact absurd ⟨_, hm⟩ ho
        · rfl
      rw [hx, hp]
      exact ⟨List.prefix_rfl, fun _ => rfl⟩
  · have hx : resourceIdentifiers j = [] := by
      unfold resourceIdentifiers
      split
      · rename_i t ms ht _
        rw [if_neg]
        rintro rfl
        exact hr ht
      · rfl
    have hp : shapePrints o j = [] := by
      unfold shapePrints
      split
      · rename_i s hs
        split
        · rfl
        · rw [if_neg]
          rintro rfl
          exact hr hs
      · rfl
    rw [hx, hp]
    exact ⟨List.prefix_rfl, fun _ => rfl⟩

theorem shapesPrint_spec (o : Outside C F) (ss : List (Str × Json)) :
    shapesPrint o ss <+: (ss.flatMap fun e => resourceIdentifiers e.2).flatMap (fun e => o.debugEntry e.1 e.2 ++ %s"\n") ∧
    ((∃ l, mapE JsonReader.shapeEntry ss = .ok l) → shapesPrint o ss = (ss.flatMap fun e => resourceIdentifiers e.2).flatMap fun e => o.debugEntry e.1 e.2 ++ %s"\n") := by
  induction ss with
  | nil => exact ⟨List.prefix_rfl, fun _ => rfl⟩
  | cons e es ih =>
    simp only [shapesPrint, List.flatMap_cons, List.flatMap_append]
    obtain ⟨s1, s2⟩ := shapePrints_spec o e.2
    cases hid : ShapeID.fromStr e.1 with
    | error x =>
      refine ⟨List.nil_prefix, ?_⟩
      rintro ⟨l, h⟩
      simp only [mapE, JsonReader.shapeEntry, hid] at h
      cases h
    | ok id =>
      simp only
      cases he : JsonReader.shapeEntry e with
      | error x =>
        refine ⟨?_, ?_⟩
        · simp only [List.append_nil]
          exact s1.trans (List.prefix_append _ _)
        · rintro ⟨l, h⟩
          simp only [mapE, he] at h
          cases h
      | ok x =>
        simp only
        have hs : ∃ b, JsonReader.shape e.2 = .ok b := by
          simp only [JsonReader.shapeEntry, hid] at he
          cases hb : JsonReader.shape e.2 with
          | ok b => exact ⟨b, rfl⟩
          | error y => rw [hb] at he; cases he
        rw [s2 hs]
        refine ⟨(List.prefix_append_right_inj _).mpr ih.1, ?_⟩
        rintro ⟨l, h⟩
        simp only [mapE, he] at h
        cases hm : mapE JsonReader.shapeEntry es with
        | error e => rw [hm] at h; cases h
        | ok l' => rw [ih.2 ⟨l', hm⟩]

theorem modelPrints_spec (o : Outside C F) (j : Json) :
    modelPrints o j <+: (identifiersIn j).flatMap (fun e => o.debugEntry e.1 e.2 ++ %s"\n") ∧
    ((∃ m, JsonReader.model j = .ok m) → modelPrints o j = (identifiersIn j).flatMap fun e => o.debugEntry e.1 e.2 ++ %s"\n") := by
  cases j with
  | object vs =>
    simp only [modelPrints, JsonReader.model]
    have hin : identifiersIn (.object vs) = match AMap.get vs %s"shapes" with
        | some (.object ss) => ss.flatMap fun e => resourceIdentifiers e.2
        | _ => [] := rfl
    rw [hin]
    cases JsonReader.version (AMap.get vs %s"smithy") with
    | error e => exact ⟨List.nil_prefix, fun ⟨m, h⟩ => by cases h⟩
    | ok v =>
      simp only
      cases JsonReader.metadata (AMap.get vs %s"metadata") with
      | error e => exact ⟨List.nil_prefix, fun ⟨m, h⟩ => by cases h⟩
      | ok md =>
        simp only
        rcases (Model.new v).addAllMetadata md with ⟨m, r⟩
        cases r with
        | error e => exact ⟨List.nil_prefix, fun ⟨m, h⟩ => by cases h⟩
        | ok u =>
          simp only
          cases hg : AMap.get vs %s"shapes" with
          | none => exact ⟨List.prefix_rfl, fun _ => rfl⟩
          | some x =>
            cases x with
            | object ss =>
              obtain ⟨h1, h2⟩ := shapesPrint_spec o ss
              refine ⟨h1, ?_⟩
              rintro ⟨m', hm⟩
              apply h2
              simp only [JsonReader.shapes] at hm
              cases hq : mapE JsonReader.shapeEntry ss with
              | ok l => exact ⟨l, rfl⟩
              | error e => rw [hq] at hm; cases hm
            | _ => exact ⟨List.prefix_rfl, fun _ => rfl⟩
  | _ => exact ⟨List.nil_prefix, fun _ => rfl⟩

theorem filePrints_spec (o : Outside C F) (f : Path × Option C) (hk : ∃ r, FileGives o f r) : ∃ text, Says o f text ∧ filePrints o f.1 f.2 <+: text ∧
    ((∃ m, FileGives o f (.ok m)) → filePrints o f.1 f.2 = text) := by
  obtain ⟨r, hk⟩ := hk
  have hext : ∀ {q ext}, HasType q ext → Assembler.extensionOf q = some ext := by
    rintro q ext ⟨dir, name, rfl, hn⟩
    exact (Assembler.extensionOf_iff _ _).mpr ⟨dir, name, rfl, hn⟩
  cases hk with
  | @json q c ext he hx =>
    cases hj : o.parseJson c with
    | none =>
      refine ⟨[], .notJson he hx hj, ?_⟩
      simp [filePrints, hext he, hx, jsonPrints, hj]
    | some j =>
      refine ⟨_, .json he hx hj, ?_⟩
      simp only [filePrints, hext he, hx, if_true, jsonPrints, hj]
      obtain ⟨h1, h2⟩ := modelPrints_spec o j
      refine ⟨h1, ?_⟩
      rintro ⟨m, hm⟩
      apply h2
      generalize hr : (Except.ok m : Except Err Model) = r at hm
      cases hm with
      | json _ _ => exact ⟨m, by rw [hr]; simp only [jsonReader, hj]⟩
      | smithy he' hx' =>
        have := hext he'
        rw [hext he] at this
        cases this
        rw [hx] at hx'
        exact absurd hx' (by decide)
  | @smithy q c ext he hx =>
    have hne : lower ext ≠ %s"json" := by rw [hx]; decide
    refine ⟨[], .smithy he hne, ?_⟩
    simp [filePrints, hext he, if_neg hne]
  | @closed q ext he hx =>
    refine ⟨[], .closed, ?_⟩
    simp [filePrints]

theorem filesPrint_spec (o : Outside C F) (read : List (Path × Option C)) (hk : ∀ f ∈ read, Assembler.known (registry o) f.1 = true)
    (hg : ∀ f ∈ read, ∃ r, FileGives o f r) : ∃ texts, List.Forall₂ (Says o) read texts ∧ filesPrint o read <+: texts.flatten ∧
    ((∃ ms, Assembler.readAll (registry o) read = .ok ms) → filesPrint o read = texts.flatten) := by
  induction read with
  | nil => exact ⟨[], .nil, List.prefix_rfl, fun _ => rfl⟩
  | cons f fs ih =>
    obtain ⟨text, ht, h1, h2⟩ := filePrints_spec o f (hg f (by simp))
    obtain ⟨texts, hts, h3, h4⟩ := ih (fun f hf => hk f (by simp [hf])) fun f hf => hg f (by simp [hf])
    refine ⟨text :: texts, .cons ht hts, ?_⟩
    simp only [filesPrint, List.flatten_cons, Assembler.readAll_cons]
    cases hr : Assembler.readModel (registry o) f.1 f.2 with
    | error e =>
      refine ⟨?_, ?_⟩
      · simp only [List.append_nil]
        exact h1.trans (List.prefix_append _ _)
      · rintro ⟨ms, h⟩; cases h
    | ok m =>
      simp only
      have := h2 ⟨m, (readsAs_iff o f _).mp ((Assembler.readModel_readsAs (registry o) f (hk f (by simp)) _).mp hr)⟩
      rw [this]
      refine ⟨(List.prefix_append_right_inj _).mpr h3, ?_⟩
      rintro ⟨ms, h⟩
      cases hm : Assembler.readAll (registry o) fs with
      | error e => rw [hm] at h; cases h
      | ok l => rw [h4 ⟨l, hm⟩]

theorem assemblyPrints_eq (o : Outside C F) (ho : ReadsWell o) (fs : Path → Node C) (files : List Path) (sp : Option (List Path)) :
    ∃ paths : List Path, paths.Nodup ∧ (∀ p, p ∈ paths ↔ Given files sp p) ∧ assembleModel o fs files sp = Assembler.tryFrom ⟨registry o, paths⟩ fs ∧
      assemblyPrints o fs files sp = match Assembler.expandAll (registry o) fs paths with
        | .error _ => []
        | .ok read => filesPrint o read := by
  have hnew : (newAssembler (registry o) sp).fileTypes = registry o ∧ (newAssembler (registry o) sp).paths.Nodup ∧
      ∀ p, p ∈ (newAssembler (registry o) sp).paths ↔ ∃ l, sp = some l ∧ p ∈ l := by
    cases sp with
    | none => exact ⟨rfl, List.nodup_nil, fun p => by simp [newAssembler]⟩
    | some l =>
      obtain ⟨h1, h2, h3⟩ := foldl_push l (⟨registry o, []⟩ : Assembler C) List.nodup_nil
      exact ⟨h1, h2, fun p => by simp [newAssembler, h3]⟩
  obtain ⟨h1, h2, h3⟩ := hnew
  obtain ⟨i1, i2, i3⟩ := foldl_push files _ h2
  refine ⟨o.order (files.foldl Assembler.push (newAssembler (registry o) sp)).paths, (ho.order _).nodup_iff.mpr i2, fun p => ?_, ?_, ?_⟩
  · rw [(ho.order _).mem_iff, i3, h3, or_comm]
    rfl
  · unfold assembleModel
    simp only [i1, h1]
  · unfold assemblyPrints
    simp only [i1, h1]
    rfl

/-- C93: what a command prints while it reads its files. They are read in some order; if all can be read and merged, exactly one line is printed for each
identifier of each resource of each JSON file, and else these lines up to the place of an error. -/
theorem C93_printed (o : Outside C F) (ho : ReadsWell o) (fs : Path → Node C) (files : List Path) (sp : Option (List Path))
    (hl : ∀ p, Given files sp p → ¬ Unlistable (fs p)) :
    ∃ (read : List (Path × Option C)) (texts : List Str),
      (∀ q c, (q, c) ∈ read ↔ (∃ p, Given files sp p ∧ Under (fs p) p q c) ∧ ∃ r, FileGives o (q, c) r) ∧
      List.Forall₂ (Says o) read texts ∧ assemblyPrints o fs files sp <+: texts.flatten ∧
      ((∃ m, assembleModel o fs files sp = .ok m) → assemblyPrints o fs files sp = texts.flatten) := by
  obtain ⟨paths, -, hp, ha, hpr⟩ := assemblyPrints_eq o ho fs files sp
  rcases Assembler.expandAll_ok (registry o) fs paths with ⟨read, hf, -⟩ | ⟨-, p, hp', hu⟩
  swap
  · exact absurd hu (hl p ((hp p).mp hp'))
  have hmem := Assembler.expandAll_mem (registry o) fs paths read hf
  have hk : ∀ f ∈ read, Assembler.known (registry o) f.1 = true := fun f hfm => ((hmem f.1 f.2).mp hfm).2
  have hg : ∀ q (c : Option C), (∃ ft, TypeOf (registry o) q ft) ↔ ∃ r, FileGives o (q, c) r := by
    intro q c
    constructor
    · rintro ⟨ft, ht⟩
      cases c with
      | none => exact ⟨_, (readsAs_iff o _ _).mp ⟨ft, ht, .inr ⟨rfl, rfl⟩⟩⟩
      | some c => exact ⟨_, (readsAs_iff o _ _).mp ⟨ft, ht, .inl ⟨c, rfl, rfl⟩⟩⟩
    · rintro ⟨r, hr⟩
      obtain ⟨ft, ht, -⟩ := (readsAs_iff o _ _).mpr hr
      exact ⟨ft, ht⟩
  obtain ⟨texts, ht, h1, h2⟩ := filesPrint_spec o read hk fun f hfm => (hg f.1 f.2).mp ((Assembler.known_iff _ _).mp (hk f hfm))
  rw [hf] at hpr
  refine ⟨read, texts, fun q c => ?_, ht, by rw [hpr]; exact h1, ?_⟩
  · rw [hmem, Assembler.known_iff, hg q c]
    exact and_congr ⟨fun ⟨p, hm, hu⟩ => ⟨p, (hp p).mp hm, hu⟩, fun ⟨p, hm, hu⟩ => ⟨p, (hp p).mpr hm, hu⟩⟩ Iff.rfl
  · rintro ⟨m, hm⟩
    rw [hpr]
    apply h2
    rw [ha] at hm
    unfold Assembler.tryFrom at hm
    by_cases he : (⟨registry o, paths⟩ : Assembler C).isEmpty = true
    · have : paths = [] := by simpa [Assembler.isEmpty] using he
      rw [this] at hf
      simp only [Assembler.expandAll] at hf
      cases hf
      exact ⟨[], rfl⟩
    · rw [if_neg he] at hm
      simp only [hf] at hm
      change (Assembler.readAll (registry o) read >>= _) = _ at hm
      cases hr : Assembler.readAll (registry o) read with
      | ok ms => exact ⟨ms, rfl⟩
      | error e => rw [hr] at hm; cases hm

/-- C93: nothing is printed while files are read if no JSON file has a resource with identifiers. -/
theorem C93_quiet (o : Outside C F) (ho : ReadsWell o) (fs : Path → Node C) (files : List Path) (sp : Option (List Path)) (hq : Quiet o fs files sp) :
    assemblyPrints o fs files sp = [] := by
  by_cases hl : ∀ p, Given files sp p → ¬ Unlistable (fs p)
  · obtain ⟨read, texts, hm, hs, hp, -⟩ := C93_printed o ho fs files sp hl
    have : texts.flatten = [] := by
      rw [List.flatten_eq_nil_iff]
      intro t ht
      obtain ⟨f, hf, hsays⟩ : ∃ f ∈ read, Says o f t := by
        clear hm hp
        induction hs with
        | nil => cases ht
        | cons hh _ ih =>
          rcases List.mem_cons.mp ht with rfl | ht
          · exact ⟨_, by simp, hh⟩
          · obtain ⟨f, hf, hg⟩ := ih ht
            exact ⟨f, by simp [hf], hg⟩
      cases hsays with
      | json he hx hj =>
        obtain ⟨⟨p, hp, hu⟩, -⟩ := (hm _ _).mp hf
        rw [hq p _ _ _ _ hp hu he hx hj]
        rfl
      | notJson | smithy | closed => rfl
    rw [this] at hp
    exact List.prefix_nil.mp hp
  · obtain ⟨paths, -, hp, -, hpr⟩ := assemblyPrints_eq o ho fs files sp
    rcases Assembler.expandAll_ok (registry o) fs paths with ⟨read, hf, hno⟩ | ⟨hf, -⟩
    · exact absurd (fun p h => hno p ((hp p).mpr h)) hl
    · rw [hpr, hf]

/-- C93, violated: when a resource in a JSON file has an identifier, every command prints lines about it before its own output; a conversion to
JSON gives a text that is not the JSON of the model. -/
theorem C93_noise (o : Outside C F) (ho : ReadsWell o) (hs : Sensible o) (w : World C) (p : Path) (content : C) (hp : w.fs p = .file (some content))
    (ext : Str) (he : HasType p ext) (hx : lower ext = %s"json") (ns : Option Str) (j : Json) (hc : o.parseJson content = some j) (m : Model)
    (hm : JsonReader.model j = .ok m) (hi : identifiersIn j ≠ []) :
    ∃ j', JsonWriter.modelToJson m = .ok j' ∧ main o w (.convert [p] none .json ns none) =
      (⟨w.fs, w.stdout ++ (identifiersIn j).flatMap (fun e => o.debugEntry e.1 e.2 ++ %s"\n") ++ o.prettyJson j'⟩, .success) ∧
      (main o w (.convert [p] none .json ns none)).1.stdout ≠ w.stdout ++ o.prettyJson j' := by
  have ha : assembleModel o w.fs [p] none = .ok m := by
    rw [assemble_single o hs w.fs p content hp _ he (jsonReader o) (.inl ⟨hx, rfl⟩)]
    simp only [jsonReader, hc, hm]
  obtain ⟨hw, hv, hf⟩ := C30_read_model_wf j m (ho.json _ _ hc) hm
  have hpr : assemblyPrints o w.fs [p] none = (identifiersIn j).flatMap fun e => o.debugEntry e.1 e.2 ++ %s"\n" := by
    obtain ⟨dir, name, rfl, hn⟩ := he
    have hext : Assembler.extensionOf (dir ++ [name]) = some ext := (Assembler.extensionOf_iff _ _).mpr ⟨dir, name, rfl, hn⟩
    have hcon : (registry o).contains ext = true := by unfold Registry.contains; rw [hx]; rfl
    unfold assemblyPrints
    rw [push_single]
    simp only [order_single hs, Assembler.expandAll, hp, Assembler.expandPath, Assembler.expandFile, hext, hcon, if_true]
    change filePrints o (dir ++ [name]) (some content) ++ (match Assembler.readModel (registry o) (dir ++ [name]) (some content) with
      | .error _ => []
      | .ok _ => []) = _
    have : filePrints o (dir ++ [name]) (some content) = (identifiersIn j).flatMap fun e => o.debugEntry e.1 e.2 ++ %s"\n" := by
      simp only [filePrints, hext, hx, if_true, jsonPrints, hc]
      exact (modelPrints_spec o j).2 ⟨m, hm⟩
    rw [this]
    split <;> simp
  obtain ⟨j', hj', hmain⟩ := (run_json o ⟨w.fs, w.stdout ++ assemblyPrints o w.fs [p] none⟩ [p] none ns m ha hw).1 hf
  have hmain : main o w (.convert [p] none .json ns none) =
      (⟨w.fs, w.stdout ++ (identifiersIn j).flatMap (fun e => o.debugEntry e.1 e.2 ++ %s"\n") ++ o.prettyJson j'⟩, .success) := by
    rw [← hpr]; exact hmain
  refine ⟨j', hj', hmain, ?_⟩
  rw [hmain]
  intro h
  simp only [List.append_assoc] at h
  have h := congrArg List.length (List.append_cancel_left h)
  cases hij : identifiersIn j with
  | nil => exact hi hij
  | cons e es =>
    rw [hij] at h
    simp at h
    omega

/-! ### The theorems about the program -/

/-- What is on the standard output before a command writes its own output. -/
abbrev World.assembling (o : Outside C F) (w : World C) (files : List Path) (sp : Option (List Path)) : World C :=
  ⟨w.fs, w.stdout ++ assemblyPrints o w.fs files sp⟩

/-- C87, violated by every command with an output file: whatever the input, the format and the state of the file system, such a command does
not succeed, no file is changed, and nothing but what is printed while files are read is on the standard output. -/
theorem C87_never_written (o : Outside C F) (hs : Sensible o) (w : World C) (c : Command F) (p : Path) (hc : OutputTo p c) :
    (main o w c).1 = w.assembling o c.input.1 c.input.2 ∧ (main o w c).2 ≠ .success :=
  run_never_written o hs (w.assembling o c.input.1 c.input.2) c p hc

/-- C87, C88: converting to JSON into a file that exists ends with the exit status of a success, although nothing is written. -/
theorem C87_status_zero (o : Outside C F) (hs : Sensible o) (w : World C) (files : List Path) (sp : Option (List Path)) (ns : Option Str) (p : Path)
    (old : C) (hp : w.fs p = .file (some old)) (m : Model) (hm : assembleModel o w.fs files sp = .ok m) (hw : WfModel m) (hf : FiniteModel m) :
    (main o w (.convert files (some p) .json ns sp)).1.fs = w.fs ∧ (main o w (.convert files (some p) .json ns sp)).2.status = 0 := by
  obtain ⟨h1, h2⟩ := run_status_zero o hs (w.assembling o files sp) files sp ns p old hp m hm hw hf
  exact ⟨(congrArg World.fs h1 :), h2⟩

/-- C88: the exit status of `lint` and `validate` says if the model could be assembled, and nothing else. In particular it is 0 whatever they
report. -/
theorem C88_check_status (o : Outside C F) (w : World C) (files : List Path) (sp : Option (List Path)) (color : Bool) :
    (∀ c ∈ [Command.lint files sp color, .validate files sp color],
      ((main o w c).2.status = 0 ↔ ∃ m, assembleModel o w.fs files sp = .ok m) ∧
      ((main o w c).2.status = 1 ↔ ∃ e, e ≠ .panic ∧ assembleModel o w.fs files sp = .error e) ∧
      ((main o w c).2.status = 101 ↔ assembleModel o w.fs files sp = .error .panic)) := by
  intro c hc
  have h := run_check_status o (w.assembling o files sp) files sp color c hc
  simp only [List.mem_cons, List.not_mem_nil, or_false] at hc
  rcases hc with rfl | rfl <;> exact h

/-- C88, violated: whatever errors there are in the model, `validate` has the exit status of a success. -/
theorem C88_errors_ignored (o : Outside C F) (w : World C) (files : List Path) (sp : Option (List Path)) (color : Bool) (m : Model)
    (h : assembleModel o w.fs files sp = .ok m) :
    (main o w (.validate files sp color)).2.status = 0 ∧ (main o w (.lint files sp color)).2.status = 0 :=
  run_errors_ignored o (w.assembling o files sp) files sp color m h

/-- C88: `convert` and `document` never end with the error status 1: an error is a panic, or has the status of a success. -/
theorem C88_convert_status (o : Outside C F) (w : World C) (files : List Path) (out : Option Path) (sp : Option (List Path)) :
    (∀ format ns, (main o w (.convert files out format ns sp)).2.status = 0 ∨ (main o w (.convert files out format ns sp)).2.status = 101) ∧
    ∀ format, (main o w (.document files out format sp)).2.status = 0 ∨ (main o w (.document files out format sp)).2.status = 101 :=
  run_convert_status o (w.assembling o files sp) files out sp

theorem prints_notJson (o : Outside C F) (ho : ReadsWell o) (fs : Path → Node C) (p : Path) (content : C) (hp : fs p = .file (some content))
    (hq : ∀ ext j, HasType p ext → lower ext = %s"json" → o.parseJson content ≠ some j) : assemblyPrints o fs [p] none = [] := by
  refine C93_quiet o ho fs [p] none ?_
  rintro p' q c ext j (h | ⟨l, hl, -⟩) hu he hx hj
  · cases List.mem_singleton.mp h
    rw [hp] at hu
    cases hu with
    | here => exact absurd hj (hq ext j he hx)
  · cases hl

/-- C88, violated: converting or documenting a file that is not JSON has the exit status of a success, and gives no output. -/
theorem C88_not_json (o : Outside C F) (hs : Sensible o) (ho : ReadsWell o) (w : World C) (p : Path) (content : C) (hp : w.fs p = .file (some content))
    (ext : Str) (he : HasType p ext) (hx : lower ext = %s"json") (hj : o.parseJson content = none) :
    (∀ out format ns, (main o w (.convert [p] out format ns none)).1 = w ∧ (main o w (.convert [p] out format ns none)).2.status = 0) ∧
    ∀ out format, (main o w (.document [p] out format none)).1 = w ∧ (main o w (.document [p] out format none)).2.status = 0 := by
  have hn := prints_notJson o ho w.fs p content hp fun _ _ _ _ h => by rw [hj] at h; cases h
  have hw : w.assembling o [p] none = w := by unfold World.assembling; rw [hn]; simp
  have h := run_not_json o hs (w.assembling o [p] none) p content hp ext he hx hj
  have h1 : ∀ out format ns, main o w (.convert [p] out format ns none) = runCommand o (w.assembling o [p] none) (.convert [p] out format ns none) := fun _ _ _ => rfl
  have h2 : ∀ out format, main o w (.document [p] out format none) = runCommand o (w.assembling o [p] none) (.document [p] out format none) := fun _ _ => rfl
  simp only [hw] at h h1 h2
  simp only [h1, h2]
  exact h

/-- C88: how a conversion into a file ends, when the model could be assembled and written: by a panic if the file cannot be opened, and for Smithy and UML;
for JSON with the exit status of a success. -/
theorem C88_output_status (o : Outside C F) (hs : Sensible o) (w : World C) (files : List Path) (sp : Option (List Path)) (p : Path) (m : Model)
    (ha : assembleModel o w.fs files sp = .ok m) (hw : WfModel m) :
    (¬ CanOpen o w p → (∀ format ns, (main o w (.convert files (some p) format ns sp)).2.status = 101) ∧
      ∀ format, (main o w (.document files (some p) format sp)).2.status = 101) ∧
    (CanOpen o w p → (∀ ns, (main o w (.convert files (some p) .smithy ns sp)).2.status = 101) ∧
      (∀ ns text, PlantUml.write false o.fmt m = .ok text → (main o w (.convert files (some p) .uml ns sp)).2.status = 101) ∧
      (∀ ns j, JsonWriter.modelToJson m = .ok j → (main o w (.convert files (some p) .json ns sp)).2.status = 0) ∧
      ∀ format d, Describe.describeModel o.fmt m = .ok d →
        (main o w (.document files (some p) format sp)).2.status = if o.documentErrorsChained then 0 else 101) :=
  run_output_status o hs (w.assembling o files sp) files sp p m ha hw

/-- C88: a Smithy file that is not UTF-8: linting and validating have status 1, converting and documenting panic. -/
theorem C88_not_utf8 (o : Outside C F) (hs : Sensible o) (w : World C) (p : Path) (content : C) (hp : w.fs p = .file (some content))
    (ext : Str) (he : HasType p ext) (hx : lower ext = %s"smithy") (hj : o.utf8 content = none) :
    (∀ color, (main o w (.lint [p] none color)).2.status = 1 ∧ (main o w (.validate [p] none color)).2.status = 1) ∧
    (∀ out format ns, (main o w (.convert [p] out format ns none)).2.status = 101) ∧
    ∀ out format, (main o w (.document [p] out format none)).2.status = 101 :=
  run_not_utf8 o hs (w.assembling o [p] none) p content hp ext he hx hj

/-- C89: converting to JSON prints the JSON of the assembled model, after what is printed while files are read (C93); it panics exactly if the model
has a NaN or an infinity in it. -/
theorem C89_json (o : Outside C F) (w : World C) (files : List Path) (sp : Option (List Path)) (ns : Option Str) (m : Model)
    (ha : assembleModel o w.fs files sp = .ok m) (hw : WfModel m) :
    (FiniteModel m → ∃ j, JsonWriter.modelToJson m = .ok j ∧
      main o w (.convert files none .json ns sp) = (⟨w.fs, w.stdout ++ assemblyPrints o w.fs files sp ++ o.prettyJson j⟩, .success)) ∧
    (¬ FiniteModel m → (main o w (.convert files none .json ns sp)).2 = .panicked) :=
  run_json o (w.assembling o files sp) files sp ns m ha hw

/-- C89: converting to Smithy IDL with a namespace prints the text of that namespace, after what is printed while files are read; it panics exactly if it is
not the text of a namespace. -/
theorem C89_smithy (o : Outside C F) (w : World C) (files : List Path) (sp : Option (List Path)) (ns : Str) (m : Model)
    (ha : assembleModel o w.fs files sp = .ok m) :
    (IsNamespace ns → main o w (.convert files none .smithy (some ns) sp) =
      (⟨w.fs, w.stdout ++ assemblyPrints o w.fs files sp ++ writeIdl o.fmt ns m⟩, .success)) ∧
    (¬ IsNamespace ns → (main o w (.convert files none .smithy (some ns) sp)).2 = .panicked) :=
  run_smithy o (w.assembling o files sp) files sp ns m ha

/-- C89: converting to Smithy IDL without a namespace prints the text of the only namespace of the model, after what is printed while files are read;
it panics exactly if there is none or more than one. -/
theorem C89_smithy_default (o : Outside C F) (w : World C) (files : List Path) (sp : Option (List Path)) (m : Model)
    (ha : assembleModel o w.fs files sp = .ok m) (hw : WfModel m) :
    (∀ ns, (∀ x, Uml.IsNamespaceOf m x ↔ x = ns) →
      main o w (.convert files none .smithy none sp) = (⟨w.fs, w.stdout ++ assemblyPrints o w.fs files sp ++ writeIdl o.fmt ns m⟩, .success)) ∧
    ((¬ ∃ ns, ∀ x, Uml.IsNamespaceOf m x ↔ x = ns) → (main o w (.convert files none .smithy none sp)).2 = .panicked) :=
  run_smithy_default o (w.assembling o files sp) files sp m ha hw

/-- C89: converting to UML prints the drawing of the assembled model, after what is printed while files are read; it panics exactly if a service or
resource names an operation that the model does not have. -/
theorem C89_uml (o : Outside C F) (w : World C) (files : List Path) (sp : Option (List Path)) (ns : Option Str) (m : Model)
    (ha : assembleModel o w.fs files sp = .ok m) (hw : WfModel m) :
    ((∃ id s, m.shape id = some s ∧ ∃ x ∈ Uml.operationsOf s.body, ∀ op, ¬ Uml.IsOperation m x op) →
      (main o w (.convert files none .uml ns sp)).2 = .panicked) ∧
    ((¬ ∃ id s, m.shape id = some s ∧ ∃ x ∈ Uml.operationsOf s.body, ∀ op, ¬ Uml.IsOperation m x op) → ∃ text, PlantUml.write false o.fmt m = .ok text ∧
      main o w (.convert files none .uml ns sp) = (⟨w.fs, w.stdout ++ assemblyPrints o w.fs files sp ++ text⟩, .success)) :=
  run_uml o (w.assembling o files sp) files sp ns m ha hw

/-- C89: `document` prints the document of the assembled model in the format asked for, after what is printed while files are read; it panics exactly
for models that cannot be documented. -/
theorem C89_document (o : Outside C F) (w : World C) (files : List Path) (sp : Option (List Path)) (format : F) (m : Model)
    (ha : assembleModel o w.fs files sp = .ok m) (hw : WfModel m) :
    (Doc.Undocumentable m → (main o w (.document files none format sp)).2 = .panicked) ∧
    (¬ Doc.Undocumentable m → ∃ d, Describe.describeModel o.fmt m = .ok d ∧
      main o w (.document files none format sp) = (⟨w.fs, w.stdout ++ assemblyPrints o w.fs files sp ++ o.render format d⟩, .success)) :=
  run_document o (w.assembling o files sp) files sp format m ha hw

/-- C89: converting one file with the JSON AST of a model to JSON prints a JSON AST of that model, with the names and trait values that
`jsonNormal` describes, after what is printed while the file is read. -/
theorem C89_json_to_json (o : Outside C F) (hs : Sensible o) (w : World C) (p : Path) (content : C) (hp : w.fs p = .file (some content))
    (ext : Str) (he : HasType p ext) (hx : lower ext = %s"json") (ns : Option Str) (m : Model) (hw : WfModel m) (hv : ValidModel m)
    (j : Json) (hj : WfJson j) (hm : ModelOf m j) (hc : o.parseJson content = some j) :
    ∃ m' j', SameModel (jsonNormal m) m' ∧ ModelOf m' j' ∧
      main o w (.convert [p] none .json ns none) = (⟨w.fs, w.stdout ++ assemblyPrints o w.fs [p] none ++ o.prettyJson j'⟩, .success) :=
  run_json_to_json o hs (w.assembling o [p] none) p content hp ext he hx ns m hw hv j hj hm hc

/-- C89: when the model cannot be assembled there is no output with any command, but for what is printed while files are read. -/
theorem C89_no_output (o : Outside C F) (w : World C) (files : List Path) (sp : Option (List Path)) (e : Err)
    (ha : assembleModel o w.fs files sp = .error e) :
    (∀ color, (main o w (.lint files sp color)).1 = w.assembling o files sp ∧ (main o w (.validate files sp color)).1 = w.assembling o files sp) ∧
    (∀ out format ns, (main o w (.convert files out format ns sp)).1 = w.assembling o files sp) ∧
    ∀ out format, (main o w (.document files out format sp)).1 = w.assembling o files sp :=
  run_no_output o (w.assembling o files sp) files sp e ha

/-- C89: no command changes a file. -/
theorem C89_files_kept (o : Outside C F) (hs : Sensible o) (w : World C) (c : Command F) : (main o w c).1.fs = w.fs :=
  run_files_kept o hs (w.assembling o c.input.1 c.input.2) c

/-- C90: `lint` and `validate` print the report of what the standard actions report, after what is printed while files are read, and nothing else. -/
theorem C90_printed (o : Outside C F) (w : World C) (files : List Path) (sp : Option (List Path)) (color : Bool) (m : Model)
    (ha : assembleModel o w.fs files sp = .ok m) :
    (∃ issues, standardModelValidation m false = .ok issues ∧
      main o w (.validate files sp color) = (⟨w.fs, w.stdout ++ assemblyPrints o w.fs files sp ++ reportActionIssues o.paint issues color⟩, .success)) ∧
    ∃ issues, standardModelLint o.heck m false = .ok issues ∧
      main o w (.lint files sp color) = (⟨w.fs, w.stdout ++ assemblyPrints o w.fs files sp ++ reportActionIssues o.paint issues color⟩, .success) :=
  run_printed o (w.assembling o files sp) files sp color m ha

/-- C92: `validate` reports the placeholders, the bad references and the simple shapes without traits of the model it is given, and nothing else. -/
theorem C92_validate (o : Outside C F) (ho : ReadsWell o) (w : World C) (files : List Path) (sp : Option (List Path)) (color : Bool) (m : Model)
    (ha : assembleModel o w.fs files sp = .ok m) :
    ∃ issues, (∀ i, i ∈ issues ↔ Validation m i) ∧
      main o w (.validate files sp color) = (⟨w.fs, w.stdout ++ assemblyPrints o w.fs files sp ++ reportActionIssues o.paint issues color⟩, .success) :=
  run_validate o ho (w.assembling o files sp) files sp color m ha

/-- C92: without colours, `validate` says that there are no issues exactly about impeccable models. -/
theorem C92_validate_clean (o : Outside C F) (ho : ReadsWell o) (w : World C) (files : List Path) (sp : Option (List Path)) (m : Model)
    (ha : assembleModel o w.fs files sp = .ok m) :
    (main o w (.validate files sp false)).1.stdout = w.stdout ++ assemblyPrints o w.fs files sp ++ %s"\nNo issues reported.\n" ↔ Impeccable m :=
  run_validate_clean o ho (w.assembling o files sp) files sp m ha

/-- C92: for every command, all files and the standard output before it are kept. -/
theorem C92_output_appended (o : Outside C F) (hs : Sensible o) (w : World C) (c : Command F) :
    (main o w c).1.fs = w.fs ∧ ∃ text, (main o w c).1.stdout = w.stdout ++ assemblyPrints o w.fs c.input.1 c.input.2 ++ text :=
  run_output_appended o hs (w.assembling o c.input.1 c.input.2) c

/-! ### A concrete case -/

def exResource : Json := .object [(%s"smithy", .string %s"1.0"), (%s"shapes", .object [(%s"ex#R", .object [(%s"type", .string %s"resource"),
  (%s"identifiers", .object [(%s"id", .object [(%s"target", .string %s"smithy.api#String")])])])])]

def exNoisy : Outside Str Unit := { exOutside with parseJson := fun c => if c = %s"r" then some exResource else none }

def exNoisyWorld : World Str where
  fs p := if p = [%s"r.json"] then .file (some %s"r") else .other
  stdout := []

example : identifiersIn exResource = [(%s"id", .object [(%s"target", .string %s"smithy.api#String")])] := rfl

/-- The line printed comes before the JSON. -/
example : (main exNoisy exNoisyWorld (.convert [[%s"r.json"]] none .json none none)).1.stdout = %s"id\n{ }" := by
  rfl

/-- A world without JSON files is quiet. -/
example : assemblyPrints exOutside exWorld.fs [[%s"a.smithy"]] none = [] := by
  rfl

end Verif.Cli
