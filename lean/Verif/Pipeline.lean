/-
C109, C110: what commands make of the output of other commands.
-/
import Verif.JsonOrder
import Verif.CommandsMain
import Verif.Findings

namespace Verif.Spec.Cli
open Verif.Cli
variable {C F : Type}

/-- `serde_json` reads the document from the text it prints for it; the entries of objects may be in another order. -/
def JsonReadsBack (o : Outside C F) (j : Json) : Prop := ∃ j', o.parseJson (o.encode (o.prettyJson j)) = some j' ∧ SameJson j j'

/-- The file holds what the command printed, as with `cargo atelier ... > p`. -/
def Holds (o : Outside C F) (w : World C) (p : Path) (text : Str) : Prop := w.fs p = .file (some (o.encode text))

end Verif.Spec.Cli

namespace Verif
open Spec

/-! ### Every assembled model is valid -/

theorem valid_merge {a b c : Model} (h : ModelMerge a b c) (ha : ValidModel a) (hb : ValidModel b) : ValidModel c := by
  intro id s hs
  have key := h.shapes id
  have ha := ha id
  have hb := hb id
  unfold Model.shape at hs ha hb
  rw [hs] at key
  generalize AMap.get a.shapes id = x at key ha
  generalize AMap.get b.shapes id = y at key hb
  cases key with
  | left => exact ha s rfl
  | right => exact hb s rfl
  | both hm =>
    obtain ⟨h1, h2, h3⟩ := ha _ rfl
    obtain ⟨k1, k2, k3⟩ := hb _ rfl
    refine ⟨h1, fun t v hv => ?_, ?_⟩
    · have ht := hm.traits t
      have h2 := h2 t
      have k2 := k2 t
      rw [hv] at ht
      generalize AMap.get _ t = x at ht h2
      generalize AMap.get _ t = y at ht k2
      cases ht with
      | left => exact h2 _ rfl
      | right => exact k2 _ rfl
      | both => exact h2 _ rfl
    · have hb := hm.body
      generalize s.body = z at hb
      generalize TopLevelShape.body _ = x at hb h3
      generalize TopLevelShape.body _ = y at hb k3
      cases hb with
      | same => exact h3
      | resolve => exact k3
      | keep => exact h3

theorem mergesTo_valid {a m : Model} {ms : List Model} (h : MergesTo a ms m) (ha : WfModel a ∧ ValidModel a) (hms : ∀ x ∈ ms, WfModel x ∧ ValidModel x) :
    WfModel m ∧ ValidModel m := by
  induction h with
  | done => exact ha
  | step hm _ ih =>
    have hx := hms _ List.mem_cons_self
    have hw := wf_merge ha.1 hx.1
    have hv := fun hok => valid_merge (C15_merge_result _ _ ha.1 hx.1 hok) ha.2 hx.2
    rw [hm] at hw hv
    exact ih ⟨hw, hv rfl⟩ fun x hx => hms x (by simp [hx])

namespace Cli
open Spec.Cli
variable {C F : Type}

/-- Whatever is in the files, every identifier in the model a command works on is valid. -/
theorem assembled_valid (o : Outside C F) (ho : ReadsWell o) (fs : Path → Node C) (files : List Path) (sp : Option (List Path)) (m : Model)
    (h : assembleModel o fs files sp = .ok m) : WfModel m ∧ ValidModel m := by
  have hnew : WfModel (Model.new .v10) ∧ ValidModel (Model.new .v10) := ⟨(Reachable.new .v10).wf, fun _ _ h => by cases h⟩
  by_cases hl : ∀ p, Given files sp p → ¬ Unlistable (fs p)
  · obtain ⟨read, -, h2, -⟩ := C92_assembled o ho fs files sp hl
    obtain ⟨models, hall, hmm⟩ := (h2 m).mp h
    refine mergesTo_valid hmm hnew fun x hx => ?_
    have : ∃ f ∈ read, FileGives o f (.ok x) := by
      clear h2 hmm
      induction hall with
      | nil => cases hx
      | cons hh _ ih =>
        rcases List.mem_cons.mp hx with rfl | hx
        · exact ⟨_, by simp, hh⟩
        · obtain ⟨f, hf, hg⟩ := ih hx
          exact ⟨f, by simp [hf], hg⟩
    obtain ⟨f, -, hg⟩ := this
    generalize hr : Except.ok x = r at hg
    cases hg with
    | @json q c ext h1 h2 =>
      unfold jsonReader at hr
      cases hj : o.parseJson c with
      | none => rw [hj] at hr; cases hr
      | some j =>
        rw [hj] at hr
        obtain ⟨hw, hv, -⟩ := C30_read_model_wf j x (ho.json _ _ hj) hr.symm
        exact ⟨hw, hv⟩
    | @smithy q c ext h1 h2 =>
      unfold smithyReader at hr
      cases hj : o.utf8 c with
      | none => rw [hj] at hr; cases hr
      | some s => rw [hj] at hr; exact parsed_valid ho.enum hr.symm
    | closed => cases hr
  · exfalso
    apply hl
    intro p hp hu
    rw [C92_unlistable o ho fs files sp p hp hu] at h
    cases h

end Cli

/-! ### Writing what was read from JSON as JSON -/

namespace JsonWriter

theorem fromTraitValue_norm (v : TraitValue) : fromTraitValue (normTraitValue v) = fromTraitValue v := by
  cases v with
  | none => rfl
  | some v => rfl

theorem optTraits_norm (ts : Traits) : optTraits (normTraits ts) = optTraits ts := by
  unfold optTraits fromTraits normTraits
  rw [mapE_map]
  simp only [fromTraitValue_norm, List.isEmpty_map]

theorem fromMember_norm (m : MemberShape) : fromMember (normMember m) = fromMember m := by
  simp only [fromMember, normMember, optTraits_norm]

theorem fromMember_normNamed (m : MemberShape) : fromMember (normNamed m) = fromMember m := by
  simp only [fromMember, normNamed, optTraits_norm]

theorem optMembers_norm (ms : AMap Str MemberShape) : optMembers (ms.map fun e => (e.1, normMember e.2)) = optMembers ms := by
  unfold optMembers fromMembers
  have : AMap.values (ms.map fun e => (e.1, normMember e.2)) = (AMap.values ms).map normMember := by
    simp [AMap.values]
  rw [this, mapE_map]
  simp only [fromMember_norm, List.isEmpty_map]
  rfl

theorem fromKind_norm (k : ShapeKind) : fromKind (normKind k) = fromKind k := by
  cases k with
  | list m => simp only [normKind, fromKind, fromMember_normNamed]
  | set m => simp only [normKind, fromKind, fromMember_normNamed]
  | map k v => simp only [normKind, fromKind, fromMember_normNamed]
  | struct ms => simp only [normKind, fromKind, optMembers_norm]
  | union ms => simp only [normKind, fromKind, optMembers_norm]
  | _ => rfl

theorem fromShape_norm (s : TopLevelShape) : fromShape (normShape s) = fromShape s := by
  simp only [fromShape, normShape, optTraits_norm, fromKind_norm]

/-- What JSON does not keep is not written to JSON. -/
theorem modelToJson_norm (m : Model) : modelToJson (jsonNormal m) = modelToJson m := by
  have h1 : optMetadata (jsonNormal m) = optMetadata m := rfl
  have h2 : fromShapes (jsonNormal m) = fromShapes m := by
    unfold fromShapes
    have : (jsonNormal m).shapesList = m.shapesList.map normShape := by
      simp [jsonNormal, Model.shapesList, AMap.values]
    rw [this, mapE_map]
    simp only [fromShape_norm]
    rfl
  unfold modelToJson
  rw [h1, h2]

end JsonWriter

theorem wf_normTraits {ts : Traits} (h : WfTraits ts) : WfTraits (normTraits ts) := by
  refine ⟨?_, fun id v hv => ?_⟩
  · have := h.nodup
    unfold AMap.Wf AMap.keys normTraits at *
    rw [List.map_map]
    exact this
  · unfold normTraits at hv
    rw [AMap.get_map_val (fun _ v => normTraitValue v)] at hv
    have h2 := h.values id
    generalize AMap.get ts id = x at hv h2
    cases x with
    | none => cases hv
    | some x =>
      cases x with
      | none =>
        simp only [Option.map_some, normTraitValue, Option.some.injEq] at hv
        subst hv
        exact .object AMap.wf_nil nofun
      | some x =>
        simp only [Option.map_some, normTraitValue, Option.some.injEq] at hv
        subst hv
        exact h2 _ rfl

theorem wf_normMembers {ms : AMap Str MemberShape} (h : WfMembers ms) : WfMembers (ms.map fun e => (e.1, normMember e.2)) := by
  have hg : ∀ k m, AMap.get (ms.map fun e => (e.1, normMember e.2)) k = some m → ∃ x, AMap.get ms k = some x ∧ m = normMember x := by
    intro k m hm
    rw [AMap.get_map_val (fun _ v => normMember v)] at hm
    cases hx : AMap.get ms k with
    | none => rw [hx] at hm; cases hm
    | some x => rw [hx] at hm; exact ⟨x, rfl, (Option.some.inj hm).symm⟩
  refine ⟨?_, fun k m hm => ?_, fun k m hm => ?_⟩
  · have := h.nodup
    unfold AMap.Wf AMap.keys at *
    rw [List.map_map]
    exact this
  · obtain ⟨x, hx, rfl⟩ := hg k m hm
    exact h.key k x hx
  · obtain ⟨x, hx, rfl⟩ := hg k m hm
    exact wf_normTraits (h.traits k x hx)

theorem wf_normKind {k : ShapeKind} (h : WfKind k) : WfKind (normKind k) := by
  cases k with
  | list m => exact wf_normTraits h
  | set m => exact wf_normTraits h
  | map k v => exact ⟨wf_normTraits h.1, wf_normTraits h.2⟩
  | struct ms => exact wf_normMembers h
  | union ms => exact wf_normMembers h
  | _ => exact h

theorem wf_jsonNormal {m : Model} (h : WfModel m) : WfModel (jsonNormal m) := by
  have hg : ∀ id s, (jsonNormal m).shape id = some s → ∃ x, m.shape id = some x ∧ s = normShape x := by
    intro id s hs
    unfold Model.shape jsonNormal at hs
    simp only [AMap.get_map_val (fun _ v => normShape v)] at hs
    unfold Model.shape
    cases hx : AMap.get m.shapes id with
    | none => rw [hx] at hs; cases hs
    | some x => rw [hx] at hs; exact ⟨x, rfl, (Option.some.inj hs).symm⟩
  refine ⟨h.metaNodup, h.metaValues, ?_, fun id s hs => ?_, fun id s hs hm => ?_, fun id s hs => ?_⟩
  · have := h.nodup
    unfold AMap.Wf AMap.keys jsonNormal at *
    rw [List.map_map]
    exact this
  · obtain ⟨x, hx, rfl⟩ := hg id s hs
    exact h.key id x hx
  · obtain ⟨x, hx, rfl⟩ := hg id s hs
    have := h.member id x hx hm
    simp only [normShape, this, normKind]
  · obtain ⟨x, hx, rfl⟩ := hg id s hs
    exact ⟨wf_normTraits (h.shapes id x hx).traits, wf_normKind (h.shapes id x hx).body⟩

/-- C109: writing a model as JSON, reading that, its entries in whatever order, and writing what is read as JSON gives the same JSON again. -/
theorem C109_json_fixed (m : Model) (hw : WfModel m) (hv : ValidModel m) (hf : FiniteModel m) :
    ∃ j, JsonWriter.modelToJson m = .ok j ∧ ∀ j', SameJson j j' → WfJson j' →
      ∃ m' j'', JsonReader.model j' = .ok m' ∧ SameModel (jsonNormal m) m' ∧ JsonWriter.modelToJson m' = .ok j'' ∧ SameJson j j'' := by
  obtain ⟨j, hj, hm⟩ := C30_written_is_ast m hw hv hf
  refine ⟨j, hj, fun j' hs hw' => ?_⟩
  obtain ⟨m', h1, h2⟩ := C30_read_ast m j' hw hv (Ordered.modelOf m j j' hm hs hw')
  obtain ⟨k1, k2, k3⟩ := C30_read_model_wf j' m' hw' h1
  have hn : JsonWriter.modelToJson (jsonNormal m) = .ok j := by rw [JsonWriter.modelToJson_norm, hj]
  rcases JsonWriter.C108_json (jsonNormal m) m' (wf_jsonNormal hw) k1 k2 h2 with ⟨a, b, ha, hb, hab⟩ | ⟨ha, -⟩
  · rw [hn] at ha
    cases ha
    exact ⟨m', b, h1, h2, hb, hab⟩
  · rw [hn] at ha; cases ha

namespace Cli
open Spec.Cli
variable {C F : Type}

/-- What a conversion to JSON prints. -/
theorem converted (o : Outside C F) (ho : ReadsWell o) (fs : Path → Node C) (files : List Path) (sp : Option (List Path)) (ns : Option Str) (m : Model)
    (ha : assembleModel o fs files sp = .ok m) (hf : FiniteModel m) (hq : Quiet o fs files sp) :
    ∃ j, JsonWriter.modelToJson m = .ok j ∧ (main o ⟨fs, []⟩ (.convert files none .json ns sp)).1.stdout = o.prettyJson j := by
  obtain ⟨j, h1, h2⟩ := (C89_json o ⟨fs, []⟩ files sp ns m ha (assembled_valid o ho fs files sp m ha).1).1 hf
  refine ⟨j, h1, ?_⟩
  rw [h2, C93_quiet o ho fs files sp hq]
  rfl

/-- What is assembled from the output of a conversion to JSON, and what is written to JSON then. -/
theorem reassembled (o : Outside C F) (hs : Sensible o) (ho : ReadsWell o) (m : Model) (hw : WfModel m) (hv : ValidModel m) (hf : FiniteModel m) (j : Json)
    (hj : JsonWriter.modelToJson m = .ok j) (hr : JsonReadsBack o j) (w : World C) (p : Path) (ext : Str) (he : HasType p ext) (hx : lower ext = %s"json")
    (hp : Holds o w p (o.prettyJson j)) :
    ∃ m' j', assembleModel o w.fs [p] none = .ok m' ∧ SameModel (jsonNormal m) m' ∧ JsonWriter.modelToJson m' = .ok j' ∧ SameJson j j' ∧
      WfModel m' ∧ FiniteModel m' := by
  obtain ⟨i, hi, h1⟩ := C109_json_fixed m hw hv hf
  rw [hj] at hi
  cases hi
  obtain ⟨j', hj', hsame⟩ := hr
  have hwj := ho.json _ _ hj'
  obtain ⟨m', j'', h2, h3, h4, h5⟩ := h1 j' hsame hwj
  refine ⟨m', j'', ?_, h3, h4, h5, ?_⟩
  · rw [assemble_single o hs w.fs p _ hp ext he (jsonReader o) (.inl ⟨hx, rfl⟩)]
    simp only [jsonReader, hj', h2]
  · obtain ⟨k1, -, k3⟩ := C30_read_model_wf j' m' hwj h2
    exact ⟨k1, k3⟩

/-- C109: converting any files to JSON and working on the output makes no difference but the one that `jsonNormal` describes: commands accept what was
converted, and the same is found in it. -/
theorem C109_pipeline (o : Outside C F) (hs : Sensible o) (ho : ReadsWell o) (fs : Path → Node C) (files : List Path) (sp : Option (List Path))
    (ns : Option Str) (m : Model) (ha : assembleModel o fs files sp = .ok m) (hf : FiniteModel m) (hq : Quiet o fs files sp)
    (hr : ∀ j, JsonWriter.modelToJson m = .ok j → JsonReadsBack o j) (w : World C) (p : Path) (ext : Str) (he : HasType p ext)
    (hx : lower ext = %s"json") (hp : Holds o w p (main o ⟨fs, []⟩ (.convert files none .json ns sp)).1.stdout) :
    ∃ m', assembleModel o w.fs [p] none = .ok m' ∧ SameModel (jsonNormal m) m' ∧ SameFindings o.heck m m' := by
  obtain ⟨j, h1, h2⟩ := converted o ho fs files sp ns m ha hf hq
  obtain ⟨hw, hv⟩ := assembled_valid o ho fs files sp m ha
  rw [h2] at hp
  obtain ⟨m', -, h3, h4, -, -, h5, -⟩ := reassembled o hs ho m hw hv hf j h1 (hr j h1) w p ext he hx hp
  exact ⟨m', h3, h4, C106_outline o.heck m m' hw h5 ((jsonNormal_outline m).trans (same_outline h4))⟩

theorem terms_labelled (h : Heck) (m : Model) : ((Terms.check h m ⟨[], []⟩).issues.map fun i => (i.reporter, i.level, i.message)) =
    ((Terms.check h m ⟨[], []⟩).issues.map (·.message)).map fun t => (Terms.label, .warning, t) := by
  rw [List.map_map]
  refine List.map_congr_left fun i hi => ?_
  rw [Terms.check_eq, Terms.steps_issues] at hi
  simp only [List.nil_append] at hi
  have : ∀ (l : List (ShapeID × Str)) c, i ∈ Terms.reports h c l → i.reporter = Terms.label ∧ i.level = .warning := by
    intro l
    induction l with
    | nil => intro c hi; cases hi
    | cons e l ih =>
      intro c hi
      rw [Terms.reports] at hi
      split at hi
      · exact ih _ hi
      · rcases List.mem_append.mp hi with hi | hi
        · obtain ⟨w, -, rfl⟩ := List.mem_map.mp hi
          exact ⟨rfl, rfl⟩
        · exact ih _ hi
  obtain ⟨h1, h2⟩ := this _ _ hi
  simp only [Function.comp_apply, h1, h2]

/-- C109: `validate` and `lint` print the same reports about the converted file as about the originals, but for their order, the wording of reports
about bad references, and the place a report of the terms linter is attached to (`SameFindings`), after what is printed while files are read. -/
theorem C109_reports (o : Outside C F) (hs : Sensible o) (ho : ReadsWell o) (fs : Path → Node C) (files : List Path) (sp : Option (List Path))
    (ns : Option Str) (m : Model) (ha : assembleModel o fs files sp = .ok m) (hf : FiniteModel m) (hq : Quiet o fs files sp)
    (hr : ∀ j, JsonWriter.modelToJson m = .ok j → JsonReadsBack o j) (w : World C) (p : Path) (ext : Str) (he : HasType p ext)
    (hx : lower ext = %s"json") (hp : Holds o w p (main o ⟨fs, []⟩ (.convert files none .json ns sp)).1.stdout) (color : Bool) :
    (∃ issues issues', (issues.map fun i : Issue => (i.reporter, i.level, i.locus)).Perm (issues'.map fun i => (i.reporter, i.level, i.locus)) ∧
      (main o ⟨fs, []⟩ (.validate files sp color)).1.stdout = reportActionIssues o.paint issues color ∧
      (main o w (.validate [p] none color)).1.stdout = w.stdout ++ assemblyPrints o w.fs [p] none ++ reportActionIssues o.paint issues' color) ∧
    (∃ issues issues', (issues.map fun i : Issue => (i.reporter, i.level, i.message)).Perm (issues'.map fun i => (i.reporter, i.level, i.message)) ∧
      (main o ⟨fs, []⟩ (.lint files sp color)).1.stdout = reportActionIssues o.paint issues color ∧
      (main o w (.lint [p] none color)).1.stdout = w.stdout ++ assemblyPrints o w.fs [p] none ++ reportActionIssues o.paint issues' color) := by
  obtain ⟨m', h1, -, h3⟩ := C109_pipeline o hs ho fs files sp ns m ha hf hq hr w p ext he hx hp
  obtain ⟨⟨i1, a1, a2⟩, l1, b1, b2⟩ := C90_printed o ⟨fs, []⟩ files sp color m ha
  obtain ⟨⟨i2, c1, c2⟩, l2, d1, d2⟩ := C90_printed o w [p] none color m' h1
  rw [C93_quiet o ho fs files sp hq] at a2 b2
  refine ⟨⟨i1, i2, ?_, by rw [a2]; rfl, by rw [c2]⟩, ⟨l1, l2, ?_, by rw [b2]; rfl, by rw [d2]⟩⟩
  · rw [validation_eq] at a1 c1
    cases a1; cases c1
    rw [List.map_append, List.map_append]
    exact (h3.unresolved.map _).append h3.references
  · rw [lint_eq] at b1 d1
    cases b1; cases d1
    rw [List.map_append, List.map_append]
    refine (h3.naming.map _).append ?_
    rw [terms_labelled, terms_labelled]
    exact h3.terms.map _

/-- C109: converting a file with the JSON of a conversion to JSON again prints the same JSON, after what is printed while files are read. -/
theorem C109_again (o : Outside C F) (hs : Sensible o) (ho : ReadsWell o) (hk : ∀ j j', SameJson j j' → o.prettyJson j = o.prettyJson j')
    (fs : Path → Node C) (files : List Path) (sp : Option (List Path))
    (ns : Option Str) (m : Model) (ha : assembleModel o fs files sp = .ok m) (hf : FiniteModel m) (hq : Quiet o fs files sp)
    (hr : ∀ j, JsonWriter.modelToJson m = .ok j → JsonReadsBack o j) (w : World C) (p : Path) (ext : Str) (he : HasType p ext)
    (hx : lower ext = %s"json") (hp : Holds o w p (main o ⟨fs, []⟩ (.convert files none .json ns sp)).1.stdout) (ns' : Option Str) :
    main o w (.convert [p] none .json ns' none) =
      (⟨w.fs, w.stdout ++ assemblyPrints o w.fs [p] none ++ (main o ⟨fs, []⟩ (.convert files none .json ns sp)).1.stdout⟩, .success) := by
  obtain ⟨j, h1, h2⟩ := converted o ho fs files sp ns m ha hf hq
  obtain ⟨hw, hv⟩ := assembled_valid o ho fs files sp m ha
  rw [h2] at hp ⊢
  obtain ⟨m', j', h3, -, h5, h6, h7, h8⟩ := reassembled o hs ho m hw hv hf j h1 (hr j h1) w p ext he hx hp
  obtain ⟨i, h9, h10⟩ := (C89_json o w [p] none ns' m' h3 h7).1 h8
  rw [h5] at h9
  cases h9
  rw [h10, hk j j' h6]

/-- C109: converting any files to the IDL of a namespace and working on the output: commands accept it, and what they work on is what a text of the IDL
keeps of the model (`ReadBack`, C51). -/
theorem C109_smithy (o : Outside C F) (hs : Sensible o) (ho : ReadsWell o) (fs : Path → Node C) (files : List Path) (sp : Option (List Path))
    (ns : Str) (m : Model) (ha : assembleModel o fs files sp = .ok m) (hm : WritableModel o.fmt o.flt m ns) (hq : Quiet o fs files sp)
    (hu : ∀ s, o.utf8 (o.encode s) = some s) (w : World C) (p : Path) (ext : Str) (he : HasType p ext) (hx : lower ext = %s"smithy")
    (hp : Holds o w p (main o ⟨fs, []⟩ (.convert files none .smithy (some ns) sp)).1.stdout) :
    ∃ m', assembleModel o w.fs [p] none = .ok m' ∧ ReadBack m ns m' ∧
      ((∀ id s, m.shape id = some s → s.body = .unresolved ∨ id.ns = ns) → (∀ id s x, m.shape id = some s → s.body ≠ .set x) → SameFindings o.heck m m') := by
  have hn : IsNamespace ns := by
    obtain ⟨parts, h1, h2, h3⟩ := hm.nsText
    exact ⟨parts, h1, fun x hx => IdlParser.ident_isIdentifier (h2 x hx), h3⟩
  have h1 := (C89_smithy o ⟨fs, []⟩ files sp ns m ha).1 hn
  rw [h1, C93_quiet o ho fs files sp hq] at hp
  obtain ⟨m', h2, h3, -⟩ := C51_round_trip o.fmt o.flt o.enum ho.enum m ns hm
  refine ⟨m', ?_, h3, fun g1 g2 => ?_⟩
  · rw [assemble_single o hs w.fs p _ hp ext he (smithyReader o) (.inr ⟨hx, rfl⟩)]
    simp only [smithyReader, hu]
    exact h2
  · obtain ⟨m'', h4, h5⟩ := C106_idl o.heck o.fmt o.flt o.enum ho.enum m ns hm g1 g2
    rw [h2] at h4
    cases h4
    exact h5

/-! ### A concrete case -/

/-- What `exSmithy` assembles, as JSON, and with the entries in another order. -/
def exPiped : Json := .object [(%s"smithy", .string %s"1.0"), (%s"shapes", .object [(%s"ex#S", .object [(%s"type", .string %s"string")])])]

def exTurned : Json := .object [(%s"shapes", .object [(%s"ex#S", .object [(%s"type", .string %s"string")])]), (%s"smithy", .string %s"1.0")]

def exPipes : Outside Str Unit := { exOutside with parseJson := fun c => if c = %s"{ }" then some exTurned else none }

/-- The file `a.smithy`, and the output of its conversion in `p.json`. -/
def exPipedWorld : World Str where
  fs p := if p = [%s"a.smithy"] then .file (some %s"namespace ex\nstring S\n") else if p = [%s"p.json"] then .file (some %s"{ }") else .other
  stdout := []

theorem exPipes_assembles : assembleModel exPipes exPipedWorld.fs [[%s"a.smithy"]] none =
    .ok ⟨.v10, [], [(⟨%s"ex", %s"S", none⟩, ⟨⟨%s"ex", %s"S", none⟩, [], .simple .string⟩)]⟩ := by
  rw [assemble_single exPipes ⟨nofun, nofun, fun _ => .refl _⟩ exPipedWorld.fs [%s"a.smithy"] %s"namespace ex\nstring S\n" rfl %s"smithy"
    ⟨[], _, rfl, %s"a", nofun, rfl, by decide⟩ (smithyReader exPipes) (.inr ⟨by decide, rfl⟩)]
  rfl

/-- The hypotheses of `C109_pipeline`, `C109_reports` and `C109_again` are met. -/
example : ReadsWell exPipes ∧ FiniteModel ⟨.v10, [], [(⟨%s"ex", %s"S", none⟩, ⟨⟨%s"ex", %s"S", none⟩, [], .simple .string⟩)]⟩ ∧
    Quiet exPipes exPipedWorld.fs [[%s"a.smithy"]] none ∧
    (∀ j, JsonWriter.modelToJson ⟨.v10, [], [(⟨%s"ex", %s"S", none⟩, ⟨⟨%s"ex", %s"S", none⟩, [], .simple .string⟩)]⟩ = .ok j → JsonReadsBack exPipes j) ∧
    HasType [%s"p.json"] %s"json" ∧ Holds exPipes exPipedWorld [%s"p.json"] (main exPipes ⟨exPipedWorld.fs, []⟩ (.convert [[%s"a.smithy"]] none .json none none)).1.stdout := by
  have hread : ReadsWell exPipes := by
    refine ⟨fun c j h => ?_, exOutside_reads.enum, exOutside_reads.order⟩
    simp only [exPipes] at h
    split at h
    · cases h
      refine .object (by simp [AMap.Wf, AMap.keys]) fun e he => ?_
      simp only [List.mem_cons, List.not_mem_nil, or_false] at he
      rcases he with rfl | rfl
      · refine .object (by simp [AMap.Wf, AMap.keys]) fun e he => ?_
        cases List.mem_singleton.mp he
        refine .object (by simp [AMap.Wf, AMap.keys]) fun e he => ?_
        cases List.mem_singleton.mp he
        exact .string
      · exact .string
    · cases h
  have hfin : FiniteModel ⟨.v10, [], [(⟨%s"ex", %s"S", none⟩, ⟨⟨%s"ex", %s"S", none⟩, [], .simple .string⟩)]⟩ := by
    refine ⟨nofun, fun id s h => ?_⟩
    unfold Model.shape at h
    simp only [AMap.get_cons, AMap.get_nil] at h
    split at h
    · cases h; exact ⟨nofun, trivial⟩
    · cases h
  have hq : Quiet exPipes exPipedWorld.fs [[%s"a.smithy"]] none := by
    intro p q c ext j hp hu he hx hj
    have : p = [%s"a.smithy"] := by
      rcases hp with hp | ⟨l, hl, -⟩
      · simpa using hp
      · cases hl
    subst this
    cases hu
    cases hj
  refine ⟨hread, hfin, hq, fun j hj => ?_, ⟨[], _, rfl, %s"p", nofun, rfl, by decide⟩, ?_⟩
  · have : JsonWriter.modelToJson ⟨.v10, [], [(⟨%s"ex", %s"S", none⟩, ⟨⟨%s"ex", %s"S", none⟩, [], .simple .string⟩)]⟩ = .ok exPiped := rfl
    rw [this] at hj
    cases hj
    refine ⟨exTurned, rfl, JsonWriter.sameJson_object fun k => ?_⟩
    have hone : SameJson (.object [(%s"ex#S", .object [(%s"type", .string %s"string")])]) (.object [(%s"ex#S", .object [(%s"type", .string %s"string")])]) := by
      refine JsonWriter.sameJson_object fun k => ?_
      simp only [AMap.get_cons, AMap.get_nil]
      split
      · refine .some (JsonWriter.sameJson_object fun k => ?_)
        simp only [AMap.get_cons, AMap.get_nil]
        split
        · exact .some .string
        · exact .none
      · exact .none
    simp only [AMap.get_cons, AMap.get_nil]
    by_cases h1 : %s"smithy" = k
    · subst h1; exact .some .string
    · by_cases h2 : %s"shapes" = k
      · subst h2; exact .some hone
      · simp only [if_neg h1, if_neg h2]; exact .none
  · obtain ⟨j, -, h⟩ := converted exPipes hread exPipedWorld.fs [[%s"a.smithy"]] none none _ exPipes_assembles hfin hq
    rw [h]
    rfl

end Cli
end Verif
