/-
C95: texts of the Smithy IDL in any layout are read as what they say.
-/
import Verif.IdlLayoutFiles

namespace Verif
open Peg Spec Spec.Idl
open IdlGrammar (r)

/-- C95: a text of a file, in whatever layout, is read as the model that is built for what is in the file. -/
theorem C95_read (flt : Str → Option F64) (enum : List ShapeID → List ShapeID) (f : File) (s : Str) (v : Version) (h : FileText flt f s) (hv : f.HasVersion v) :
    readBuilder flt s = .ok (some (f.builder v)) ∧ parseModel flt enum s = (f.builder v).build enum := by
  have hver : IdlParser.versionOf (AMap.ofList f.control) = .ok v := by
    unfold IdlParser.versionOf
    cases hv with
    | given h1 h2 =>
      rw [h1]
      exact if_pos h2
    | default h =>
      split
      · rename_i t e; exact absurd e (h t)
      · rfl
  have hr : readBuilder flt s = .ok (some (f.builder v)) := by
    rw [readBuilder_any h, hver, ← file_builder]
    rfl
  refine ⟨hr, ?_⟩
  unfold parseModel
  rw [hr]
  rfl

/-- C95: another text as the version is an error, whatever else is in the file. -/
theorem C95_version (flt : Str → Option F64) (enum : List ShapeID → List ShapeID) (f : File) (s t : Str) (h : FileText flt f s)
    (hv : AMap.get (AMap.ofList f.control) %s"version" = some (.string t)) (h1 : t ≠ %s"1") (h2 : t ≠ %s"1.0") :
    parseModel flt enum s = .error (.invalidVersionNumber (some t)) := by
  have hver : IdlParser.versionOf (AMap.ofList f.control) = .error (.invalidVersionNumber (some t)) := by
    unfold IdlParser.versionOf
    rw [hv]
    exact if_neg (by rintro (h | h); exact h1 h; exact h2 h)
  unfold parseModel
  rw [readBuilder_any h, hver]
  rfl

/-- C95: the layout does not matter: two texts of the same file are read alike. -/
theorem C95_layout (flt : Str → Option F64) (enum : List ShapeID → List ShapeID) (f : File) (s s' : Str) (h : FileText flt f s) (h' : FileText flt f s') :
    parseModel flt enum s = parseModel flt enum s' := by
  unfold parseModel
  rw [readBuilder_any h, readBuilder_any h']

/-- C95: without a namespace, control statements and metadata are read as the empty model. -/
theorem C95_front (flt : Str → Option F64) (enum : List ShapeID → List ShapeID) (control metadata : List (Str × Value)) (w c m : Str) (hw : Blank w)
    (hc : SectionText flt %s"$" %s":" control c) (hm : SectionText flt %s"metadata" %s"=" metadata m) :
    ((∀ t, AMap.get (AMap.ofList control) %s"version" = some (.string t) → t = %s"1" ∨ t = %s"1.0") →
      parseModel flt enum (w ++ c ++ m) = .ok (Model.new .v10)) ∧
    ∀ t, AMap.get (AMap.ofList control) %s"version" = some (.string t) → t ≠ %s"1" → t ≠ %s"1.0" →
      parseModel flt enum (w ++ c ++ m) = .error (.invalidVersionNumber (some t)) := by
  have heoi : Eats .eoi [] [] (fun _ => True) := ⟨[], _, .eoi, trivial⟩
  have hsec := Eats.normal (r := .shapeSection) rfl (Eats.optNone (a := r .namespaceStatement ~> (.opt (r .useSection) ~> .opt (r .shapeStatements))) (fails_nil (by decide)))
  have hr := read_front (o := fun v => .ok none) rfl ((front_any (u := []) hw hc hm (ws_none (by intro c h e; cases e)) rfl rfl (hsec.seq heoi)).mono (by
    rintro _ ⟨p, q, _, rfl, h1, h2, h3, h4, _, z, rfl, ⟨t, _, rfl, rfl⟩, -⟩
    exact ⟨p, q, _, rfl, h1, h2, h3, h4, _, _, rfl, rfl, fun v => rfl⟩))
  have e : w ++ (c ++ (m ++ [])) = w ++ c ++ m := by simp
  rw [e] at hr
  unfold parseModel
  rw [hr]
  unfold IdlParser.versionOf
  constructor
  · intro h
    split
    · rename_i t e
      rw [show Version.fromStr t = .ok .v10 from if_pos (h t e)]
      rfl
    · rfl
  · intro t e h1 h2
    rw [e]
    simp only
    rw [show Version.fromStr t = .error (.invalidVersionNumber (some t)) from if_neg (by rintro (h | h); exact h1 h; exact h2 h)]
    rfl

theorem ofList_mem {K V : Type} [DecidableEq K] {l : List (K × V)} {k : K} {v : V} (h : AMap.get (AMap.ofList l) k = some v) : (k, v) ∈ l := by
  rw [AMap.get_ofList] at h
  exact List.mem_reverse.mp (AMap.mem_of_get h)

theorem ofList_only {K V : Type} [DecidableEq K] {l : List (K × V)} {k : K} {v : V} (h : (k, v) ∈ l) (hu : ∀ v', (k, v') ∈ l → v' = v) :
    AMap.get (AMap.ofList l) k = some v := by
  cases hg : AMap.get (AMap.ofList l) k with
  | some v' => rw [hu v' (ofList_mem hg)]
  | none =>
    rw [AMap.get_ofList, ← AMap.not_mem_keys_iff] at hg
    exact absurd (List.mem_map.mpr ⟨(k, v), List.mem_reverse.mpr h, rfl⟩) hg

theorem statements_names {flt : Str → Option F64} {bs : List Builder} {s : Str} (h : StatementsText flt bs s) : ∀ b ∈ bs, ∃ n, b.name = .local' n ∧ b.body ≠ .reference := by
  have one : ∀ {b t}, StatementText flt b t → ∃ n, b.name = .local' n ∧ b.body ≠ .reference := by
    rintro _ _ ⟨-, -, hb⟩
    refine ⟨_, rfl, ?_⟩
    cases hb with
    | object _ _ _ ho => cases ho <;> exact (fun e => by cases e)
    | _ => exact (fun e => by cases e)
  induction h with
  | nil => intro b hb; cases hb
  | last h _ => intro b hb; simp only [List.mem_singleton] at hb; subst hb; exact one h
  | cons h _ _ _ ih =>
    intro b hb
    rcases List.mem_cons.mp hb with rfl | hb
    · exact one h
    · exact ih b hb

/-- What is in the builder of a file. -/
theorem file_entries (f : File) (v : Version) : ∀ k x, (f.builder v).shapes.get k = some x →
    (∃ id ∈ f.uses, k = .qualified id ∧ x = ⟨.qualified id, [], .reference⟩) ∨ (x ∈ f.shapes ∧ k = x.name) := by
  intro k x hx
  rcases List.mem_append.mp (ofList_mem hx) with hx | hx
  · obtain ⟨id, hid, e⟩ := List.mem_map.mp hx
    cases e
    exact .inl ⟨id, hid, rfl, rfl⟩
  · obtain ⟨y, hy, e⟩ := List.mem_map.mp hx
    cases e
    exact .inr ⟨hy, rfl⟩

/-- What the model built from a file holds. -/
theorem file_shapes {enum : List ShapeID → List ShapeID} (he : Enumerates enum) {f : File} {m : Model} {v : Version} (hwf : WfBuilder (f.builder v))
    (hnames : ∀ b ∈ f.shapes, ∃ n, b.name = .local' n ∧ b.body ≠ .reference) (hb : (f.builder v).build enum = .ok m) :
    m.metadata = AMap.ofList f.metadata ∧ m.version = v ∧
      ∀ (b : Builder) (n : Str), b ∈ f.shapes → b.name = .local' n → (∀ b' ∈ f.shapes, b'.name = .local' n → b' = b) →
        (∀ id ∈ f.uses, ¬ SameName id.name n) → ∃ x, m.shape ⟨f.ns, n, none⟩ = some x ∧ BuildsShape (f.builder v) b x := by
  obtain ⟨-, h1, h2, -⟩ := C25_built_model _ hwf enum he m hb
  refine ⟨h2, h1, ?_⟩
  intro b n hbm hbn huniq huses
  have entries := file_entries f v
  have hget : (f.builder v).shapes.get (.local' n) = some b := by
    refine ofList_only (List.mem_append.mpr (.inr (List.mem_map.mpr ⟨b, hbm, by rw [hbn]⟩))) ?_
    intro w hv'
    rcases List.mem_append.mp hv' with hv' | hv'
    · obtain ⟨id, -, e⟩ := List.mem_map.mp hv'
      cases e
    · obtain ⟨y, hy, e⟩ := List.mem_map.mp hv'
      injection e with e1 e2
      subst e2
      exact huniq y hy e1
  have hnoimp : ∀ n' id, Imports (f.builder v) n' id → ¬ SameName id.name n := by
    rintro n' id ⟨x, hx, -, -⟩
    rcases entries _ _ hx with ⟨id', hid', e, -⟩ | ⟨hm, e⟩
    · cases e
      exact huses _ hid'
    · obtain ⟨k, hk, -⟩ := hnames x hm
      rw [hk] at e
      cases e
  have hbody : b.body ≠ .reference := by obtain ⟨k, -, hk⟩ := hnames b hbm; exact hk
  refine C25_entry_built _ hwf enum he m hb (.local' n) b ⟨f.ns, n, none⟩ hget (.inr ⟨hbody, ?_⟩) (.inl rfl) ?_
  · rw [hbn]
    refine ⟨false, .defined (fun id hi => ?_) ⟨b, hget⟩⟩
    obtain ⟨x, h1, h2, h3⟩ := hi
    exact hnoimp n id ⟨x, h1, h2, h3⟩ h3
  · intro n' b' hn' hid
    rcases hid with ⟨hr, hq⟩ | ⟨hnr, new, ht⟩
    · exfalso
      have hk := hwf.key n' b' hn'
      rw [← hk, hq] at hn'
      exact hnoimp n ⟨f.ns, n, none⟩ ⟨b', hn', hr, rfl⟩ rfl
    · rcases entries _ _ hn' with ⟨id, -, -, e⟩ | ⟨hm, e⟩
      · rw [e] at hnr
        exact absurd rfl hnr
      · obtain ⟨k, hk, -⟩ := hnames b' hm
        rw [e]
        rw [hk] at ht ⊢
        generalize hj : (⟨f.ns, n, none⟩ : ShapeID) = j at ht
        cases ht with
        | imported hi _ =>
          subst hj
          exact absurd rfl (hnoimp _ _ hi)
        | defined _ _ => cases hj; rfl
        | prelude _ hnd _ => exact absurd ⟨b', by rw [← hk, ← e]; exact hn'⟩ hnd
        | unknown _ hnd _ => cases hj; rfl

/-- C95: the model that is read has the version and the metadata of the file; and a shape statement, when no other statement has
its name and no import ends in it, is the shape with that name in the namespace of the file, with the body and the traits of the statement. -/
theorem C95_shapes (flt : Str → Option F64) (enum : List ShapeID → List ShapeID) (he : Enumerates enum) (f : File) (s : Str) (m : Model)
    (h : FileText flt f s) (hp : parseModel flt enum s = .ok m) :
    m.metadata = AMap.ofList f.metadata ∧ ∃ v, f.HasVersion v ∧ m.version = v ∧
      ∀ (b : Builder) (n : Str), b ∈ f.shapes → b.name = .local' n → (∀ b' ∈ f.shapes, b'.name = .local' n → b' = b) →
        (∀ id ∈ f.uses, ¬ SameName id.name n) → ∃ x, m.shape ⟨f.ns, n, none⟩ = some x ∧ BuildsShape (f.builder v) b x := by
  have hv : f.HasVersion .v10 := by
    by_cases hx : ∃ t, AMap.get (AMap.ofList f.control) %s"version" = some (.string t)
    · obtain ⟨t, ht⟩ := hx
      by_cases h1 : t = %s"1" ∨ t = %s"1.0"
      · exact .given ht h1
      · rw [C95_version flt enum f s t h ht (fun e => h1 (.inl e)) (fun e => h1 (.inr e))] at hp
        cases hp
    · exact .default fun t ht => hx ⟨t, ht⟩
  obtain ⟨hr, hb⟩ := C95_read flt enum f s .v10 h hv
  rw [hp] at hb
  obtain ⟨ns, hff⟩ := readBuilder_fromFile hr
  have hwf : WfBuilder (f.builder .v10) := hff.2.2.2.wf
  obtain ⟨_, _, _, _, _, _, _, _, hst⟩ := h
  obtain ⟨h1, h2, h3⟩ := file_shapes he hwf (statements_names hst) hb.symm
  exact ⟨h1, .v10, hv, h2, h3⟩

/-! ### A text in an odd layout -/

/-- What is in the file. -/
def oddFile : File where
  control := [(%s"version", .string %s"1.0")]
  metadata := [(%s"k", .array [.number (.integer 1), .number (.integer 2), .string %s"x"])]
  ns := %s"a.b"
  uses := [⟨%s"c", %s"E", none⟩]
  shapes := [
    ⟨.local' %s"S", [⟨.qualified ⟨%s"smithy.api", %s"documentation", none⟩, some (.string %s"doc")⟩,
        ⟨.local' %s"t", some (.object [(%s"a", .number (.integer 1)), (%s"b", .object [])])⟩],
      .struct [⟨%s"x", [], .local' %s"String"⟩, ⟨%s"y", [⟨.qualified ⟨%s"c", %s"E", none⟩, some (.object [])⟩], .local' %s"E"⟩]⟩,
    ⟨.local' %s"O", [], .operation (some (.local' %s"S")) none []⟩,
    ⟨.local' %s"T", [], .simple .string⟩]

/-- The text: comments, line ends of all kinds and commas in unusual places. -/
def oddText : Str :=
  %s"// a model\n" ++ %s"$version:\"1.0\" " ++ %s"metadata\tk =\n[1 2,x]\r\n" ++ %s"namespace a.b" ++ %s",use c#E" ++ %s"\n" ++
    %s"///  doc\r@t(a:1, \"b\" : {},) structure S{,x:String,@c#E\ty :E//end\n}operation O {input:S}string T"

theorem ident1 {c : Char} (h : c.isAlpha = true) : SmithyIdent [c] := .plain h (by simp)

theorem oddText_says (flt : Str → Option F64) : FileText flt oddFile oddText := by
  have sp : Blank [' '] := .char (by decide) .nil
  have comma : Blank [','] := .char (by decide) .nil
  have nl : Blank ['\n'] := .char (by decide) .nil
  have gap : ∀ {c : Char}, c ∈ [' ', '\t', '\n', '\r', ','] → Gap [c] := fun h => ⟨.char h .nil, by simp⟩
  have plain : ∀ {n : Str}, (∀ c ∈ n, CommentChar c ∧ c ≠ '/') → Blank ('/' :: '/' :: (n ++ ['\n'])) := fun h =>
    .comment (fun c hc => (h c hc).1) (fun v e => (h '/' (by rw [e]; simp)).2 rfl) (.inl rfl) .nil
  have int1 : ValueText flt (.number (.integer 1)) %s"1" := .integer (n := 1) (by unfold i64; decide)
  have int2 : ValueText flt (.number (.integer 2)) %s"2" := .integer (n := 2) (by unfold i64; decide)
  have nameX : ValueText flt (.string %s"x") %s"x" := .name (.bare (ident1 (by decide))) (by
    rintro k v hk hx
    cases hk <;> revert hx <;> decide)
  have nameS : ValueText flt (.string %s"S") %s"S" := .name (.bare (ident1 (by decide))) (by
    rintro k v hk hx
    cases hk <;> revert hx <;> decide)
  have version : SectionText flt %s"$" %s":" oddFile.control %s"$version:\"1.0\" " :=
    .cons (w := []) (e := ⟨%s"version", [], [], .string %s"1.0", %s"\"1.0\"", [' ']⟩) .nil (.inr rfl) ⟨.inl (.plain (by decide) (by decide)), .nil, .nil⟩
      (.quoted (u := %s"1.0") (.plain (by unfold PlainChar; decide) (.plain (by unfold PlainChar; decide) (.plain (by unfold PlainChar; decide) .nil))))
      (gap (by decide)) .nil
  have array : ValueText flt (.array [.number (.integer 1), .number (.integer 2), .string %s"x"]) %s"[1 2,x]" :=
    .array (w := []) (is := [⟨.number (.integer 1), %s"1", [' ']⟩, ⟨.number (.integer 2), %s"2", [',']⟩, ⟨.string %s"x", %s"x", []⟩]) .nil
      (by
        intro i hi
        simp only [List.mem_cons, List.not_mem_nil, or_false] at hi
        rcases hi with rfl | rfl | rfl
        · exact int1
        · exact int2
        · exact nameX)
      ⟨by intro w hw; simp only [List.map_cons, List.map_nil, List.mem_cons, List.not_mem_nil, or_false] at hw; rcases hw with rfl | rfl | rfl; exact sp; exact comma; exact .nil,
        by decide⟩
  have meta' : SectionText flt %s"metadata" %s"=" oddFile.metadata %s"metadata\tk =\n[1 2,x]\r\n" :=
    .cons (w := ['\t']) (e := ⟨%s"k", [' '], ['\n'], _, %s"[1 2,x]", %s"\r\n"⟩) (gap (by decide)).1 (.inl (by simp)) ⟨.inl (ident1 (by decide)), sp, nl⟩ array
      ⟨.char (by decide) nl, by simp⟩ .nil
  have uses : UsesText oddFile.uses %s",use c#E" :=
    .cons (w := [',']) (w' := [' ']) ⟨⟨[%s"c"], by simp, by intro p hp; simp only [List.mem_singleton] at hp; subst hp; exact ident1 (by decide), rfl⟩, ident1 (by decide), rfl⟩
      (gap (by decide)) (gap (by decide)) .nil
  have trait : TraitText flt ⟨.local' %s"t", some (.object [(%s"a", .number (.integer 1)), (%s"b", .object [])])⟩ %s"@t(a:1, \"b\" : {},)" :=
    .members (w := []) (es := [⟨%s"a", [], [], _, %s"1", %s", "⟩, ⟨%s"\"b\"", [' '], [' '], .object [], %s"{}", [',']⟩]) (.bare (ident1 (by decide))) .nil
      ⟨(by
          intro e he
          simp only [List.mem_cons, List.not_mem_nil, or_false] at he
          rcases he with rfl | rfl
          · exact ⟨.inl (ident1 (by decide)), .nil, .nil⟩
          · exact ⟨.inr ⟨%s"b", .plain (by unfold PlainChar; decide) .nil, rfl⟩, sp, sp⟩),
        (by
          intro e he
          simp only [List.mem_cons, List.not_mem_nil, or_false] at he
          rcases he with rfl | rfl
          · exact int1
          · exact .object (w := []) (es := []) .nil (by simp) (by simp) ⟨by simp, by simp⟩),
        (by
          refine ⟨?_, by decide⟩
          intro w hw
          simp only [List.map_cons, List.map_nil, List.mem_cons, List.not_mem_nil, or_false] at hw
          rcases hw with rfl | rfl
          · exact .char (by decide) sp
          · exact comma)⟩
  have noPre : Preface flt [] [] := ⟨[], [], [], [], [], .nil, .none, .nil, rfl, rfl⟩
  have docs : Preface flt [⟨.qualified ⟨%s"smithy.api", %s"documentation", none⟩, some (.string %s"doc")⟩,
        ⟨.local' %s"t", some (.object [(%s"a", .number (.integer 1)), (%s"b", .object [])])⟩] %s"///  doc\r@t(a:1, \"b\" : {},) " := by
    refine ⟨[%s"  doc"], %s"///  doc\r", [⟨.qualified ⟨%s"smithy.api", %s"documentation", none⟩, some (.string %s"doc")⟩], _, %s"@t(a:1, \"b\" : {},) ", ?_, ?_,
      .cons (w := [' ']) (y := []) trait sp .nil (.inl (by simp)), rfl, rfl⟩
    · exact .cons (l := %s"  doc") (e := ['\r']) (w := []) (u := []) (by unfold CommentChar; decide) (.inr (.inr rfl)) .nil .nil
    · refine .some (texts := [%s"doc"]) (by simp) (.cons ⟨⟨%s"  ", rfl, ?_⟩, ?_⟩ .nil)
      · intro c hc
        simp only [List.mem_cons, List.not_mem_nil, or_false, or_self] at hc
        subst hc
        unfold WhiteSpace
        decide
      · intro c u e
        injection e with e _
        subst e
        unfold WhiteSpace
        decide
  have memX : MemberText flt ⟨%s"x", [], .local' %s"String"⟩ %s"x:String" :=
    .mk (p := []) (w := []) (w' := []) noPre (ident1 (by decide)) .nil .nil (.bare (.plain (by decide) (by decide)))
  have memY : MemberText flt ⟨%s"y", [⟨.qualified ⟨%s"c", %s"E", none⟩, some (.object [])⟩], .local' %s"E"⟩ %s"@c#E\ty :E" :=
    .mk (p := %s"@c#E\t") (w := [' ']) (w' := [])
      ⟨[], [], [], _, %s"@c#E\t", .nil, .none,
        .cons (x := %s"@c#E") (w := ['\t']) (y := []) (.plain (.absolute ⟨[%s"c"], by simp, by intro p hp; simp only [List.mem_singleton] at hp; subst hp; exact ident1 (by decide), rfl⟩ (ident1 (by decide))))
          (gap (by decide)).1 .nil (.inl (by simp)), rfl, rfl⟩
      (ident1 (by decide)) sp .nil (.bare (ident1 (by decide)))
  have members : MembersText flt [⟨%s"x", [], .local' %s"String"⟩, ⟨%s"y", [⟨.qualified ⟨%s"c", %s"E", none⟩, some (.object [])⟩], .local' %s"E"⟩]
      %s"{,x:String,@c#E\ty :E//end\n}" := by
    refine ⟨[','], [(_, %s"x:String", [',']), (_, %s"@c#E\ty :E", %s"//end\n")], comma, ?_, ⟨?_, by decide⟩, rfl, rfl⟩
    · intro i hi
      simp only [List.mem_cons, List.not_mem_nil, or_false] at hi
      rcases hi with rfl | rfl
      · exact memX
      · exact memY
    · intro w hw
      simp only [List.map_cons, List.map_nil, List.mem_cons, List.not_mem_nil, or_false] at hw
      rcases hw with rfl | rfl
      · exact comma
      · exact plain (n := %s"end") (by unfold CommentChar; decide)
  have object : ValueText flt (.object [(%s"input", .string %s"S")]) %s"{input:S}" :=
    .object (w := []) (es := [⟨%s"input", [], [], .string %s"S", %s"S", []⟩]) .nil
      (by intro e he; simp only [List.mem_singleton] at he; subst he; exact ⟨.inl (.plain (by decide) (by decide)), .nil, .nil⟩)
      (by intro e he; simp only [List.mem_singleton] at he; subst he; exact nameS) ⟨by intro w hw; simp only [List.map_cons, List.map_nil, List.mem_singleton] at hw; subst hw; exact .nil, by simp⟩
  have statements : StatementsText flt oddFile.shapes %s"///  doc\r@t(a:1, \"b\" : {},) structure S{,x:String,@c#E\ty :E//end\n}operation O {input:S}string T" := by
    refine .cons (t := %s"///  doc\r@t(a:1, \"b\" : {},) structure S{,x:String,@c#E\ty :E//end\n}") (w := []) (u := %s"operation O {input:S}string T")
      (.mk docs (ident1 (by decide)) (.struct (w := [' ']) (w' := []) (gap (by decide)) .nil members)) .nil (.inr rfl) ?_
    refine .cons (t := %s"operation O {input:S}") (w := []) (u := %s"string T")
      (.mk noPre (ident1 (by decide)) (.object (kw := %s"operation") (w := [' ']) (w' := [' ']) (gap (by decide)) sp object ?_)) .nil (.inr rfl) ?_
    · refine .operation ?_ (.inr ⟨_, _, rfl, rfl, _, rfl, .bare (IdlParser.ident_isIdentifier (ident1 (by decide)))⟩) (.inl ⟨rfl, rfl⟩) (.inl ⟨rfl, rfl⟩)
      intro k v hk
      have := AMap.mem_of_get hk
      simp only [List.mem_singleton, Prod.mk.injEq] at this
      rw [this.1]
      decide
    · exact .last (t := %s"string T") (w := []) (.mk noPre (ident1 (by decide)) (.simple (k := .string) (w := [' ']) (gap (by decide)))) .nil
  have dot : SmithyNamespace oddFile.ns := ⟨[%s"a", %s"b"], by simp, (by
    intro p hp; simp only [List.mem_cons, List.not_mem_nil, or_false] at hp; rcases hp with rfl | rfl <;> exact ident1 (by decide)), rfl⟩
  have all := FileText.mk (f := oddFile) (plain (n := %s" a model") (by unfold CommentChar; decide)) version meta' dot (gap (c := ' ') (by decide)) uses nl (.inl (by simp)) statements
  have e : oddText = '/' :: '/' :: (%s" a model" ++ ['\n']) ++ %s"$version:\"1.0\" " ++ %s"metadata\tk =\n[1 2,x]\r\n" ++ %s"namespace" ++ [' '] ++ oddFile.ns ++
      %s",use c#E" ++ ['\n'] ++ %s"///  doc\r@t(a:1, \"b\" : {},) structure S{,x:String,@c#E\ty :E//end\n}operation O {input:S}string T" := rfl
  rw [e]
  exact all

example (flt : Str → Option F64) (enum : List ShapeID → List ShapeID) : parseModel flt enum oddText = (oddFile.builder .v10).build enum :=
  (C95_read flt enum oddFile oddText .v10 (oddText_says flt) (.given rfl (.inr rfl))).2

example (flt : Str → Option F64) : ∃ m, parseModel flt id oddText = .ok m := by
  rw [(C95_read flt id oddFile oddText .v10 (oddText_says flt) (.given rfl (.inr rfl))).2]
  exact ⟨_, rfl⟩

end Verif
