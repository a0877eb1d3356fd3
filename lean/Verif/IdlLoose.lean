/-
C96: which texts in the Smithy IDL are read, and as what.
-/
import Verif.IdlLooseFiles
import Verif.IdlLayout

namespace Verif
open Peg Spec Spec.Idl

theorem hasVersion_of {f : File} {v : Version} (h : IdlParser.versionOf (AMap.ofList f.control) = .ok v) : f.HasVersion v := by
  unfold IdlParser.versionOf at h
  split at h
  · next t e =>
    unfold Version.fromStr at h
    split at h
    · next ht => cases h; exact .given e ht
    · cases h
  · next e =>
    cases h
    exact .default fun t ht => e t ht

/-- C96: whatever text is read as a builder is the text of a file, and the builder is the one for what is in the file. -/
theorem C96_read (flt : Str → Option F64) (s : Str) (mb : ModelBuilder) (h : readBuilder flt s = .ok (some mb)) :
    ∃ f v, Loose.FileText flt f s ∧ f.HasVersion v ∧ mb = f.builder v := by
  obtain ⟨control, metadata, v, hv, ⟨e, -⟩ | ⟨ns, uses, shapes, h1, h2⟩⟩ := readBuilder_says h
  · cases e
  · injection h2 with h2
    exact ⟨_, v, h1, hasVersion_of hv, h2⟩

theorem looseStatements_names {flt : Str → Option F64} {bs : List Builder} {s : Str} (h : Loose.Spaced (Loose.StatementText flt) bs s) :
    ∀ b ∈ bs, ∃ n, b.name = .local' n ∧ b.body ≠ .reference := by
  intro b hb
  obtain ⟨t, hs⟩ := spaced_mem h b hb
  obtain ⟨-, -, hbody⟩ := hs
  refine ⟨_, rfl, ?_⟩
  rintro rfl
  generalize e : BuilderBody.reference = k at hbody
  cases hbody with
  | object _ _ _ ho => cases ho <;> cases e
  | _ => cases e

/-- C96: the model of a text. Either there is no namespace in the text, only control statements and metadata, and the model is empty;
or the text is that of a file, and the model is the one that is built from what is in the file: with its version and its metadata; with
the shape of each statement, when no other statement has its name and no import ends in it; and, when no import ends in the name of a
statement, it defines no shapes other than those of the statements. -/
theorem C96_models (flt : Str → Option F64) (enum : List ShapeID → List ShapeID) (he : Enumerates enum) (s : Str) (m : Model) (h : parseModel flt enum s = .ok m) :
    (m = Model.new .v10 ∧ ∃ control metadata c d, Loose.Spaced (Loose.FrontText flt %s"$" %s":") control c ∧
      Loose.Spaced (Loose.FrontText flt %s"metadata" %s"=") metadata d ∧ s = c ++ d) ∨
    ∃ f v, Loose.FileText flt f s ∧ f.HasVersion v ∧ (f.builder v).build enum = .ok m ∧ m.metadata = AMap.ofList f.metadata ∧ m.version = v ∧
      (∀ (b : Builder) (n : Str), b ∈ f.shapes → b.name = .local' n → (∀ b' ∈ f.shapes, b'.name = .local' n → b' = b) →
        (∀ id ∈ f.uses, ¬ SameName id.name n) → ∃ x, m.shape ⟨f.ns, n, none⟩ = some x ∧ BuildsShape (f.builder v) b x) ∧
      ((∀ b ∈ f.shapes, ∀ n, b.name = .local' n → ∀ id ∈ f.uses, ¬ SameName id.name n) →
        ∀ id, Defines m id ↔ id.ns = f.ns ∧ id.member = none ∧ ∃ b ∈ f.shapes, b.name = .local' id.name) := by
  unfold parseModel at h
  obtain ⟨x, h1, h2⟩ := ok_of_bind h
  obtain ⟨control, metadata, v, hv, ⟨rfl, c, d, i1, i2, i3⟩ | ⟨ns, uses, shapes, i1, rfl⟩⟩ := readBuilder_says h1
  · cases h2
    exact .inl ⟨rfl, control, metadata, c, d, i1, i2, i3⟩
  · refine .inr ⟨⟨control, metadata, ns, uses, shapes⟩, v, i1, hasVersion_of hv, h2, ?_⟩
    obtain ⟨_, hff⟩ := readBuilder_fromFile h1
    have hwf := hff.2.2.2.wf
    have hst : ∃ b, Loose.Spaced (Loose.StatementText flt) shapes b := by obtain ⟨_, _, _, _, _, hx⟩ := i1; exact ⟨_, hx⟩
    obtain ⟨b, hst⟩ := hst
    have hnames := looseStatements_names hst
    obtain ⟨j1, j2, j3⟩ := file_shapes he hwf hnames h2
    refine ⟨j1, j2, j3, ?_⟩
    intro hno id
    rw [C26_defines_iff _ hwf enum he m h2 id]
    have entries := file_entries ⟨control, metadata, ns, uses, shapes⟩ v
    have local_iff : ∀ n, (∃ x, ((⟨control, metadata, ns, uses, shapes⟩ : File).builder v).shapes.get (.local' n) = some x) ↔ ∃ b ∈ shapes, b.name = .local' n := by
      intro n
      constructor
      · rintro ⟨x, hx⟩
        rcases entries _ _ hx with ⟨_, _, e, -⟩ | ⟨hm, e⟩
        · cases e
        · exact ⟨x, hm, e.symm⟩
      · rintro ⟨b, hb, e⟩
        have hmem : (ShapeName.local' n) ∈ ((uses.map fun id => ((ShapeName.qualified id, (⟨.qualified id, [], .reference⟩ : Builder)))) ++ shapes.map fun b => (b.name, b)).map (·.1) :=
          List.mem_map.mpr ⟨(b.name, b), List.mem_append.mpr (.inr (List.mem_map.mpr ⟨b, hb, rfl⟩)), e⟩
        cases hg : ((⟨control, metadata, ns, uses, shapes⟩ : File).builder v).shapes.get (.local' n) with
        | some x => exact ⟨x, rfl⟩
        | none =>
          exfalso
          change AMap.get (AMap.ofList _) _ = none at hg
          rw [AMap.get_ofList, ← AMap.not_mem_keys_iff] at hg
          apply hg
          simpa [AMap.keys] using hmem
    have noimp : ∀ n id, (∃ b ∈ shapes, b.name = .local' n) → ¬ Imports ((⟨control, metadata, ns, uses, shapes⟩ : File).builder v) n id := by
      rintro n id ⟨b, hb, e⟩ ⟨x, hx, -, hn⟩
      rcases entries _ _ hx with ⟨id', hid', e', -⟩ | ⟨hm, e'⟩
      · cases e'
        exact hno b hb n e _ hid' hn
      · obtain ⟨k, hk, -⟩ := hnames x hm
        rw [hk] at e'
        cases e'
    constructor
    · rintro ⟨hm, n, x, hx, hr, new, ht⟩
      rcases entries _ _ hx with ⟨_, _, -, e⟩ | ⟨hxm, e⟩
      · rw [e] at hr; exact absurd rfl hr
      · obtain ⟨k, hk, -⟩ := hnames x hxm
        rw [e, hk] at ht
        have hd : ∃ b ∈ shapes, b.name = .local' k := ⟨x, hxm, hk⟩
        cases ht with
        | imported hi _ => exact absurd hi (noimp k _ hd)
        | defined _ _ => exact ⟨rfl, rfl, hd⟩
        | prelude _ hnd _ => exact absurd ((local_iff k).mpr hd) hnd
        | unknown _ hnd _ => exact absurd ((local_iff k).mpr hd) hnd
    · rintro ⟨q1, q2, hd⟩
      obtain ⟨x, hx⟩ := (local_iff id.name).mpr hd
      refine ⟨q2, .local' id.name, x, hx, ?_, false, ?_⟩
      · rcases entries _ _ hx with ⟨_, _, e, -⟩ | ⟨hxm, e⟩
        · cases e
        · obtain ⟨k, -, hk⟩ := hnames x hxm; exact hk
      · obtain ⟨ns', n, mm⟩ := id
        simp only at q1 q2 hd hx
        subst q1 q2
        exact .defined (fun id => noimp n id hd) ⟨x, hx⟩

/-- A text where much blank text is left out: it is read. -/
def tightText : Str := %s"metadata a=1metadata b=[2x]namespacea.b stringS/// d\nstructureT{m:S,x:String}"

example : ∃ mb, readBuilder (fun _ => none) tightText = .ok (some mb) := ⟨_, rfl⟩

/-- It is the text of a file. -/
example : ∃ f v, Loose.FileText (fun _ => none) f tightText ∧ f.HasVersion v ∧
    readBuilder (fun _ => none) tightText = .ok (some (f.builder v)) := by
  obtain ⟨mb, h⟩ : ∃ mb, readBuilder (fun _ => none) tightText = .ok (some mb) := ⟨_, rfl⟩
  obtain ⟨f, v, h1, h2, rfl⟩ := C96_read _ _ _ h
  exact ⟨f, v, h1, h2, h⟩

example : ∃ m, parseModel (fun _ => none) id tightText = .ok m := ⟨_, rfl⟩

end Verif
