/-
C51, C53, C55, C58 in full: when a written model comes back as it was; the metadata and the definitions of a text; names that start
like a keyword.
-/
import Verif.IdlLoose
import Verif.IdlProps
import Verif.IdlTexts
import Verif.IdlExamples

namespace Verif
open Peg Spec Spec.Idl
open IdlGrammar (r)

/-! ### C51 -/

theorem keptTraits_eq_iff {ts : Traits} : keptTraits ts = ts ↔ ExactTraits ts := by
  induction ts with
  | nil => simp [keptTraits, ExactTraits]
  | cons e ts ih =>
    obtain ⟨k, v⟩ := e
    simp only [keptTraits, List.map_cons, List.cons.injEq, Prod.mk.injEq, true_and] at ih ⊢
    rw [ih]
    have : some (keptValue v) = v ↔ ∃ x, v = some x ∧ x ≠ .none := by
      cases v with
      | none => simp
      | some x => cases x <;> simp [keptValue]
    rw [this]
    simp only [ExactTraits, List.mem_cons, forall_eq_or_imp]

theorem keptMembers_eq_iff {ms : AMap Str MemberShape} : (ms.map fun e => (e.1, keptMember e.2)) = ms ↔ ∀ e ∈ ms, ExactTraits e.2.traits := by
  induction ms with
  | nil => simp
  | cons e ms ih =>
    obtain ⟨k, x⟩ := e
    simp only [List.map_cons, List.cons.injEq, Prod.mk.injEq, true_and, List.mem_cons, forall_eq_or_imp] at ih ⊢
    rw [ih]
    refine and_congr_left fun _ => ?_
    rw [← keptTraits_eq_iff]
    obtain ⟨i, ts, t⟩ := x
    simp [keptMember]

theorem keptKind_eq_iff (k : ShapeKind) : keptKind k = k ↔ ExactKind k := by
  cases k with
  | simple s => exact ⟨fun _ => .simple, fun _ => rfl⟩
  | list x =>
    obtain ⟨i, ts, t⟩ := x
    simp only [keptKind, ShapeKind.list.injEq, MemberShape.mk.injEq, and_true]
    exact ⟨by rintro ⟨rfl, rfl⟩; exact .list, by rintro ⟨⟩; exact ⟨rfl, rfl⟩⟩
  | set x => exact ⟨fun h => (by cases h), fun h => (by cases h)⟩
  | map k v =>
    obtain ⟨i, ts, t⟩ := k
    obtain ⟨i', ts', t'⟩ := v
    simp only [keptKind, ShapeKind.map.injEq, MemberShape.mk.injEq, and_true]
    exact ⟨by rintro ⟨⟨rfl, rfl⟩, rfl, rfl⟩; exact .map, by rintro ⟨⟩; exact ⟨⟨rfl, rfl⟩, rfl, rfl⟩⟩
  | struct ms =>
    simp only [keptKind, ShapeKind.struct.injEq]
    rw [keptMembers_eq_iff]
    exact ⟨.struct, by rintro ⟨⟩; assumption⟩
  | union ms =>
    simp only [keptKind, ShapeKind.union.injEq]
    rw [keptMembers_eq_iff]
    exact ⟨.union, by rintro ⟨⟩; assumption⟩
  | service x =>
    obtain ⟨a, b, c, d⟩ := x
    simp only [keptKind, ShapeKind.service.injEq, Service.mk.injEq, true_and]
    exact ⟨fun h => .service h.symm, by rintro ⟨⟩; symm; assumption⟩
  | operation x => exact ⟨fun _ => .operation, fun _ => rfl⟩
  | resource x => exact ⟨fun _ => .resource, fun _ => rfl⟩
  | unresolved => exact ⟨fun _ => .unresolved, fun _ => rfl⟩

/-- Metadata whose keys get quotes is the same only if there is none. -/
theorem quoted_same {a b : AMap Str Value} (h : ∀ k' v, a.get k' = some v ↔ ∃ k, k' = '"' :: k ++ ['"'] ∧ b.get k = some v)
    (he : ∀ k, a.get k = b.get k) : b = [] := by
  have step : ∀ k, (b.get k).isSome → (b.get ('"' :: k ++ ['"'])).isSome := by
    intro k hk
    obtain ⟨v, hv⟩ := Option.isSome_iff_exists.mp hk
    rw [← he, (h _ v).mpr ⟨k, rfl, hv⟩]; rfl
  have long : ∀ n, ∀ k, (b.get k).isSome → ∃ k', (b.get k').isSome ∧ n ≤ k'.length := by
    intro n
    induction n with
    | zero => intro k hk; exact ⟨k, hk, Nat.zero_le _⟩
    | succ n ih =>
      intro k hk
      obtain ⟨k', h1, h2⟩ := ih k hk
      exact ⟨_, step k' h1, by simp only [List.cons_append, List.length_cons, List.length_append, List.length_nil]; omega⟩
  cases b with
  | nil => rfl
  | cons e b =>
    exfalso
    obtain ⟨k', h1, h2⟩ := long (1 + ((e :: b).map fun x => x.1.length).sum) e.1 (by obtain ⟨k, v⟩ := e; simp [AMap.get_cons])
    obtain ⟨v, hv⟩ := Option.isSome_iff_exists.mp h1
    have hm := AMap.mem_of_get hv
    have key : ∀ (l : List Nat) (n : Nat), n ∈ l → n ≤ l.sum := by
      intro l
      induction l with
      | nil => simp
      | cons a l ih =>
        intro n hn
        rw [List.sum_cons]
        rcases List.mem_cons.mp hn with rfl | hn
        · omega
        · have := ih n hn; omega
    have := key ((e :: b).map fun x => x.1.length) k'.length (List.mem_map.mpr ⟨(k', v), hm, rfl⟩)
    omega

/-- C51: a writable model is read back as the model `ReadBack` says, and this is the same model if and only if it has no metadata,
nothing of another namespace, no sets, no renames, no traits on the members of lists and maps, no traits without a value or with
null, and the members of its lists and maps have the names the text gives them. -/
theorem C51_same_iff (f : Fmt) (flt : Str → Option F64) (enum : List ShapeID → List ShapeID) (he : Enumerates enum)
    (m : Model) (ns : Str) (h : WritableModel f flt m ns) :
    ∃ m', parseModel flt enum (writeIdl f ns m) = .ok m' ∧ ReadBack m ns m' ∧
      (((∀ k, m'.metadata.get k = m.metadata.get k) ∧ ∀ id, m'.shape id = m.shape id) ↔ ExactModel m ns) := by
  obtain ⟨m', h1, h2, -⟩ := C51_round_trip f flt enum he m ns h
  refine ⟨m', h1, h2, ?_, ?_⟩
  · rintro ⟨h3, h4⟩
    have hk : ∀ id s, m.shape id = some s → (s.body = .unresolved ∨ id.ns = ns) ∧ kept s = s := by
      intro id s hs
      obtain ⟨s0, e, hn, hs'⟩ := (h2.shapes id s).mp ((h4 id).trans hs)
      rw [hs] at e; cases e
      exact ⟨hn, hs'.symm⟩
    have hp : ∀ s : TopLevelShape, kept s = s → keptTraits s.traits = s.traits ∧ keptKind s.body = s.body := by
      rintro ⟨i, ts, b⟩ e
      simp only [kept, TopLevelShape.mk.injEq, true_and] at e
      exact e
    exact ⟨quoted_same h2.metadata h3, fun id s hs => (hk id s hs).1, fun id s hs => keptTraits_eq_iff.mp (hp s (hk id s hs).2).1,
      fun id s hs => (keptKind_eq_iff _).mp (hp s (hk id s hs).2).2⟩
  · intro hx
    obtain ⟨m1, e, -, k2, k3⟩ := C51_same_model f flt enum he m ns h hx
    rw [h1] at e; cases e
    exact ⟨fun k => by rw [k2, hx.metadata], k3⟩

example (flt : Str → Option F64) : WritableModel exFmt flt exIdl %s"a" ∧ ExactModel exIdl %s"a" := ⟨exIdl_writable flt, exIdl_exact⟩

/-! ### C53 and C55 -/

/-- C53: the metadata and the version of a model that is read: either the text consists of control and metadata statements only, and the
model is empty; or the text is these statements and a namespace statement and more, and the metadata of the model is that of the
statements, of several for a key the last, with keys as they are written. -/
theorem C53_metadata (flt : Str → Option F64) (enum : List ShapeID → List ShapeID) (he : Enumerates enum) (s : Str) (m : Model)
    (h : parseModel flt enum s = .ok m) :
    ∃ control metadata c d, Loose.Spaced (Loose.FrontText flt %s"$" %s":") control c ∧
      Loose.Spaced (Loose.FrontText flt %s"metadata" %s"=") metadata d ∧
      ((s = c ++ d ∧ m = Model.new .v10) ∨
       ∃ rest, s = c ++ d ++ %s"namespace" ++ rest ∧ m.metadata = AMap.ofList metadata ∧
        ((∀ t, AMap.get (AMap.ofList control) %s"version" = some (.string t) → t = %s"1" ∨ t = %s"1.0") ∧ m.version = .v10)) := by
  rcases C96_models flt enum he s m h with ⟨rfl, control, metadata, c, d, h1, h2, h3⟩ | ⟨f, v, ⟨h1, h2, -, -, -, -⟩, hv, -, hm, hver, -⟩
  · exact ⟨control, metadata, c, d, h1, h2, .inl ⟨h3, rfl⟩⟩
  · refine ⟨_, _, _, _, h1, h2, .inr ⟨_, (by simp only [List.append_assoc]; rfl), hm, ?_, ?_⟩⟩
    · intro t ht
      cases hv with
      | given e hh => rw [ht] at e; cases e; exact hh
      | default hh => exact absurd ht (hh t)
    · rw [hver]

namespace Spec.Idl

/-- What the name of a statement of the file stands for: the import that ends in this name, up to case, if there is just one; the name
in the namespace of the file, if there is none. -/
inductive File.StandsFor (f : File) (n : Str) : ShapeID → Prop
  | imported {id} : id ∈ f.uses → SameName id.name n → (∀ id' ∈ f.uses, SameName id'.name n → id' = id) → StandsFor f n id
  | own : (∀ id ∈ f.uses, ¬ SameName id.name n) → StandsFor f n ⟨f.ns, n, none⟩

end Spec.Idl

theorem file_keys (f : File) (v : Version) (k : ShapeName) (hk : (∃ id ∈ f.uses, k = .qualified id) ∨ ∃ b ∈ f.shapes, b.name = k) :
    ∃ x, (f.builder v).shapes.get k = some x := by
  have hmem : k ∈ ((f.uses.map fun id => ((ShapeName.qualified id, (⟨.qualified id, [], .reference⟩ : Builder)))) ++ f.shapes.map fun b => (b.name, b)).map (·.1) := by
    rcases hk with ⟨id, hid, rfl⟩ | ⟨b, hb, e⟩
    · exact List.mem_map.mpr ⟨(.qualified id, _), List.mem_append.mpr (.inl (List.mem_map.mpr ⟨id, hid, rfl⟩)), rfl⟩
    · exact List.mem_map.mpr ⟨(b.name, b), List.mem_append.mpr (.inr (List.mem_map.mpr ⟨b, hb, rfl⟩)), e⟩
  cases hg : (f.builder v).shapes.get k with
  | some x => exact ⟨x, rfl⟩
  | none =>
    exfalso
    change AMap.get (AMap.ofList _) _ = none at hg
    rw [AMap.get_ofList, ← AMap.not_mem_keys_iff] at hg
    apply hg
    simpa [AMap.keys, or_comm] using hmem

/-- C55: the shapes that a model that is read defines are what the names of the statements of the text stand for: the name in
the namespace of the file, except for an import that ends in it, which is then what is defined. -/
theorem C55_defines (flt : Str → Option F64) (enum : List ShapeID → List ShapeID) (he : Enumerates enum) (s : Str) (m : Model)
    (h : parseModel flt enum s = .ok m) :
    (∀ id, ¬ Defines m id) ∨
    ∃ f, Loose.FileText flt f s ∧
      (∀ id, Defines m id ↔ ∃ b ∈ f.shapes, ∃ n, b.name = .local' n ∧ f.StandsFor n id) ∧
      ∀ b ∈ f.shapes, ∀ n, b.name = .local' n → ∃ id, f.StandsFor n id := by
  unfold parseModel at h
  obtain ⟨x, h1, hb⟩ := ok_of_bind h
  obtain ⟨control, metadata, v, hv, ⟨rfl, c, d, i1, i2, i3⟩ | ⟨ns, uses, shapes, hf, rfl⟩⟩ := readBuilder_says h1
  · cases hb
    exact .inl (by rintro id ⟨x, hx, -⟩; cases hx)
  obtain ⟨_, hff⟩ := readBuilder_fromFile h1
  have hwf := hff.2.2.2.wf
  generalize (⟨control, metadata, ns, uses, shapes⟩ : File) = f at *
  change (f.builder v).build enum = .ok m at hb
  refine .inr ⟨f, hf, ?_⟩
  have hst : (∃ t, Loose.Spaced (Loose.StatementText flt) f.shapes t) ∧ ∀ id ∈ f.uses, SmithyId id := by
    obtain ⟨_, _, _, _, hu, hx⟩ := hf
    refine ⟨⟨_, hx⟩, fun id hid => ?_⟩
    obtain ⟨t, w, h1, -⟩ := spaced_mem hu id hid
    exact h1
  obtain ⟨⟨t, hst⟩, huse⟩ := hst
  have hnames := looseStatements_names hst
  have entries := file_entries f v
  have himp : ∀ n id, Imports (f.builder v) n id ↔ id ∈ f.uses ∧ SameName id.name n := by
    intro n id
    constructor
    · rintro ⟨x, hx, -, hn⟩
      rcases entries _ _ hx with ⟨id', hid', e', -⟩ | ⟨hm, e'⟩
      · cases e'; exact ⟨hid', hn⟩
      · obtain ⟨k, hk, -⟩ := hnames x hm
        rw [hk] at e'; cases e'
    · rintro ⟨hid, hn⟩
      obtain ⟨x, hx⟩ := file_keys f v (.qualified id) (.inl ⟨id, hid, rfl⟩)
      refine ⟨x, hx, ?_, hn⟩
      rcases entries _ _ hx with ⟨id', -, -, rfl⟩ | ⟨hm, e'⟩
      · rfl
      · obtain ⟨k, hk, -⟩ := hnames x hm
        rw [hk] at e'; cases e'
  have hstands : ∀ n, (∃ b ∈ f.shapes, b.name = .local' n) → ∀ id, Target (f.builder v) (.local' n) id ↔ f.StandsFor n id := by
    intro n hd id
    have hd' : DefinedLocally (f.builder v) n := by
      obtain ⟨b, hb, e⟩ := hd
      exact file_keys f v _ (.inr ⟨b, hb, e⟩)
    constructor
    · rintro ⟨new, ht⟩
      cases ht with
      | imported hi hu => exact .imported ((himp _ _).mp hi).1 ((himp _ _).mp hi).2 fun id' h1 h2 => hu _ ((himp _ _).mpr ⟨h1, h2⟩)
      | defined hi _ => exact .own fun id' h1 h2 => hi _ ((himp _ _).mpr ⟨h1, h2⟩)
      | «prelude» _ hnd _ => exact absurd hd' hnd
      | unknown _ hnd _ => exact absurd hd' hnd
    · intro hs
      cases hs with
      | imported h1 h2 h3 => exact ⟨false, .imported ((himp _ _).mpr ⟨h1, h2⟩) fun id' hi => h3 _ ((himp _ _).mp hi).1 ((himp _ _).mp hi).2⟩
      | own h1 => exact ⟨false, .defined (fun id' hi => h1 _ ((himp _ _).mp hi).1 ((himp _ _).mp hi).2) hd'⟩
  refine ⟨fun id => ?_, ?_⟩
  · rw [C26_defines_iff _ hwf enum he m hb id]
    constructor
    · rintro ⟨-, n, x, hx, hr, ht⟩
      rcases entries _ _ hx with ⟨_, _, -, e⟩ | ⟨hxm, e⟩
      · rw [e] at hr; exact absurd rfl hr
      · obtain ⟨k, hk, -⟩ := hnames x hxm
        rw [e, hk] at ht
        exact ⟨x, hxm, k, hk, (hstands k ⟨x, hxm, hk⟩ id).mp ht⟩
    · rintro ⟨b, hbm, n, hn, hs⟩
      obtain ⟨x, hx⟩ := file_keys f v (.local' n) (.inr ⟨b, hbm, hn⟩)
      refine ⟨?_, .local' n, x, hx, ?_, (hstands n ⟨b, hbm, hn⟩ id).mpr hs⟩
      · cases hs with
        | imported h1 => exact (huse _ h1).member
        | own => rfl
      · rcases entries _ _ hx with ⟨_, _, e, -⟩ | ⟨hxm, -⟩
        · cases e
        · obtain ⟨k, -, hk⟩ := hnames x hxm; exact hk
  · intro b hbm n hn
    obtain ⟨x, hx⟩ := file_keys f v (.local' n) (.inr ⟨b, hbm, hn⟩)
    obtain ⟨ss, gs, g1, -⟩ := build_parts hwf he hb
    obtain ⟨y, -, hy⟩ := (listRel_split g1).1 x ((mem_values hwf).mpr (by rw [← hwf.key _ _ hx] at hx; exact hx))
    have hxn : x.name = .local' n := hwf.key _ _ hx
    rcases hy.id with ⟨-, e⟩ | ⟨-, e⟩
    · rw [hxn] at e; cases e
    · rw [hxn] at e
      exact ⟨_, (hstands n ⟨b, hbm, hn⟩ _).mp e⟩

/-! ### C58 -/

theorem identChars {s : Str} (h : SmithyIdent s) : ∀ c ∈ s, c.isAlpha = true ∨ c.isDigit = true ∨ c = '_' := by
  intro c hc
  cases h with
  | plain h1 h2 =>
    rcases List.mem_cons.mp hc with rfl | hc
    · exact .inl h1
    · exact h2 c hc
  | underscore h1 h2 =>
    rcases List.mem_cons.mp hc with rfl | hc
    · exact .inr (.inr rfl)
    rcases List.mem_cons.mp hc with rfl | hc
    · exact .inl h1
    · exact h2 c hc

theorem namespaceChars {s : Str} (h : SmithyNamespace s) : ∀ c ∈ s, c.isAlpha = true ∨ c.isDigit = true ∨ c = '_' ∨ c = '.' := by
  obtain ⟨ps, -, hp, rfl⟩ := h
  have key : ∀ c ∈ joinWith ['.'] ps, c = '.' ∨ ∃ p ∈ ps, c ∈ p := by
    clear hp
    induction ps with
    | nil => intro c hc; cases hc
    | cons p ps ih =>
      intro c hc
      cases ps with
      | nil => exact .inr ⟨p, by simp, by simpa [joinWith] using hc⟩
      | cons q qs =>
        simp only [joinWith, List.mem_append, List.mem_singleton] at hc
        rcases hc with (hc | hc) | hc
        · exact .inr ⟨p, by simp, hc⟩
        · exact .inl hc
        · rcases ih c hc with h | ⟨x, hx, hc⟩
          · exact .inl h
          · exact .inr ⟨x, List.mem_cons_of_mem _ hx, hc⟩
  intro c hc
  rcases key c hc with rfl | ⟨p, hp', hc⟩
  · simp
  · rcases identChars (hp p hp') c hc with h | h | h <;> simp [h]

/-- The rest of an identifier after `namespace` is an identifier, or no identifier starts there. -/
theorem got_ident_rest {x rest t s' : Str} {ps : List (Pair IdlRule)} (hx : ∀ c ∈ x, c.isAlpha = true ∨ c.isDigit = true ∨ c = '_')
    (hr : ∃ u, rest = '\n' :: u) (h : Got false (r .nsName) (x ++ rest) t s' ps) : SmithyIdent x := by
  obtain ⟨⟨qs, hq, hp, rfl⟩, -⟩ := got_namespace h
  have e := Got.eq h
  obtain ⟨u, rfl⟩ := hr
  obtain ⟨q, qs, rfl⟩ : ∃ q qs', qs = q :: qs' := by cases qs with | nil => exact absurd rfl hq | cons q qs => exact ⟨q, qs, rfl⟩
  have hqi := hp q (by simp)
  obtain ⟨z, hz⟩ : ∃ z, x ++ '\n' :: u = q ++ z := by
    cases qs with
    | nil => exact ⟨_, by simpa [joinWith] using e⟩
    | cons q' qs => exact ⟨_, by simpa [joinWith, List.append_assoc] using e⟩
  rcases List.append_eq_append_iff.mp hz with ⟨a, h1, h2⟩ | ⟨a, h1, h2⟩
  · cases a with
    | nil => rw [List.append_nil] at h1; exact h1 ▸ hqi
    | cons c a =>
      simp only [List.cons_append, List.cons.injEq] at h2
      have := identChars hqi c (by rw [h1]; simp)
      rw [← h2.1] at this
      exact absurd this (by decide)
  · subst h1
    cases hqi with
    | @plain c s h1 h2 =>
      exact .plain h1 fun d hd => (List.mem_append.mp hd).elim (h2 d) fun hd => hx d (by simp [hd])
    | @underscore c s h1 h2 =>
      exact .underscore h1 fun d hd => (List.mem_append.mp hd).elim (h2 d) fun hd => hx d (by simp [hd])

/-- C58 is violated: outside of an array, a text with a name that is a keyword and more is rejected, whatever the name (unless its rest
is `namespace`). -/
theorem C58_keyword_rejected (flt : Str → Option F64) (enum : List ShapeID → List ShapeID) (k n ns w : Str) (v : Value) (hk : SmithyIdent k)
    (hns : SmithyNamespace ns) (hn : SmithyIdent n) (hn' : n ≠ %s"namespace") (hv : Keyword w v) :
    ∃ e, parseModel flt enum (metaText k (w ++ n) ns) = .error e := by
  have hmeta : Eats (r .metadataStatement) (%s"metadata" ++ ([' '] ++ (k ++ ([' '] ++ ('=' :: ([' '] ++ (w ++ (n ++ (%s"\nnamespace " ++ ns ++ %s"\n")))))))))
      (n ++ (%s"\nnamespace " ++ ns ++ %s"\n")) (fun _ => True) := by
    refine (Eats.normal (r := .metadataStatement) rfl (Eats.str.seqL ((ws_eats white_space (solid_ident hk _)).seqL
      ((key_eats hk (nameEnd_cons (by decide))).seq ((ws_eats white_space (solid_cons (by decide))).seqL
      ((Eats.str (t := ['='])).seqL ((ws_eats white_space (keyword_head hv _)).seqL ((kwValue_eats (flt := flt) hv _).seqR (ws_none (solid_ident hn _)))))))))).mono ?_
    intros; trivial
  have hnm : Parses idlGrammar false (r .metadataStatement) (n ++ (%s"\nnamespace " ++ ns ++ %s"\n")) none := by
    obtain ⟨x, hx⟩ := idl_total false (e := r .metadataStatement) (by decide) (n ++ (%s"\nnamespace " ++ ns ++ %s"\n"))
    cases x with
    | none => exact hx
    | some x =>
      exfalso
      obtain ⟨t, s', ps⟩ := x
      have he : '=' ∈ t := by
        obtain ⟨_, -, h0⟩ := Got.inv_normal rfl hx
        obtain ⟨_, _, _, _, _, -, h1, e1, -⟩ := Got.inv_seq h0
        obtain ⟨_, _, _, _, _, -, h2, e2, -⟩ := Got.inv_seq h1
        obtain ⟨_, _, _, _, _, -, h3, e3, -⟩ := Got.inv_seq h2
        obtain ⟨_, _, _, _, _, -, h4, e4, -⟩ := Got.inv_seq h3
        obtain ⟨_, _, _, _, _, h5, -, e5, -⟩ := Got.inv_seq h4
        rw [e1, e2, e3, e4, e5, (Got.inv_str h5).1]
        simp
      have he' : '=' ∈ n ++ (%s"\nnamespace " ++ ns ++ %s"\n") := by rw [Got.eq hx]; exact List.mem_append_left _ he
      simp only [List.mem_append] at he'
      rcases he' with h | (h | h) | h
      · exact absurd (identChars hn _ h) (by decide)
      · exact absurd h (by decide)
      · exact absurd (namespaceChars hns _ h) (by decide)
      · exact absurd h (by decide)
  have hsec : ∃ c u, Eats (r .shapeSection) (n ++ (%s"\nnamespace " ++ ns ++ %s"\n")) (c :: u) (fun _ => True) := by
    have none (hnsp : Parses idlGrammar false (r .namespaceStatement) (n ++ (%s"\nnamespace " ++ ns ++ %s"\n")) none) :
        ∃ c u, Eats (r .shapeSection) (n ++ (%s"\nnamespace " ++ ns ++ %s"\n")) (c :: u) (fun _ => True) := by
      obtain ⟨c, x, e, -⟩ := ident_head hn
      refine ⟨c, x ++ (%s"\nnamespace " ++ ns ++ %s"\n"), ?_⟩
      have := (Eats.normal (r := .shapeSection) rfl (Eats.optNone (a := r .namespaceStatement ~> (.opt (r .useSection) ~> .opt (r .shapeStatements))) (.seqFail1 hnsp))).mono (Q' := fun _ => True) fun _ _ => trivial
      rwa [show n ++ (%s"\nnamespace " ++ ns ++ %s"\n") = c :: (x ++ (%s"\nnamespace " ++ ns ++ %s"\n")) by rw [e]; rfl] at this ⊢
    by_cases hpre : %s"namespace" <+: n
    · obtain ⟨x, hx⟩ := hpre
      have hxc : ∀ c ∈ x, c.isAlpha = true ∨ c.isDigit = true ∨ c = '_' := fun c hc => identChars hn c (by rw [← hx]; simp [hc])
      have e : n ++ (%s"\nnamespace " ++ ns ++ %s"\n") = %s"namespace" ++ ([] ++ (x ++ (['\n'] ++ (%s"namespace " ++ ns ++ %s"\n")))) := by
        rw [← hx]; simp
      by_cases hi : SmithyIdent x
      · refine ⟨'n', %s"amespace " ++ ns ++ %s"\n", ?_⟩
        rw [e]
        have hst : Eats (r .namespaceStatement) (%s"namespace" ++ ([] ++ (x ++ (['\n'] ++ (%s"namespace " ++ ns ++ %s"\n")))))
            (%s"namespace " ++ ns ++ %s"\n") (fun _ => True) :=
          (Eats.normal (r := .namespaceStatement) rfl (Eats.str.seqL ((ws_eats white_nil (solid_ident hi _)).seqL
            ((namespace_eats (smithyNamespace_ident hi) (by intro c s' e; injection e with e _; subst e; decide)).seqR
              (ws_eats (white_nl white_nil) (solid_cons (by decide))))))).mono fun _ _ => trivial
        exact (Eats.normal (r := .shapeSection) rfl (Eats.opt (hst.seq ((Eats.optNone (a := r .useSection) (fails 8 (by decide))).seq
          (Eats.optNone (a := r .shapeStatements) (fails 32 (by decide))))))).mono fun _ _ => trivial
      · refine none ?_
        obtain ⟨y, hy⟩ := idl_total false (e := r .namespaceStatement) (by decide) (n ++ (%s"\nnamespace " ++ ns ++ %s"\n"))
        cases y with
        | none => exact hy
        | some y =>
          exfalso
          obtain ⟨t, s', ps⟩ := y
          obtain ⟨_, -, h0⟩ := Got.inv_normal rfl hy
          rw [e] at h0
          obtain ⟨c, x', rfl⟩ : ∃ c x', x = c :: x' := by
            cases x with
            | nil => exact absurd (by rw [← hx]; rfl) hn'
            | cons c x' => exact ⟨c, x', rfl⟩
          obtain ⟨t1, u1, _, _, _, hg, h1, e1, -⟩ := Got.inv_seq h0
          obtain ⟨t2, u2, _, _, _, hw, h2, e2, -⟩ := Got.inv_seq h1
          obtain ⟨t3, u3, _, _, _, h3, -, e3, -⟩ := Got.inv_seq h2
          have hu1 : u1 = c :: (x' ++ (['\n'] ++ (%s"namespace " ++ ns ++ %s"\n"))) := by
            have := (Got.eq hg).symm
            rw [(Got.inv_str hg).1] at this
            simpa using this
          subst hu1
          have hsol : Solid' (c :: (x' ++ (['\n'] ++ (%s"namespace " ++ ns ++ %s"\n")))) := solid_cons fun hm => by
            rcases hxc c (by simp) with h | h | h
            · simp only [List.mem_cons, List.not_mem_nil, or_false] at hm
              rcases hm with rfl | rfl | rfl | rfl | rfl | rfl <;> exact absurd h (by decide)
            · simp only [List.mem_cons, List.not_mem_nil, or_false] at hm
              rcases hm with rfl | rfl | rfl | rfl | rfl | rfl <;> exact absurd h (by decide)
            · subst h; exact absurd hm (by decide)
          obtain ⟨_, _, hw', -⟩ := ws_none hsol
          have := Parses.det hw hw'
          simp only [Option.some.injEq, Prod.mk.injEq] at this
          obtain ⟨-, rfl, -⟩ := this
          exact hi (got_ident_rest (x := c :: x') hxc ⟨_, rfl⟩ h3)
    · refine none (failsNormal rfl (.seqFail1 (.strFail ?_)))
      cases hp : stripPrefix %s"namespace" (n ++ (%s"\nnamespace " ++ ns ++ %s"\n")) with
      | none => rfl
      | some x =>
        exfalso
        have h := stripPrefix_some hp
        apply hpre
        rcases List.append_eq_append_iff.mp h with ⟨a, h1, h2⟩ | ⟨a, h1, -⟩
        · cases a with
          | nil => exact ⟨[], by simpa using h1⟩
          | cons c a =>
            simp only [List.cons_append, List.cons.injEq] at h2
            have : c ∈ %s"namespace" := by rw [h1]; simp
            rw [← h2.1] at this
            exact absurd this (by decide)
        · exact ⟨a, h1.symm⟩
  have hfail : Parses idlGrammar false (.rule .idl) (metaText k (w ++ n) ns) none := by
    have e : metaText k (w ++ n) ns = %s"metadata" ++ ([' '] ++ (k ++ ([' '] ++ ('=' :: ([' '] ++ (w ++ (n ++ (%s"\nnamespace " ++ ns ++ %s"\n")))))))) := by
      simp [metaText]
    rw [e]
    obtain ⟨c, u, hsec⟩ := hsec
    refine failsNormal rfl (failsSeq Eats.soi (failsSeq (ws_none (solid_cons (by decide))) (failsSeq
      (Eats.normal (r := .controlSection) rfl (Eats.repNil (fails 8 (by decide)))) (failsSeq
      (Eats.normal (r := .metadataSection) rfl (hmeta.repCons (Eats.repNil hnm))) (failsSeq
      hsec .eoiFail)))))
  have hm : matchIdl (metaText k (w ++ n) ns) = none := (matchIdl_iff _ _).mpr ⟨_, hfail, rfl⟩
  unfold parseModel readBuilder
  rw [hm]
  exact ⟨_, rfl⟩

example : SmithyIdent %s"able" ∧ %s"able" ≠ %s"namespace" ∧ Keyword %s"null" .none := ⟨.plain (by decide) (by decide), by decide, .null⟩

set_option maxRecDepth 100000 in
/-- With the name `truenamespace` the text may be read after all, as something else: its rest is the keyword of the namespace, and the
keyword that follows is the name of the namespace. -/
theorem C58_keyword_namespace (flt : Str → Option F64) :
    (match parseModel flt (fun ids => ids) (metaText %s"k" (%s"true" ++ %s"namespace") %s"blobA") with
      | .ok m => m.meq ⟨.v10, [(%s"k", .boolean true)], [(⟨%s"namespace", %s"A", none⟩, ⟨⟨%s"namespace", %s"A", none⟩, [], .simple .blob⟩)]⟩
      | _ => false) = true := rfl

/-- A text with an operation with the input `w`. -/
def operationText (ns o w : Str) : Str := %s"namespace " ++ ns ++ %s"\noperation " ++ o ++ %s"{input:" ++ w ++ %s"}"

/-- C58 is violated in operations, too: a text with an operation whose input is meant to be a name that is a keyword and more, as `trueInput`,
is rejected, whatever the names. -/
theorem C58_operation_rejected (flt : Str → Option F64) (enum : List ShapeID → List ShapeID) (ns o n w : Str) (v : Value)
    (hns : SmithyNamespace ns) (ho : SmithyIdent o) (hn : SmithyIdent n) (hv : Keyword w v) :
    ∃ e, parseModel flt enum (operationText ns o (w ++ n)) = .error e := by
  have hin : SmithyIdent %s"input" := .plain (by decide) (by decide)
  have hkvp : Eats (r .nodeObjectKvp ~> r .ws) (%s"input" ++ ([':'] ++ (w ++ (n ++ %s"}")))) (n ++ %s"}") (fun _ => True) :=
    ((Eats.normal (r := .nodeObjectKvp) rfl ((key_eats hin (nameEnd_cons (by decide))).seq ((ws_none (solid_cons (by decide))).seqL
      (Eats.str.seqL ((ws_none (keyword_head hv _)).seqL (kwValue_eats (flt := flt) hv _)))))).seq (ws_none (solid_ident hn _))).mono fun _ _ => trivial
  have hkvp2 : Parses idlGrammar false (r .nodeObjectKvp ~> r .ws) (n ++ %s"}") none :=
    .seqFail1 (failsNormal rfl (failsSeq (key_eats hn (nameEnd_cons (by decide))) (failsSeq (ws_none (solid_cons (by decide)))
      (.seqFail1 (.strFail rfl)))))
  have hobj : Parses idlGrammar false (r .nodeObject) (%s"{" ++ (%s"input" ++ ([':'] ++ (w ++ (n ++ %s"}"))))) none := by
    refine failsNormal rfl (failsSeq Eats.str (failsSeq (ws_none (solid_cons (by decide))) (failsSeq (hkvp.repCons (Eats.repNil hkvp2)) ?_)))
    obtain ⟨c, x, e, hc⟩ := ident_head hn
    rw [e]
    refine .strFail ?_
    have : c ≠ '}' := by rintro rfl; exact absurd (mem_identHeads hc) (by decide)
    simp [stripPrefix, this.symm]
  have hop : Parses idlGrammar false (r .operationStatement) (%s"operation" ++ ([' '] ++ (o ++ (%s"{" ++ (%s"input" ++ ([':'] ++ (w ++ (n ++ %s"}")))))))) none :=
    failsNormal rfl (failsSeq Eats.str (failsSeq (ws_eats white_space (solid_ident ho _)) (failsSeq (ident_eats ho (nameEnd_cons (by decide)))
      (failsSeq (ws_none (solid_cons (by decide))) hobj))))
  have hbody : Parses idlGrammar false (r .shapeBody) (%s"operation" ++ ([' '] ++ (o ++ (%s"{" ++ (%s"input" ++ ([':'] ++ (w ++ (n ++ %s"}")))))))) none := by
    refine failsSilent rfl ?_
    refine .choiceR (fails 32 (by decide)) (.choiceR (fails 32 (by decide)) (.choiceR (fails 32 (by decide)) (.choiceR (fails 32 (by decide))
      (.choiceR (fails 32 (by decide)) (.choiceR (fails 32 (by decide)) (.choiceR (fails 32 (by decide)) (.choiceR hop (fails 32 (by decide)))))))))
  have hh : ∃ c x, %s"operation" ++ ([' '] ++ (o ++ (%s"{" ++ (%s"input" ++ ([':'] ++ (w ++ (n ++ %s"}"))))))) = c :: x ∧ c ∈ identHeads := ⟨_, _, rfl, by decide⟩
  have hshapes : Parses idlGrammar false (r .shapeStatements) (%s"operation" ++ ([' '] ++ (o ++ (%s"{" ++ (%s"input" ++ ([':'] ++ (w ++ (n ++ %s"}")))))))) none := by
    refine failsNormal rfl (.seqFail1 (.choiceR (failsNormal rfl (failsSeq (noDocs ⟨_, _, rfl, .inr (by decide)⟩) (failsSeq (ws_none (solid_cons (by decide)))
      (failsSeq (noTraits (flt := flt) hh) (.seqFail1 hbody))))) (fails 8 (by decide))))
  have hst : Eats (r .namespaceStatement) (%s"namespace" ++ ([' '] ++ (ns ++ (['\n'] ++ (%s"operation" ++ ([' '] ++ (o ++ (%s"{" ++ (%s"input" ++ ([':'] ++ (w ++ (n ++ %s"}"))))))))))))
      (%s"operation" ++ ([' '] ++ (o ++ (%s"{" ++ (%s"input" ++ ([':'] ++ (w ++ (n ++ %s"}")))))))) (fun _ => True) := by
    have hsolid : ∀ u, Solid' (ns ++ u) := by
      intro u
      obtain ⟨c, x, e, hc⟩ := namespace_head hns
      rw [e]
      have : ∀ c ∈ identHeads, c ∉ [' ', '\t', '\n', '\r', ',', '/'] := by decide
      exact solid_cons (this c hc)
    exact (Eats.normal (r := .namespaceStatement) rfl (Eats.str.seqL ((ws_eats white_space (hsolid _)).seqL
      ((namespace_eats hns (by intro c s' e; injection e with e _; subst e; decide)).seqR (ws_eats (white_nl white_nil) (solid_cons (by decide))))))).mono
      fun _ _ => trivial
  have hfail : Parses idlGrammar false (.rule .idl) (operationText ns o (w ++ n)) none := by
    have e : operationText ns o (w ++ n) = %s"namespace" ++ ([' '] ++ (ns ++ (['\n'] ++ (%s"operation" ++ ([' '] ++ (o ++ (%s"{" ++ (%s"input" ++ ([':'] ++ (w ++ (n ++ %s"}"))))))))))) := by
      simp [operationText]
    rw [e]
    exact failsNormal rfl (failsSeq Eats.soi (failsSeq (ws_none (solid_cons (by decide))) (failsSeq
      (Eats.normal (r := .controlSection) rfl (Eats.repNil (fails 8 (by decide)))) (failsSeq
      (Eats.normal (r := .metadataSection) rfl (Eats.repNil (fails 8 (by decide)))) (failsSeq
      (Eats.normal (r := .shapeSection) rfl (Eats.opt (hst.seq ((Eats.optNone (a := r .useSection) (fails 8 (by decide))).seq
        (Eats.optNone (a := r .shapeStatements) hshapes))))) .eoiFail)))))
  have hm : matchIdl (operationText ns o (w ++ n)) = none := (matchIdl_iff _ _).mpr ⟨_, hfail, rfl⟩
  unfold parseModel readBuilder
  rw [hm]
  exact ⟨_, rfl⟩

example : ∃ e, parseModel (fun _ => none) (fun ids => ids) %s"namespace a\noperation O{input:trueInput}" = .error e :=
  C58_operation_rejected _ _ %s"a" %s"O" %s"Input" _ _ (smithyNamespace_ident (.plain (by decide) (by decide))) (.plain (by decide) (by decide))
    (.plain (by decide) (by decide)) .true

end Verif
