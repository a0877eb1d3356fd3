/-
Properties C33 and C34 of the line-oriented form.
-/
import Verif.LinesMem
import Verif.ModelProps
import Verif.JsonProps

namespace Verif
open Spec Lines

/-! ### C33 The form is canonical -/

/-- C33: the lines are in dictionary order. -/
theorem C33_sorted (f : Fmt) (m : Model) : (lineForm f m).Pairwise DictLe := by
  have := List.pairwise_mergeSort (le := strLe) (fun a b c => strLe_trans a b c) strLe_total (unsorted f m)
  exact this.imp fun h => (strLe_iff _ _).mp h

/-- C33: the form, and what is written, do not depend on the order in which any map of the model (metadata, shapes,
members, traits, objects inside values, renames, identifiers) is enumerated. -/
theorem C33_order_independent (f : Fmt) (a b : Model) (ha : WfModel a) (hb : WfModel b) (h : SameModel a b) :
    lineForm f a = lineForm f b ∧ writeLines f a = writeLines f b := by
  have := mergeSort_eq_of_perm (unsorted_same f ha hb h)
  exact ⟨this, by rw [writeLines, writeLines]; unfold lineForm; rw [this]⟩

example (f : Fmt) : ∃ a b : Model, WfModel a ∧ WfModel b ∧ SameModel a b ∧ a ≠ b ∧ lineForm f a = lineForm f b := by
  have hp : exModel.shapes.Perm exModel.shapes.reverse := (List.reverse_perm _).symm
  have hs : SameModel exModel ⟨.v10, [], exModel.shapes.reverse⟩ :=
    ⟨rfl, MapRel.nil, (MapRel.of_perm exModel_wf.nodup hp).mono fun _ _ e => e ▸ SameShape.refl _⟩
  have hw : WfModel ⟨.v10, [], exModel.shapes.reverse⟩ := by
    have hg : ∀ id, Model.shape ⟨.v10, [], exModel.shapes.reverse⟩ id = exModel.shape id :=
      fun id => (AMap.get_perm hp exModel_wf.nodup id).symm
    refine ⟨AMap.wf_nil, by simp, AMap.wf_perm hp exModel_wf.nodup, ?_, ?_, ?_⟩
    · intro id s h; rw [hg] at h; exact exModel_wf.key id s h
    · intro id s h; rw [hg] at h; exact exModel_wf.member id s h
    · intro id s h; rw [hg] at h; exact exModel_wf.shapes id s h
  exact ⟨exModel, _, exModel_wf, hw, hs, by simp [exModel, sid], (C33_order_independent f _ _ exModel_wf hw hs).1⟩

/-- A model with one list shape whose member targets `ex#<t>`. -/
def listModel (t : Str) : Model := ⟨.v10, [], [(sid (%s"L"), ⟨sid (%s"L"), [], .list (listNew (sid t))⟩)]⟩

theorem wf_singleShape (s : TopLevelShape) (hm : s.id.isMember = false) (hs : WfShape s) (md : AMap Str Value)
    (hmd : AMap.Wf md) (hv : ∀ k v, md.get k = some v → v.Wf) : WfModel ⟨.v10, md, [(s.id, s)]⟩ := by
  have hS : ∀ id t, Model.shape ⟨.v10, md, [(s.id, s)]⟩ id = some t → id = s.id ∧ t = s := by
    intro id t h
    simp only [Model.shape, AMap.get_cons, AMap.get_nil] at h
    split at h
    · next e => injection h with h; exact ⟨e.symm, h.symm⟩
    · cases h
  refine ⟨hmd, hv, by simp [AMap.Wf, AMap.keys], ?_, ?_, ?_⟩
  · intro id t h; obtain ⟨rfl, rfl⟩ := hS id t h; rfl
  · intro id t h hm'; obtain ⟨rfl, rfl⟩ := hS id t h; rw [hm] at hm'; cases hm'
  · intro id t h; obtain ⟨rfl, rfl⟩ := hS id t h; exact hs

theorem listModel_wf (t : Str) : WfModel (listModel t) :=
  wf_singleShape ⟨sid (%s"L"), [], .list (listNew (sid t))⟩ rfl
    ⟨⟨AMap.wf_nil, (by simp)⟩, (⟨AMap.wf_nil, (by simp [listNew, MemberShape.new])⟩ : WfTraits (listNew (sid t)).traits)⟩
    [] AMap.wf_nil (by simp)

/-- C33 for `==` is violated: models that are equal (`==` ignores the case of target ids) can have different lines. -/
theorem C33_equal_models_differ (f : Fmt) : ∃ a b : Model, WfModel a ∧ WfModel b ∧ a.meq b = true ∧ lineForm f a ≠ lineForm f b := by
  refine ⟨listModel %s"T", listModel %s"t", listModel_wf _, listModel_wf _, rfl, fun h => ?_⟩
  have hp : (unsorted f (listModel %s"T")).Perm (unsorted f (listModel %s"t")) :=
    ((List.mergeSort_perm _ strLe).symm.trans (List.Perm.of_eq h)).trans (List.mergeSort_perm _ strLe)
  have hin : (%s"list::ex#L::member=>ex#T") ∈ unsorted f (listModel %s"T") := by
    simp [unsorted, listModel, Model.shapesList, AMap.values, ofShape, ofKind, ofMember, ofTraits, linePrefix, typeName, ShapeID.display, sid, listNew,
      MemberShape.new, memberMember]
  have := hp.subset hin
  revert this
  simp [unsorted, listModel, Model.shapesList, AMap.values, ofShape, ofKind, ofMember, ofTraits, linePrefix, typeName, ShapeID.display, sid, listNew,
    MemberShape.new, memberMember]

/-! ### C34 The form mentions everything, and nothing else -/

/-- C34: a line is in the form exactly when it is the line of a shape, an applied trait, a member, a member's trait, a
property or a metadata entry of the model. -/
theorem C34_lines_iff (f : Fmt) (m : Model) (hm : WfModel m) (l : Str) : l ∈ lineForm f m ↔ LineOf f m l := by
  rw [lineForm, List.mem_mergeSort, mem_unsorted f hm]

theorem length_ofValue (f : Fmt) (v : Value) (pre : Str) : (ofValue f pre v).length = leaves v := by
  induction v using Value.ind generalizing pre with
  | array vs ih =>
    rw [ofValue, leaves]
    split
    · rfl
    · have : ∀ i, (ofArray f pre i vs).length = leavesList vs := by
        induction vs with
        | nil => intro i; rfl
        | cons v vs ih2 =>
          intro i
          rw [ofArray, leavesList, List.length_append, ih v (by simp)]
          cases hvs : vs with
          | nil => rfl
          | cons w ws => rw [← hvs, ih2 (fun x hx => ih x (by simp [hx])) (by simp [hvs])]
      exact this 0
  | object vs ih =>
    rw [ofValue, leaves]
    split
    · rfl
    · rename_i h
      clear h
      induction vs with
      | nil => rfl
      | cons e es ih2 =>
        obtain ⟨k, v⟩ := e
        rw [ofObject, leavesObj, List.length_append, ofEntry, leavesEntry, ih (k, v) (by simp),
          ih2 (fun x hx => ih x (by simp [hx]))]
  | number n => rfl
  | boolean b => rfl
  | string s => rfl
  | none => rfl

theorem length_ofTraits (f : Fmt) (ts : Traits) (pre : Str) : (ofTraits f pre ts).length = traitLines ts := by
  rw [ofTraits, List.length_flatMap, traitLines]
  congr 1
  apply List.map_congr_left
  intro e _
  obtain ⟨id, o⟩ := e
  cases o with
  | none => rfl
  | some v => exact length_ofValue f v _

theorem length_ofMember (f : Fmt) (m : MemberShape) (pre : Str) : (ofMember f pre m).length = 1 + traitLines m.traits := by
  rw [ofMember, List.length_cons, length_ofTraits]; omega

theorem length_ofKind (f : Fmt) (k : ShapeKind) (pre : Str) : (ofKind f pre k).length = kindLines k := by
  cases k with
  | simple => rfl
  | unresolved => rfl
  | list m => exact length_ofMember f m pre
  | set m => exact length_ofMember f m pre
  | map k v => simp only [ofKind, List.length_append, length_ofMember, kindLines]; omega
  | struct ms => simp [ofKind, kindLines, List.length_flatMap, AMap.values, length_ofMember, Function.comp_def]
  | union ms => simp [ofKind, kindLines, List.length_flatMap, AMap.values, length_ofMember, Function.comp_def]
  | service s => simp [ofKind, kindLines, ofTargets]; omega
  | operation o => simp [ofKind, kindLines, ofTargets, ofTarget]; try omega
  | resource r => simp [ofKind, kindLines, ofTargets, ofTarget]; try omega

/-- C34: nothing is repeated or dropped: the number of lines is one for each shape, member, property and valueless trait,
and one for each leaf of each trait and metadata value. -/
theorem C34_line_count (f : Fmt) (m : Model) : (lineForm f m).length =
    (m.metadata.map fun e => leaves e.2).sum +
      (m.shapes.map fun e => 1 + kindLines e.2.body + traitLines e.2.traits).sum := by
  rw [lineForm, List.length_mergeSort, unsorted, List.length_append, List.length_flatMap, List.length_flatMap]
  congr 1
  · congr 1
    exact List.map_congr_left fun e _ => length_ofValue f e.2 _
  · simp only [Model.shapesList, AMap.values, List.map_map, Function.comp_def]
    congr 1
    apply List.map_congr_left
    intro e _
    simp only [ofShape, List.length_cons, List.length_append, length_ofKind, length_ofTraits]
    omega

/-! ### C34 What the form determines -/

theorem span_unique {P : Char → Bool} {a b x y : Str} (ha : ∀ c ∈ a, P c = true) (hb : ∀ c ∈ b, P c = true)
    (hx : ∀ c, x.head? = some c → P c = false) (hy : ∀ c, y.head? = some c → P c = false) (h : a ++ x = b ++ y) :
    a = b ∧ x = y := by
  induction a generalizing b with
  | nil =>
    cases b with
    | nil => exact ⟨rfl, h⟩
    | cons c b =>
      simp at h
      have := hx c (by simp [h])
      rw [hb c (by simp)] at this; cases this
  | cons d a ih =>
    cases b with
    | nil =>
      simp at h
      have := hy d (by rw [← h]; rfl)
      rw [ha d (by simp)] at this; cases this
    | cons c b =>
      simp at h
      obtain ⟨rfl, h⟩ := h
      obtain ⟨rfl, h2⟩ := ih (fun c hc => ha c (by simp [hc])) (fun c hc => hb c (by simp [hc])) h
      exact ⟨rfl, h2⟩

/-- The characters of printed shape ids. -/
def idTextChar (c : Char) : Bool := identChar c || c == '.' || c == '#' || c == '$'

theorem idText_chars {id : ShapeID} (h : id.Valid) : ∀ c ∈ id.display, idTextChar c = true := by
  intro c hc
  obtain ⟨h1, h2, h3⟩ := h
  simp only [ShapeID.display] at hc
  have hi : ∀ {s : Str}, IsIdentifier s → c ∈ s → idTextChar c = true := fun hs hcs => by
    simp [idTextChar, identChar_of_identifier hs hcs]
  rw [List.mem_append, List.mem_append, List.mem_cons] at hc
  rcases hc with (hc | rfl | hc) | hc
  · by_cases hd : c = '.'
    · subst hd; rfl
    · by_cases hic : identChar c = true
      · simp [idTextChar, hic]
      · exact absurd hc (namespace_not_mem h1 hd (by simpa using hic))
  · rfl
  · exact hi h2 hc
  · cases hm : id.member with
    | none => rw [hm] at hc; cases hc
    | some m =>
      rw [hm] at hc
      rcases List.mem_cons.mp hc with rfl | hc
      · rfl
      · exact hi (h3 m hm) hc

theorem display_hash {id : ShapeID} : '#' ∈ id.display := by simp [ShapeID.display]

theorem ident_chars {s : Str} (h : IsIdentifier s) : ∀ c ∈ s, identChar c = true := fun _ hc => identChar_of_identifier h hc

theorem typeWord_chars (k : ShapeKind) : ∀ c ∈ typeWord k, c.isAlpha = true := by
  cases k with
  | simple s => cases s <;> decide
  | _ => simp [typeWord]

theorem typeWord_ne_meta (k : ShapeKind) : typeWord k ≠ %s"meta" := by
  cases k with
  | simple s => cases s <;> decide
  | _ => simp [typeWord]

theorem shapeText_head (f : Fmt) (s : TopLevelShape) {t : Str} (h : ShapeText f s t) : ∀ c, t.head? = some c → c = ':' := by
  intro c hc
  cases h <;> simp at hc <;> exact hc.symm

/-- A line `type::id...` comes from the shape `id`. -/
theorem lineOf_shape_iff (f : Fmt) {m : Model} (hv : ValidModel m) {k : ShapeKind} {id : ShapeID} (hid : id.Valid) {t : Str}
    (ht : ∀ c, t.head? = some c → c = ':') :
    LineOf f m (typeWord k ++ %s"::" ++ id.display ++ t) ↔
      ∃ s, m.shape id = some s ∧ typeWord k = typeWord s.body ∧ ShapeText f s t := by
  constructor
  · generalize hl : typeWord k ++ %s"::" ++ id.display ++ t = l
    intro h
    cases h with
    | metadata =>
      simp only [List.append_assoc] at hl
      have := span_unique (a := typeWord k) (b := %s"meta") (P := fun c => c.isAlpha) (typeWord_chars k) (by decide)
        (by simp) (by simp) hl
      exact absurd this.1 (typeWord_ne_meta k)
    | shape hg hst =>
      rename_i id' s t'
      simp only [List.append_assoc] at hl
      obtain ⟨h1, h2⟩ := span_unique (P := fun c => c.isAlpha) (typeWord_chars k) (typeWord_chars s.body)
        (by simp) (by simp) hl
      simp only [List.cons_append, List.nil_append, List.cons.injEq, true_and] at h2
      have hne : ∀ u : Str, (∀ c, u.head? = some c → c = ':') → ∀ c, u.head? = some c → idTextChar c = false := by
        intro u hu c hc; rw [hu c hc]; rfl
      obtain ⟨h3, h4⟩ := span_unique (P := idTextChar) (idText_chars hid) (idText_chars (hv _ _ hg).1)
        (hne _ ht) (hne _ (shapeText_head f s hst)) h2
      have : id = id' := by
        have e := ShapeID.fromStr_display hid
        rw [h3, ShapeID.fromStr_display (hv _ _ hg).1] at e
        injection e with e; exact e.symm
      subst this
      subst h4
      exact ⟨s, hg, h1, hst⟩
  · rintro ⟨s, hg, hk, hst⟩
    rw [hk]
    exact .shape hg hst

/-- The two models list the same lines. -/
theorem lineOf_iff_of_lineForm_eq (f : Fmt) {a b : Model} (ha : WfModel a) (hb : WfModel b) (h : lineForm f a = lineForm f b) (l : Str) :
    LineOf f a l ↔ LineOf f b l := by rw [← C34_lines_iff f a ha, ← C34_lines_iff f b hb, h]

theorem shape_determined (f : Fmt) {a b : Model} (ha : WfModel a) (hb : WfModel b) (hva : ValidModel a) (hvb : ValidModel b)
    (h : lineForm f a = lineForm f b) {id : ShapeID} {s : TopLevelShape} (hs : a.shape id = some s) :
    ∃ s', b.shape id = some s' ∧ typeWord s.body = typeWord s'.body ∧ ∀ t, ShapeText f s t → ShapeText f s' t := by
  have hid := (hva _ _ hs).1
  have key : ∀ t, ShapeText f s t → ∃ s', b.shape id = some s' ∧ typeWord s.body = typeWord s'.body ∧ ShapeText f s' t :=
    fun t ht => (lineOf_shape_iff f hvb hid (shapeText_head f s ht)).mp
      ((lineOf_iff_of_lineForm_eq f ha hb h _).mp (.shape hs ht))
  obtain ⟨s', hs', hw, -⟩ := key [] .self
  refine ⟨s', hs', hw, fun t ht => ?_⟩
  obtain ⟨s'', hs'', -, ht''⟩ := key t ht
  rw [hs'] at hs''
  injection hs'' with e
  exact e ▸ ht''

/-- The names of members are identifiers (also for lists, sets and maps, where `ValidModel` does not ask for it). -/
def NamedMembers (m : Model) : Prop := ∀ id s, m.shape id = some s → ∀ mem, HasMemberShape s.body mem → IsIdentifier mem.id

theorem traitText_shape {f : Fmt} {ts : Traits} {t : Str} (h : TraitText f ts t) :
    ∃ id v r, ts.get id = some v ∧ t = id.display ++ r ∧ ∀ c, r.head? = some c → c = '<' := by
  cases h with
  | bare h => exact ⟨_, _, [], h, by simp, by simp⟩
  | valued h ht => exact ⟨_, _, _, h, List.append_assoc _ _ _, by intro c hc; simp at hc; exact hc.symm⟩

theorem hasTarget_alpha {k : ShapeKind} {n : Str} {id : ShapeID} (h : HasTarget k n id) : ∀ c ∈ n, identChar c = true := by
  cases h <;> decide

theorem cons_colons {t u : Str} (h : %s"::" ++ t = %s"::" ++ u) : t = u := by simpa using h

/-- `trait::...` is not the text of an applied trait. -/
theorem not_traitText_trait {f : Fmt} {ts : Traits} (hv : ValidTraits ts) {u : Str} (h : TraitText f ts (%s"trait::" ++ u)) : False := by
  obtain ⟨id, v, r, hg, he, hr⟩ := traitText_shape h
  have := (span_unique (P := idTextChar) (a := %s"trait") (by decide) (idText_chars (hv id v hg).1)
    (x := %s"::" ++ u) (y := r) (by intro c hc; simp at hc; subst hc; rfl) (by intro c hc; rw [hr c hc]; rfl) (by simpa using he)).1
  have hh : '#' ∈ (%s"trait" : Str) := this ▸ display_hash
  revert hh; decide

theorem not_trait_eq_display {id : ShapeID} (hid : id.Valid) {t n : Str}
    (he : %s"trait::" ++ t = id.display ++ (%s"<=" ++ n)) : False := by
  have := (span_unique (P := idTextChar) (a := %s"trait") (b := id.display) (by decide) (idText_chars hid)
    (x := %s"::" ++ t) (y := %s"<=" ++ n) (by intro c hc; simp at hc; subst hc; rfl)
    (by intro c hc; simp at hc; subst hc; rfl) (by simpa using he)).1
  have hh : '#' ∈ (%s"trait" : Str) := this ▸ display_hash
  revert hh; decide

/-- A line `...::name=>target` is about a member or a property with this name and target. -/
theorem shapeText_target {f : Fmt} {s : TopLevelShape} (hk : ValidKind s.body)
    (hn : ∀ m, HasMemberShape s.body m → IsIdentifier m.id ∧ m.target.Valid)
    (htg : ∀ n id, HasTarget s.body n id → id.Valid)
    {n : Str} {id : ShapeID} (hni : ∀ c ∈ n, identChar c = true) (hid : id.Valid)
    (h : ShapeText f s (%s"::" ++ n ++ %s"=>" ++ id.display)) :
    (∃ m, HasMemberShape s.body m ∧ m.id = n ∧ m.target = id) ∨ HasTarget s.body n id := by
  generalize hl : %s"::" ++ n ++ %s"=>" ++ id.display = l at h
  have hinj : ∀ id', id'.Valid → id.display = id'.display → id = id' := fun id' h' e => by
    have e1 := ShapeID.fromStr_display hid
    rw [e, ShapeID.fromStr_display h'] at e1
    injection e1 with e1; exact e1.symm
  have split2 : ∀ {w x : Str}, (∀ c ∈ w, identChar c = true) → (∀ c, x.head? = some c → identChar c = false) →
      n ++ (%s"=>" ++ id.display) = w ++ x → n = w ∧ %s"=>" ++ id.display = x := fun hw hx e =>
    span_unique (P := identChar) hni hw (by intro c hc; simp at hc; subst hc; rfl) hx e
  cases h with
  | self => simp at hl
  | trait h =>
    have e := split2 (w := %s"trait") (x := %s"::" ++ _) (by decide) (by intro c hc; simp at hc; subst hc; rfl)
      (cons_colons (by simpa using hl))
    simp at e
  | member h =>
    have e := split2 (x := %s"=>" ++ _) (ident_chars (hn _ h).1) (by intro c hc; simp at hc; subst hc; rfl) (cons_colons (by simpa using hl))
    have e2 := hinj _ (hn _ h).2 (by simpa using e.2)
    exact .inl ⟨_, h, e.1.symm, e2.symm⟩
  | memberTrait h h' =>
    have e := split2 (x := %s"::trait::" ++ _) (ident_chars (hn _ h).1) (by intro c hc; simp at hc; subst hc; rfl)
      (cons_colons (by simpa using hl))
    simp at e
  | target h =>
    have e := split2 (x := %s"=>" ++ _) (hasTarget_alpha h) (by intro c hc; simp at hc; subst hc; rfl) (cons_colons (by simpa using hl))
    have e2 := hinj _ (htg _ _ h) (by simpa using e.2)
    obtain ⟨rfl, -⟩ := e
    exact .inr (e2 ▸ h)
  | version h =>
    have e := split2 (w := %s"version") (x := %s"<=" ++ _) (by decide) (by intro c hc; simp at hc; subst hc; rfl)
      (cons_colons (by simpa using hl))
    simp at e
  | rename h h' =>
    have e := split2 (w := %s"rename") (x := %s"::" ++ _) (by decide) (by intro c hc; simp at hc; subst hc; rfl)
      (cons_colons (by simpa using hl))
    simp at e
  | identifier h h' =>
    have e := split2 (w := %s"identifier") (x := %s"::" ++ _) (by decide) (by intro c hc; simp at hc; subst hc; rfl)
      (cons_colons (by simpa using hl))
    simp at e

/-- A line `...::trait::<trait text>` is about a trait applied to the shape. -/
theorem shapeText_trait {f : Fmt} {s : TopLevelShape} (hk : ValidKind s.body) {ts : Traits} (hts : ValidTraits ts)
    (hn : ∀ m, HasMemberShape s.body m → IsIdentifier m.id) {t : Str} (ht : TraitText f ts t)
    (h : ShapeText f s (%s"::trait::" ++ t)) : TraitText f s.traits t := by
  generalize hl : %s"::trait::" ++ t = l at h
  have split2 : ∀ {w x : Str}, (∀ c ∈ w, identChar c = true) → (∀ c, x.head? = some c → identChar c = false) →
      %s"trait" ++ (%s"::" ++ t) = w ++ x → %s"trait" = w ∧ %s"::" ++ t = x := fun hw hx e =>
    span_unique (P := identChar) (by decide) hw (by intro c hc; simp at hc; subst hc; rfl) hx e
  cases h with
  | self => simp at hl
  | trait h =>
    rename_i u
    have : t = u := by simpa using hl
    exact this ▸ h
  | member h =>
    have e := split2 (x := %s"=>" ++ _) (ident_chars (hn _ h)) (by intro c hc; simp at hc; subst hc; rfl)
      (cons_colons (by simpa using hl))
    simp at e
  | memberTrait h h' =>
    have e := split2 (x := %s"::trait::" ++ _) (ident_chars (hn _ h)) (by intro c hc; simp at hc; subst hc; rfl)
      (cons_colons (by simpa using hl))
    rename_i mm u
    have e2 : t = %s"trait::" ++ u := by simpa using e.2
    exact absurd (e2 ▸ ht) fun h => not_traitText_trait hts h
  | target h =>
    have e := split2 (x := %s"=>" ++ _) (hasTarget_alpha h) (by intro c hc; simp at hc; subst hc; rfl)
      (cons_colons (by simpa using hl))
    simp at e
  | version h => simp at hl
  | rename h h' => simp at hl
  | identifier h h' => simp at hl

/-- A line `...::member::trait::<trait text>` is about a trait applied to the member. -/
theorem shapeText_memberTrait {f : Fmt} {s : TopLevelShape} (hk : ValidKind s.body) (hst : ValidTraits s.traits)
    (hn : ∀ m, HasMemberShape s.body m → IsIdentifier m.id) {n : Str} (hni : IsIdentifier n) {t : Str}
    (h : ShapeText f s (%s"::" ++ n ++ %s"::trait::" ++ t)) :
    ∃ m, HasMemberShape s.body m ∧ m.id = n ∧ TraitText f m.traits t := by
  generalize hl : %s"::" ++ n ++ %s"::trait::" ++ t = l at h
  have split2 : ∀ {w x : Str}, (∀ c ∈ w, identChar c = true) → (∀ c, x.head? = some c → identChar c = false) →
      n ++ (%s"::trait::" ++ t) = w ++ x → n = w ∧ %s"::trait::" ++ t = x := fun hw hx e =>
    span_unique (P := identChar) (ident_chars hni) hw (by intro c hc; simp at hc; subst hc; rfl) hx e
  cases h with
  | self => simp at hl
  | trait h =>
    have e := split2 (w := %s"trait") (x := %s"::" ++ _) (by decide) (by intro c hc; simp at hc; subst hc; rfl)
      (cons_colons (by simpa using hl))
    rename_i u
    have e2 : u = %s"trait::" ++ t := by simpa using e.2.symm
    exact absurd (e2 ▸ h) fun h => not_traitText_trait hst h
  | member h =>
    have e := split2 (x := %s"=>" ++ _) (ident_chars (hn _ h)) (by intro c hc; simp at hc; subst hc; rfl)
      (cons_colons (by simpa using hl))
    simp at e
  | memberTrait h h' =>
    have e := split2 (x := %s"::trait::" ++ _) (ident_chars (hn _ h)) (by intro c hc; simp at hc; subst hc; rfl)
      (cons_colons (by simpa using hl))
    rename_i mm u
    have e2 : t = u := by simpa using e.2
    exact ⟨_, h, e.1.symm, e2 ▸ h'⟩
  | target h =>
    have e := split2 (x := %s"=>" ++ _) (hasTarget_alpha h) (by intro c hc; simp at hc; subst hc; rfl)
      (cons_colons (by simpa using hl))
    simp at e
  | version h =>
    have e := split2 (w := %s"version") (x := %s"<=" ++ _) (by decide) (by intro c hc; simp at hc; subst hc; rfl)
      (cons_colons (by simpa using hl))
    simp at e
  | rename h h' =>
    rename_i v rid rn
    have e := split2 (w := %s"rename") (x := %s"::" ++ (rid.display ++ (%s"<=" ++ rn))) (by decide)
      (by intro c hc; simp at hc; subst hc; rfl) (cons_colons (by simpa using hl))
    rw [h] at hk
    exact absurd (by simpa using e.2) fun he => not_trait_eq_display (hk.2.2.2 _ _ h').1 (t := t) (n := rn) (by simpa using he)
  | identifier h h' =>
    rename_i v rn rid
    have e := split2 (w := %s"identifier") (x := %s"::" ++ (rn ++ (%s"=>" ++ rid.display))) (by decide)
      (by intro c hc; simp at hc; subst hc; rfl) (cons_colons (by simpa using hl))
    rw [h] at hk
    have e2 := span_unique (P := identChar) (a := %s"trait") (b := rn) (x := %s"::" ++ t) (y := %s"=>" ++ rid.display)
      (by decide) (ident_chars (hk.1 _ _ h').1) (by intro c hc; simp at hc; subst hc; rfl)
      (by intro c hc; simp at hc; subst hc; rfl) (by simpa using e.2)
    simp at e2

theorem validKind_members {k : ShapeKind} (h : ValidKind k) : ∀ m, HasMemberShape k m → m.target.Valid ∧ ValidTraits m.traits := by
  intro m hm
  cases hm with
  | list => exact h
  | set => exact h
  | key => exact h.1
  | value => exact h.2
  | struct hg => exact (h _ _ hg).2
  | union hg => exact (h _ _ hg).2

theorem validKind_targets {k : ShapeKind} (h : ValidKind k) : ∀ n id, HasTarget k n id → id.Valid := by
  intro n id ht
  cases ht with
  | serviceOperation hm => exact h.2.1 _ hm
  | serviceResource hm => exact h.2.2.1 _ hm
  | input hm => exact h.1 _ hm
  | output hm => exact h.2.1 _ hm
  | error hm => exact h.2.2 _ hm
  | create hm => exact h.2.1 .create _ hm
  | put hm => exact h.2.1 .put _ hm
  | read hm => exact h.2.1 .read _ hm
  | update hm => exact h.2.1 .update _ hm
  | delete hm => exact h.2.1 .delete _ hm
  | list hm => exact h.2.1 .list _ hm
  | resourceOperation hm => exact h.2.2.1 _ hm
  | collectionOperation hm => exact h.2.2.2.1 _ hm
  | resourceResource hm => exact h.2.2.2.2 _ hm

/-- C34: the form determines the model's shapes: two (valid) models with the same lines have the same shape ids, with the
same types, the same members (names and targets), the same properties, and the same traits on shapes and members. -/
theorem C34_form_determines (f : Fmt) (a b : Model) (ha : WfModel a) (hb : WfModel b) (hva : ValidModel a) (hvb : ValidModel b)
    (hna : NamedMembers a) (hnb : NamedMembers b) (h : lineForm f a = lineForm f b) (id : ShapeID) :
    ((a.shape id).isSome = (b.shape id).isSome) ∧
    ∀ s s', a.shape id = some s → b.shape id = some s' →
      typeWord s.body = typeWord s'.body ∧
      (∀ n tgt, (∃ m, HasMemberShape s.body m ∧ m.id = n ∧ m.target = tgt) ∨ HasTarget s.body n tgt →
        (∃ m, HasMemberShape s'.body m ∧ m.id = n ∧ m.target = tgt) ∨ HasTarget s'.body n tgt) ∧
      (∀ t, TraitText f s.traits t → TraitText f s'.traits t) ∧
      (∀ m, HasMemberShape s.body m → ∀ t, TraitText f m.traits t →
        ∃ m', HasMemberShape s'.body m' ∧ m'.id = m.id ∧ TraitText f m'.traits t) := by
  constructor
  · cases hs : a.shape id with
    | some s => obtain ⟨s', hs', -⟩ := shape_determined f ha hb hva hvb h hs; simp [hs']
    | none =>
      cases hs' : b.shape id with
      | none => rfl
      | some s' => obtain ⟨s, h', -⟩ := shape_determined f hb ha hvb hva h.symm hs'; rw [hs] at h'; cases h'
  · intro s s' hs hs'
    obtain ⟨s'', hs'', hw, ht⟩ := shape_determined f ha hb hva hvb h hs
    rw [hs'] at hs''
    injection hs'' with e
    subst e
    obtain ⟨-, htr, hk⟩ := hva _ _ hs
    obtain ⟨-, htr', hk'⟩ := hvb _ _ hs'
    have hn' := hnb _ _ hs'
    have hm' := validKind_members hk'
    refine ⟨hw, ?_, fun t htt => ?_, fun m hm t htt => ?_⟩
    · rintro n tgt (⟨m, hm, rfl, rfl⟩ | htg)
      · exact shapeText_target hk' (fun m hm => ⟨hn' m hm, (hm' m hm).1⟩) (validKind_targets hk')
          (ident_chars (hna _ _ hs m hm)) (validKind_members hk m hm).1 (ht _ (.member hm))
      · exact shapeText_target hk' (fun m hm => ⟨hn' m hm, (hm' m hm).1⟩) (validKind_targets hk')
          (hasTarget_alpha htg) (validKind_targets hk _ _ htg) (ht _ (.target htg))
    · exact shapeText_trait hk' htr hn' htt (ht _ (.trait htt))
    · exact shapeText_memberTrait hk' htr' hn' (hna _ _ hs m hm) (ht _ (.memberTrait hm htt))

theorem exJsonModel_named : NamedMembers exJsonModel := by
  intro id s h mem hm
  have := AMap.mem_of_get h
  simp only [exJsonModel, List.mem_cons, Prod.mk.injEq, List.not_mem_nil, or_false] at this
  rcases this with ⟨rfl, rfl⟩ | ⟨rfl, rfl⟩ | ⟨rfl, rfl⟩
  · cases hm with | struct hg => obtain ⟨rfl, rfl⟩ := get_one hg; exact (isIdent_iff _).mp (by decide)
  · cases hm; exact (isIdent_iff _).mp (by decide)
  · cases hm

/-- The hypotheses are met by a model with a documented structure, a list and a service; its form tells it from the empty model. -/
example (f : Fmt) : lineForm f exJsonModel ≠ lineForm f (Model.new .v10) := fun h => by
  have h0 : ∀ id, (Model.new .v10).shape id = none := fun id => rfl
  have := (C34_form_determines f exJsonModel (Model.new .v10) exJsonModel_ok.1
    ⟨AMap.wf_nil, (by simp [Model.new]), AMap.wf_nil, (by simp [h0]), (by simp [h0]), (by simp [h0])⟩ exJsonModel_ok.2.1
    (fun id s h => by simp [h0] at h) exJsonModel_named (fun id s h => by simp [h0] at h) h (sid %s"S")).1
  exact absurd this (by decide)

/-- C34: metadata entries are determined too, for keys without `<`. -/
theorem C34_metadata_determined (f : Fmt) (a b : Model) (ha : WfModel a) (hb : WfModel b)
    (hka : ∀ k ∈ AMap.keys a.metadata, '<' ∉ k) (hkb : ∀ k ∈ AMap.keys b.metadata, '<' ∉ k)
    (h : lineForm f a = lineForm f b) (k : Str) (v : Value) (t : Str) (hg : a.metadata.get k = some v) (ht : ValueText f v t) :
    ∃ v', b.metadata.get k = some v' ∧ ValueText f v' t := by
  have hl := (lineOf_iff_of_lineForm_eq f ha hb h _).mp (.metadata hg ht)
  generalize he : %s"meta::" ++ k ++ %s"<=" ++ t = l at hl
  have hk : '<' ∉ k := hka k ((AMap.mem_keys_iff _ _).mpr (by simp [hg]))
  cases hl with
  | metadata hg' ht' =>
    rename_i k' v' t'
    have hk' : '<' ∉ k' := hkb k' ((AMap.mem_keys_iff _ _).mpr (by simp [hg']))
    have := span_unique (P := fun c => c != '<') (a := k) (b := k') (x := %s"<=" ++ t) (y := %s"<=" ++ t')
      (by intro c hc; simp; rintro rfl; exact hk hc) (by intro c hc; simp; rintro rfl; exact hk' hc)
      (by intro c hc; simp at hc; subst hc; rfl) (by intro c hc; simp at hc; subst hc; rfl) (by simpa using he)
    obtain ⟨rfl, e⟩ := this
    have : t = t' := by simpa using e
    exact ⟨v', hg', this ▸ ht'⟩
  | shape hg' ht' =>
    rename_i id s u
    simp only [List.append_assoc] at he
    have := span_unique (P := fun c => c.isAlpha) (a := %s"meta") (b := typeWord s.body) (x := %s"::" ++ (k ++ (%s"<=" ++ t)))
      (y := %s"::" ++ (id.display ++ u)) (by decide) (typeWord_chars _) (by simp) (by simp) (by simpa using he)
    exact absurd this.1.symm (typeWord_ne_meta _)

/-- C34: the form is not injective on values: keys are not escaped, so that `{"k}={j": 1}` and `{"k": {"j": 1}}` have the
same lines, although the models differ. -/
theorem C34_values_ambiguous (f : Fmt) : ∃ a b : Model, WfModel a ∧ WfModel b ∧ a.meq b = false ∧ lineForm f a = lineForm f b := by
  refine ⟨⟨.v10, [(%s"x", .object [(%s"k}={j", .boolean true)])], []⟩,
    ⟨.v10, [(%s"x", .object [(%s"k", .object [(%s"j", .boolean true)])])], []⟩, ?_, ?_, rfl, rfl⟩
  · refine ⟨by simp [AMap.Wf, AMap.keys], ?_, AMap.wf_nil, by simp [Model.shape], by simp [Model.shape], by simp [Model.shape]⟩
    intro k v h
    simp [AMap.get_cons] at h
    obtain ⟨-, rfl⟩ := h
    exact .object (by simp [AMap.Wf, AMap.keys]) (by simp; exact .boolean)
  · refine ⟨by simp [AMap.Wf, AMap.keys], ?_, AMap.wf_nil, by simp [Model.shape], by simp [Model.shape], by simp [Model.shape]⟩
    intro k v h
    simp [AMap.get_cons] at h
    obtain ⟨-, rfl⟩ := h
    exact .object (by simp [AMap.Wf, AMap.keys]) (by simp; exact .object (by simp [AMap.Wf, AMap.keys]) (by simp; exact .boolean))

/-- C34: the order of the operations of a service is lost: the models differ, the lines do not. -/
theorem C34_order_lost (f : Fmt) : ∃ a b : Model, WfModel a ∧ WfModel b ∧ a.meq b = false ∧ lineForm f a = lineForm f b := by
  let svc (ops : List ShapeID) : Model := ⟨.v10, [], [(sid %s"S", ⟨sid %s"S", [], .service ⟨%s"1", ops, [], []⟩⟩)]⟩
  have hw : ∀ ops, WfModel (svc ops) := fun ops =>
    wf_singleShape ⟨sid %s"S", [], .service ⟨%s"1", ops, [], []⟩⟩ rfl ⟨⟨AMap.wf_nil, (by simp)⟩, (AMap.wf_nil : AMap.Wf ([] : AMap ShapeID Str))⟩
      [] AMap.wf_nil (by simp)
  refine ⟨svc [sid %s"A", sid %s"B"], svc [sid %s"B", sid %s"A"], hw _, hw _, rfl, mergeSort_eq_of_perm ?_⟩
  simp only [svc, unsorted, List.flatMap_nil, List.nil_append, Model.shapesList, AMap.values, List.map_cons, List.map_nil,
    List.flatMap_cons, ofShape, ofKind, ofTargets, linePrefix, typeName]
  refine List.Perm.append_right _ (List.Perm.cons _ (List.Perm.append_right _ (List.Perm.cons _ ?_)))
  exact List.Perm.append_right _ (List.Perm.append_right _ (List.Perm.swap _ _ _))

/-- C33: what is written is the lines, each ended by a newline; if no line has a newline inside, cutting the text at the
newlines gives the lines back (and the empty rest after the last one). -/
theorem C33_written (f : Fmt) (m : Model) : writeLines f m = joinWith ['\n'] (lineForm f m ++ [[]]) ∧
    ((∀ l ∈ lineForm f m, '\n' ∉ l) → splitOn '\n' (writeLines f m) = lineForm f m ++ [[]]) := by
  have h : ∀ ls : List Str, (ls.flatMap fun l => l ++ ['\n']) = joinWith ['\n'] (ls ++ [[]]) := by
    intro ls
    induction ls with
    | nil => rfl
    | cons l ls ih =>
      rw [List.flatMap_cons, ih]
      cases ls with
      | nil => simp [joinWith]
      | cons l' ls => simp [joinWith]
  refine ⟨h _, fun hn => ?_⟩
  rw [show writeLines f m = _ from h _]
  refine splitOn_joinWith (by simp) ?_
  intro p hp
  rcases List.mem_append.mp hp with hp | hp
  · exact hn p hp
  · rw [List.mem_singleton] at hp; subst hp; simp

end Verif
