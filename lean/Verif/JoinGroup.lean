/-
Property theorems C99: merging (`Model::merge`, atelier-core/src/model/mod.rs:91-110) does not depend on how the models are grouped.
-/
import Verif.JoinProps

namespace Verif
open Spec

/-! ### Combining is associative -/

/-- What can be combined from the left can be combined from the right, with the same result, and the other way round. -/
structure Assoc {V : Type} (M : V → V → V → Prop) : Prop where
  right : ∀ {x y w u o}, M x y u → M u w o → ∃ z, M y w z ∧ M x z o
  left : ∀ {x y w z o}, M y w z → M x z o → ∃ u, M x y u ∧ M u w o

theorem assoc_meta : Assoc MetaMerge where
  right := by
    intro x y w u o h h'
    cases h with
    | @concat a b =>
      cases h' with
      | concat => exact ⟨_, .concat, by rw [List.append_assoc]; exact .concat⟩
      | equal hn he => exact absurd ⟨rfl, by rw [← VEq.isArray he]; rfl⟩ hn
    | equal hn he =>
      cases h' with
      | concat => exact absurd ⟨rfl, by rw [← VEq.isArray he]; rfl⟩ hn
      | equal hn' he' =>
        refine ⟨y, .equal (fun h => hn ⟨?_, h.1⟩) (VEq.trans (VEq.symm he) he'), .equal hn he⟩
        rw [VEq.isArray he]; exact h.1
  left := by
    intro x y w z o h h'
    cases h with
    | @concat a b =>
      cases h' with
      | concat => exact ⟨_, .concat, by rw [← List.append_assoc]; exact .concat⟩
      | equal hn he => exact absurd ⟨by rw [VEq.isArray he]; rfl, rfl⟩ hn
    | equal hn he =>
      cases h' with
      | concat => exact absurd ⟨rfl, by rw [← VEq.isArray he]; rfl⟩ hn
      | equal hn' he' => exact ⟨x, .equal hn' he', .equal (fun h => hn' ⟨h.1, by rw [← VEq.isArray he']; exact h.1⟩) (VEq.trans he' he)⟩

theorem traitMerge_some {x y : Value} {t : TraitValue} : TraitMerge (some x) (some y) t ↔ ∃ z, t = some z ∧ MetaMerge x y z := by
  constructor
  · intro h
    cases h with
    | concat => exact ⟨_, rfl, .concat⟩
    | equal h1 h2 => exact ⟨_, rfl, .equal h1 h2⟩
  · rintro ⟨z, rfl, h⟩
    cases h with
    | concat => exact .concat
    | equal h1 h2 => exact .equal h1 h2

theorem assoc_trait : Assoc TraitMerge where
  right := by
    intro x y w u o h h'
    match x, y, h with
    | none, none, h => cases h; cases h'; exact ⟨none, .valueless, .valueless⟩
    | some x, some y, h =>
      obtain ⟨u', rfl, hu⟩ := traitMerge_some.mp h
      match w, h' with
      | some w, h' =>
        obtain ⟨o', rfl, ho⟩ := traitMerge_some.mp h'
        obtain ⟨z, h1, h2⟩ := assoc_meta.right hu ho
        exact ⟨some z, traitMerge_some.mpr ⟨_, rfl, h1⟩, traitMerge_some.mpr ⟨_, rfl, h2⟩⟩
  left := by
    intro x y w z o h h'
    match y, w, h with
    | none, none, h => cases h; cases h'; exact ⟨none, .valueless, .valueless⟩
    | some y, some w, h =>
      obtain ⟨u', rfl, hu⟩ := traitMerge_some.mp h
      match x, h' with
      | some x, h' =>
        obtain ⟨o', rfl, ho⟩ := traitMerge_some.mp h'
        obtain ⟨z, h1, h2⟩ := assoc_meta.left hu ho
        exact ⟨some z, traitMerge_some.mpr ⟨_, rfl, h1⟩, traitMerge_some.mpr ⟨_, rfl, h2⟩⟩

theorem assoc_body : Assoc BodyMerge where
  right := by
    intro x y w u o h h'
    cases h with
    | same h1 h2 h3 =>
      cases h' with
      | same _ h4 h5 => exact ⟨y, .same h2 h4 (h3.symm.trans h5), .same h1 h2 h3⟩
      | resolve => exact absurd rfl h1
      | keep => exact ⟨y, .keep, .same h1 h2 h3⟩
    | resolve h1 =>
      cases h' with
      | same h2 h3 h4 => exact ⟨_, .same h2 h3 h4, .resolve h2⟩
      | resolve => exact absurd rfl h1
      | keep => exact ⟨_, .keep, .resolve h1⟩
    | keep =>
      by_cases hw : w = .unresolved
      · subst hw; exact ⟨_, .keep, h'⟩
      · exact ⟨w, .resolve hw, h'⟩
  left := by
    intro x y w z o h h'
    cases h with
    | same h1 h2 h3 =>
      cases h' with
      | same h4 _ h5 => exact ⟨x, .same h4 h1 h5, .same h4 h2 (h5.trans h3)⟩
      | resolve => exact ⟨y, .resolve h1, .same h1 h2 h3⟩
      | keep => exact absurd rfl h1
    | resolve h1 => exact ⟨x, .keep, h'⟩
    | keep => exact ⟨o, h', .keep⟩

/-- The same for what may be absent. -/
theorem Assoc.combine {V : Type} {M : V → V → V → Prop} (h : Assoc M) : Assoc fun (A B : Option V) (C : Option V) => Combine M A B C where
  right := by
    intro x y w u o h1 h2
    cases h1 with
    | neither => exact ⟨w, by cases w <;> constructor, h2⟩
    | left => exact ⟨w, by cases w <;> constructor, h2⟩
    | right => exact ⟨o, h2, by cases h2 <;> constructor⟩
    | both hm =>
      cases h2 with
      | left => exact ⟨_, .left, .both hm⟩
      | both hm' =>
        obtain ⟨z, h1, h2⟩ := h.right hm hm'
        exact ⟨_, .both h1, .both h2⟩
  left := by
    intro x y w u o h1 h2
    cases h1 with
    | neither => exact ⟨x, by cases x <;> constructor, by cases h2 <;> constructor⟩
    | right => exact ⟨x, by cases x <;> constructor, h2⟩
    | left => exact ⟨o, h2, by cases h2 <;> constructor⟩
    | both hm =>
      cases h2 with
      | right => exact ⟨_, .right, .both hm⟩
      | both hm' =>
        obtain ⟨z, h1, h2⟩ := h.left hm hm'
        exact ⟨_, .both h1, .both h2⟩

/-! ### What a model has of each thing -/

/-- The definition under an id. -/
abbrev bodyAt (m : Model) (id : ShapeID) : Option ShapeKind := (m.shape id).map (·.body)

/-- The value of a trait of a shape. -/
abbrev traitAt (m : Model) (id t : ShapeID) : Option TraitValue := (m.shape id).bind fun s => s.traits.get t

/-- `c` has of everything what `a` and `b` make together. -/
structure Makes3 (a b c : Model) : Prop where
  versionl : c.version = a.version
  versionr : c.version = b.version
  metadata : ∀ k, Combine MetaMerge (a.metadataValue k) (b.metadataValue k) (c.metadataValue k)
  bodies : ∀ id, Combine BodyMerge (bodyAt a id) (bodyAt b id) (bodyAt c id)
  traits : ∀ id t, Combine TraitMerge (traitAt a id t) (traitAt b id t) (traitAt c id t)

theorem makes3_of_merge {a b : Model} (ha : WfModel a) (hb : WfModel b) (h : (a.merge b).2 = .ok ()) : Makes3 a b (a.merge b).1 := by
  have hs := merge_spec ha hb h
  exact ⟨hs.versionl, hs.versionr, hs.metadata, fun id => combine_body (hs.shapes id), fun id t => combine_trait (hs.shapes id) t⟩

theorem merge_of_parts {a b : Model} (ha : WfModel a) (hb : WfModel b) (hl : LegalModel b) (hv : a.version = b.version)
    (hm : ∀ k, ∃ o, Combine MetaMerge (a.metadataValue k) (b.metadataValue k) o)
    (hbd : ∀ id, ∃ o, Combine BodyMerge (bodyAt a id) (bodyAt b id) o)
    (ht : ∀ id t, ∃ o, Combine TraitMerge (traitAt a id t) (traitAt b id t) o) : (a.merge b).2 = .ok () := by
  rw [merge_ok_iff ha hb]
  refine ⟨hv, ?_, ?_⟩
  · intro k x y hx hy
    obtain ⟨o, ho⟩ := hm k
    simp only [Model.metadataValue, hx, hy] at ho
    cases ho with
    | both h => exact ⟨_, h⟩
  · intro id x y hx hy
    refine ⟨?_, ?_, hl id y hy⟩
    · obtain ⟨o, ho⟩ := hbd id
      simp only [bodyAt, hx, hy, Option.map_some] at ho
      cases ho with
      | both h => exact BodyMerge.exists_iff.mp ⟨_, h⟩
    · intro t p q hp hq
      obtain ⟨o, ho⟩ := ht id t
      simp only [traitAt, hx, hy, Option.bind_some, hp, hq] at ho
      cases ho with
      | both h => exact ⟨_, h⟩

theorem Spec.Combine.unique' {V : Type} {M : V → V → V → Prop} (hu : ∀ x y z z', M x y z → M x y z' → z = z') {A B C C' : Option V}
    (h : Combine M A B C) (h' : Combine M A B C') : C = C' := by
  cases h with
  | neither => cases h'; rfl
  | left => cases h'; rfl
  | right => cases h'; rfl
  | both hm => cases h' with
    | both hm' => rw [hu _ _ _ _ hm hm']

theorem meta_unique {A B C C' : Option Value} (h : Combine MetaMerge A B C) (h' : Combine MetaMerge A B C') : C = C' :=
  h.unique' (M := MetaMerge) (fun _ _ _ _ h h' => MetaMerge.unique h h') h'
theorem body_unique {A B C C' : Option ShapeKind} (h : Combine BodyMerge A B C) (h' : Combine BodyMerge A B C') : C = C' :=
  h.unique' (M := BodyMerge) (fun _ _ _ _ h h' => BodyMerge.unique h h') h'
theorem trait_unique {A B C C' : Option TraitValue} (h : Combine TraitMerge A B C) (h' : Combine TraitMerge A B C') : C = C' :=
  h.unique' (M := TraitMerge) (fun _ _ _ _ h h' => TraitMerge.unique h h') h'

theorem alike_of_parts {r r' : Model} (hr : WfModel r) (hr' : WfModel r') (hv : r.version = r'.version)
    (hm : ∀ k, r.metadataValue k = r'.metadataValue k) (hb : ∀ id, bodyAt r id = bodyAt r' id)
    (ht : ∀ id t, traitAt r id t = traitAt r' id t) : Alike r r' := by
  refine ⟨hv, hm, fun id => ?_⟩
  have h1 := hb id; have h2 := ht id
  have k1 := hr.key id; have k2 := hr'.key id
  simp only [bodyAt, traitAt] at h1 h2
  generalize r.shape id = x at *
  generalize r'.shape id = y at *
  cases x with
  | none => cases y with
    | none => exact .none
    | some => cases h1
  | some x => cases y with
    | none => cases h1
    | some y =>
      refine .some ⟨(k1 x rfl).trans (k2 y rfl).symm, by simpa using h1, fun t => ?_⟩
      exact h2 t

theorem Spec.Alike.bodyAt {r r' : Model} (h : Alike r r') (id : ShapeID) : bodyAt r id = bodyAt r' id := by
  have := h.shapes id
  unfold Verif.bodyAt
  generalize r.shape id = x at *
  generalize r'.shape id = y at *
  cases this with
  | none => rfl
  | some h => simp [h.2.1]

theorem Spec.Alike.traitAt {r r' : Model} (h : Alike r r') (id t : ShapeID) : traitAt r id t = traitAt r' id t := by
  have := h.shapes id
  unfold Verif.traitAt
  generalize r.shape id = x at *
  generalize r'.shape id = y at *
  cases this with
  | none => rfl
  | some h => simp [h.2.2]

theorem Spec.Alike.refl (m : Model) : Alike m m :=
  ⟨rfl, fun _ => rfl, fun id => by cases m.shape id with
    | none => exact .none
    | some s => exact .some ⟨rfl, rfl, fun _ => rfl⟩⟩

theorem Spec.Alike.symm {a b : Model} (h : Alike a b) : Alike b a :=
  ⟨h.version.symm, fun k => (h.metadata k).symm, fun id => by
    have := h.shapes id
    generalize a.shape id = x at *
    generalize b.shape id = y at *
    cases this with
    | none => exact .none
    | some h => exact .some ⟨h.1.symm, h.2.1.symm, fun t => (h.2.2 t).symm⟩⟩

theorem Spec.Alike.trans {a b c : Model} (h : Alike a b) (h' : Alike b c) : Alike a c :=
  ⟨h.version.trans h'.version, fun k => (h.metadata k).trans (h'.metadata k), fun id => by
    have h1 := h.shapes id
    have h2 := h'.shapes id
    generalize a.shape id = x at *
    generalize b.shape id = y at *
    generalize c.shape id = z at *
    cases h1 with
    | none => cases h2; exact .none
    | some h => cases h2 with
      | some h' => exact .some ⟨h.1.trans h'.1, h.2.1.trans h'.2.1, fun t => (h.2.2 t).trans (h'.2.2 t)⟩⟩

theorem Makes3.unique {a b r r' : Model} (hr : WfModel r) (hr' : WfModel r') (h : Makes3 a b r) (h' : Makes3 a b r') : Alike r r' :=
  alike_of_parts hr hr' (h.versionl.trans h'.versionl.symm)
    (fun k => meta_unique (h.metadata k) (h'.metadata k))
    (fun id => body_unique (h.bodies id) (h'.bodies id))
    (fun id t => trait_unique (h.traits id t) (h'.traits id t))

theorem legal_merge {a b : Model} (ha : WfModel a) (hb : WfModel b) (h : (a.merge b).2 = .ok ()) (la : LegalModel a) (lb : LegalModel b) :
    LegalModel (a.merge b).1 := by
  have hs := merge_spec ha hb h
  intro id s hs' t v hv
  have hc := hs.shapes id
  rw [show (a.merge b).1.shapes.get id = some s from hs'] at hc
  have h1 := la id; have h2 := lb id
  simp only [Model.shape] at h1 h2
  generalize AMap.get a.shapes id = A at *
  generalize AMap.get b.shapes id = B at *
  cases hc with
  | left => exact h1 s rfl t v hv
  | right => exact h2 s rfl t v hv
  | @both x y _ hm =>
    have := hm.traits t
    rw [hv] at this
    have h3 := h1 x rfl t; have h4 := h2 y rfl t
    generalize AMap.get x.traits t = p at *
    generalize AMap.get y.traits t = q at *
    cases this with
    | left => exact h3 _ rfl
    | right => exact h4 _ rfl
    | both => exact h3 _ rfl

/-- C99: of three models, merging the second into the first and then the third into that succeeds exactly if merging the third into
the second, and that into the first, does; and gives the same model. -/
theorem C99_three (a b c : Model) (ha : WfModel a) (hb : WfModel b) (hc : WfModel c) (lb : LegalModel b) (lc : LegalModel c) :
    ((a.merge b).2 = .ok () ∧ ((a.merge b).1.merge c).2 = .ok () ↔ (b.merge c).2 = .ok () ∧ (a.merge (b.merge c).1).2 = .ok ()) ∧
    ((a.merge b).2 = .ok () → ((a.merge b).1.merge c).2 = .ok () →
      Alike ((a.merge b).1.merge c).1 (a.merge (b.merge c).1).1) := by
  have hab := wf_merge ha hb
  have hbc := wf_merge hb hc
  have key : (a.merge b).2 = .ok () → ((a.merge b).1.merge c).2 = .ok () →
      ((b.merge c).2 = .ok () ∧ (a.merge (b.merge c).1).2 = .ok ()) ∧ Alike ((a.merge b).1.merge c).1 (a.merge (b.merge c).1).1 := by
    intro h1 h2
    have m1 := makes3_of_merge ha hb h1
    have m2 := makes3_of_merge hab hc h2
    have hwr := wf_merge hab hc
    generalize hr : ((a.merge b).1.merge c).1 = r at *
    have h3 : (b.merge c).2 = .ok () := by
      refine merge_of_parts hb hc lc ?_ ?_ ?_ ?_
      · rw [← m1.versionr, ← m2.versionl, m2.versionr]
      · intro k; obtain ⟨z, h, _⟩ := assoc_meta.combine.right (m1.metadata k) (m2.metadata k); exact ⟨z, h⟩
      · intro id; obtain ⟨z, h, _⟩ := assoc_body.combine.right (m1.bodies id) (m2.bodies id); exact ⟨z, h⟩
      · intro id t; obtain ⟨z, h, _⟩ := assoc_trait.combine.right (m1.traits id t) (m2.traits id t); exact ⟨z, h⟩
    have m3 := makes3_of_merge hb hc h3
    have hmeta : ∀ k, Combine MetaMerge (a.metadataValue k) ((b.merge c).1.metadataValue k) (r.metadataValue k) := by
      intro k
      obtain ⟨z, h, h'⟩ := assoc_meta.combine.right (m1.metadata k) (m2.metadata k)
      rw [← meta_unique h (m3.metadata k)]; exact h'
    have hbod : ∀ id, Combine BodyMerge (bodyAt a id) (bodyAt (b.merge c).1 id) (bodyAt r id) := by
      intro id
      obtain ⟨z, h, h'⟩ := assoc_body.combine.right (m1.bodies id) (m2.bodies id)
      rw [← body_unique h (m3.bodies id)]; exact h'
    have htr : ∀ id t, Combine TraitMerge (traitAt a id t) (traitAt (b.merge c).1 id t) (traitAt r id t) := by
      intro id t
      obtain ⟨z, h, h'⟩ := assoc_trait.combine.right (m1.traits id t) (m2.traits id t)
      rw [← trait_unique h (m3.traits id t)]; exact h'
    have hver : a.version = (b.merge c).1.version := by rw [m3.versionl, ← m1.versionr, m1.versionl]
    have h4 := merge_of_parts ha hbc (legal_merge hb hc h3 lb lc) hver (fun k => ⟨_, hmeta k⟩) (fun id => ⟨_, hbod id⟩) (fun id t => ⟨_, htr id t⟩)
    refine ⟨⟨h3, h4⟩, ?_⟩
    have m4 := makes3_of_merge ha hbc h4
    refine Makes3.unique hwr (wf_merge ha hbc) ⟨?_, ?_, hmeta, hbod, htr⟩ m4
    · rw [m2.versionl, m1.versionl]
    · rw [m2.versionl, m1.versionl, hver]
  refine ⟨⟨fun h => (key h.1 h.2).1, ?_⟩, fun h1 h2 => (key h1 h2).2⟩
  rintro ⟨h3, h4⟩
  have m3 := makes3_of_merge hb hc h3
  have m4 := makes3_of_merge ha hbc h4
  have h1 : (a.merge b).2 = .ok () := by
    refine merge_of_parts ha hb lb ?_ ?_ ?_ ?_
    · rw [← m4.versionl, m4.versionr, m3.versionl]
    · intro k; obtain ⟨z, h, _⟩ := assoc_meta.combine.left (m3.metadata k) (m4.metadata k); exact ⟨z, h⟩
    · intro id; obtain ⟨z, h, _⟩ := assoc_body.combine.left (m3.bodies id) (m4.bodies id); exact ⟨z, h⟩
    · intro id t; obtain ⟨z, h, _⟩ := assoc_trait.combine.left (m3.traits id t) (m4.traits id t); exact ⟨z, h⟩
  have m1 := makes3_of_merge ha hb h1
  refine ⟨h1, merge_of_parts hab hc lc ?_ ?_ ?_ ?_⟩
  · rw [m1.versionr, ← m3.versionl, m3.versionr]
  · intro k
    obtain ⟨z, h, h'⟩ := assoc_meta.combine.left (m3.metadata k) (m4.metadata k)
    rw [← meta_unique h (m1.metadata k)]; exact ⟨_, h'⟩
  · intro id
    obtain ⟨z, h, h'⟩ := assoc_body.combine.left (m3.bodies id) (m4.bodies id)
    rw [← body_unique h (m1.bodies id)]; exact ⟨_, h'⟩
  · intro id t
    obtain ⟨z, h, h'⟩ := assoc_trait.combine.left (m3.traits id t) (m4.traits id t)
    rw [← trait_unique h (m1.traits id t)]; exact ⟨_, h'⟩

/-! ### Any grouping of any number of models -/

theorem Spec.Alike.merge {a a' b b' : Model} (ha : WfModel a) (ha' : WfModel a') (hb : WfModel b) (hb' : WfModel b')
    (lb' : LegalModel b') (h : Alike a a') (h' : Alike b b') (hok : (a.merge b).2 = .ok ()) :
    (a'.merge b').2 = .ok () ∧ Alike (a.merge b).1 (a'.merge b').1 := by
  have m1 := makes3_of_merge ha hb hok
  have hm : Makes3 a' b' (a.merge b).1 := by
    refine ⟨m1.versionl.trans h.version, m1.versionr.trans h'.version, fun k => ?_, fun id => ?_, fun id t => ?_⟩
    · rw [← h.metadata k, ← h'.metadata k]; exact m1.metadata k
    · rw [← h.bodyAt id, ← h'.bodyAt id]; exact m1.bodies id
    · rw [← h.traitAt id t, ← h'.traitAt id t]; exact m1.traits id t
  have hok' := merge_of_parts ha' hb' lb' (hm.versionl.symm.trans hm.versionr) (fun k => ⟨_, hm.metadata k⟩) (fun id => ⟨_, hm.bodies id⟩)
    (fun id t => ⟨_, hm.traits id t⟩)
  exact ⟨hok', Makes3.unique (wf_merge ha hb) (wf_merge ha' hb') hm (makes3_of_merge ha' hb' hok')⟩

theorem mergesTo_cons {a m r : Model} {ms : List Model} : MergesTo a (m :: ms) r ↔ (a.merge m).2 = .ok () ∧ MergesTo (a.merge m).1 ms r := by
  constructor
  · intro h
    cases h with
    | step h1 h2 => rw [h1]; exact ⟨rfl, h2⟩
  · rintro ⟨h1, h2⟩
    exact .step (Prod.ext rfl h1) h2

theorem mergesTo_nil {a r : Model} : MergesTo a [] r ↔ r = a := by
  constructor
  · intro h; cases h; rfl
  · rintro rfl; exact .done

theorem mergesTo_append {xs ys : List Model} : ∀ {a r : Model}, MergesTo a (xs ++ ys) r ↔ ∃ m, MergesTo a xs m ∧ MergesTo m ys r := by
  induction xs with
  | nil => intro a r; simp [mergesTo_nil]
  | cons x xs ih =>
    intro a r
    simp only [List.cons_append, mergesTo_cons, ih]
    constructor
    · rintro ⟨h, m, h1, h2⟩; exact ⟨m, ⟨h, h1⟩, h2⟩
    · rintro ⟨m, ⟨h, h1⟩, h2⟩; exact ⟨h, m, h1, h2⟩

theorem Spec.MergesTo.functional {ms : List Model} : ∀ {a r r' : Model}, MergesTo a ms r → MergesTo a ms r' → r = r' := by
  induction ms with
  | nil => intro a r r' h h'; rw [mergesTo_nil.mp h, mergesTo_nil.mp h']
  | cons m ms ih => intro a r r' h h'; exact ih (mergesTo_cons.mp h).2 (mergesTo_cons.mp h').2

theorem Spec.MergesTo.wf {ms : List Model} : ∀ {a r : Model}, MergesTo a ms r → WfModel a → (∀ m ∈ ms, WfModel m) → WfModel r := by
  induction ms with
  | nil => intro a r h ha _; rw [mergesTo_nil.mp h]; exact ha
  | cons m ms ih =>
    intro a r h ha hw
    exact ih (mergesTo_cons.mp h).2 (wf_merge ha (hw m (by simp))) fun x hx => hw x (by simp [hx])

theorem Spec.MergesTo.legal {ms : List Model} : ∀ {a r : Model}, MergesTo a ms r → WfModel a → (∀ m ∈ ms, WfModel m) → LegalModel a →
    (∀ m ∈ ms, LegalModel m) → LegalModel r := by
  induction ms with
  | nil => intro a r h _ _ hl _; rw [mergesTo_nil.mp h]; exact hl
  | cons m ms ih =>
    intro a r h ha hw la hl
    have h' := mergesTo_cons.mp h
    exact ih h'.2 (wf_merge ha (hw m (by simp))) (fun x hx => hw x (by simp [hx])) (legal_merge ha (hw m (by simp)) h'.1 la (hl m (by simp)))
      fun x hx => hl x (by simp [hx])

theorem Spec.Alike.merges {ms : List Model} : ∀ {a a' r : Model}, WfModel a → WfModel a' → (∀ m ∈ ms, WfModel m) → (∀ m ∈ ms, LegalModel m) →
    Alike a a' → MergesTo a ms r → ∃ r', MergesTo a' ms r' ∧ Alike r r' := by
  induction ms with
  | nil => intro a a' r _ _ _ _ h hr; rw [mergesTo_nil.mp hr]; exact ⟨a', .done, h⟩
  | cons m ms ih =>
    intro a a' r ha ha' hw hl h hr
    obtain ⟨hok, hr⟩ := mergesTo_cons.mp hr
    have hm := hw m (by simp)
    obtain ⟨hok', h'⟩ := h.merge ha ha' hm hm (hl m (by simp)) (.refl m) hok
    obtain ⟨r', h1, h2⟩ := ih (wf_merge ha hm) (wf_merge ha' hm) (fun x hx => hw x (by simp [hx])) (fun x hx => hl x (by simp [hx])) h' hr
    exact ⟨r', mergesTo_cons.mpr ⟨hok', h1⟩, h2⟩

theorem merges_group {ys : List Model} : ∀ {a b : Model}, WfModel a → WfModel b → LegalModel b → (∀ m ∈ ys, WfModel m) →
    (∀ m ∈ ys, LegalModel m) →
    (∀ r, (a.merge b).2 = .ok () → MergesTo (a.merge b).1 ys r → ∃ y, MergesTo b ys y ∧ (a.merge y).2 = .ok () ∧ Alike r (a.merge y).1) ∧
    (∀ y, MergesTo b ys y → (a.merge y).2 = .ok () → (a.merge b).2 = .ok () ∧ ∃ r, MergesTo (a.merge b).1 ys r) := by
  induction ys with
  | nil =>
    intro a b ha hb lb _ _
    refine ⟨fun r hok h => ⟨b, .done, hok, ?_⟩, fun y h hok => ?_⟩
    · rw [mergesTo_nil.mp h]; exact .refl _
    · rw [mergesTo_nil.mp h] at hok; exact ⟨hok, _, .done⟩
  | cons m ms ih =>
    intro a b ha hb lb hw hl
    have hm := hw m (by simp)
    have lm := hl m (by simp)
    have hw' : ∀ x ∈ ms, WfModel x := fun x hx => hw x (by simp [hx])
    have hl' : ∀ x ∈ ms, LegalModel x := fun x hx => hl x (by simp [hx])
    obtain ⟨h3, h4⟩ := C99_three a b m ha hb hm lb lm
    have hab := wf_merge ha hb
    have hbm := wf_merge hb hm
    refine ⟨fun r hok h => ?_, fun y h hok => ?_⟩
    · obtain ⟨hok2, h⟩ := mergesTo_cons.mp h
      obtain ⟨hbm_ok, habm⟩ := h3.mp ⟨hok, hok2⟩
      have hal := h4 hok hok2
      obtain ⟨r', hr', hal'⟩ := hal.merges (wf_merge hab hm) (wf_merge ha hbm) hw' hl' h
      obtain ⟨y, hy, hy', hal''⟩ := (ih ha hbm (legal_merge hb hm hbm_ok lb lm) hw' hl').1 r' habm hr'
      exact ⟨y, mergesTo_cons.mpr ⟨hbm_ok, hy⟩, hy', hal'.trans hal''⟩
    · obtain ⟨hbm_ok, h⟩ := mergesTo_cons.mp h
      obtain ⟨habm, r, hr⟩ := (ih ha hbm (legal_merge hb hm hbm_ok lb lm) hw' hl').2 y h hok
      obtain ⟨hok, hok2⟩ := h3.mpr ⟨hbm_ok, habm⟩
      obtain ⟨r', hr', -⟩ := (h4 hok hok2).symm.merges (wf_merge ha hbm) (wf_merge hab hm) hw' hl' hr
      exact ⟨hok, r', mergesTo_cons.mpr ⟨hok2, hr'⟩⟩

theorem legal_new (v : Version) : LegalModel (Model.new v) := fun id s h => by cases h

theorem merge_new {a : Model} (ha : WfModel a) : (a.merge (Model.new a.version)).2 = .ok () ∧ Alike a (a.merge (Model.new a.version)).1 := by
  have hm : Makes3 a (Model.new a.version) a := by
    refine ⟨rfl, rfl, fun k => ?_, fun id => ?_, fun id t => ?_⟩
    · change Combine MetaMerge (a.metadataValue k) none (a.metadataValue k)
      cases a.metadataValue k <;> constructor
    · change Combine BodyMerge (bodyAt a id) none (bodyAt a id)
      cases bodyAt a id <;> constructor
    · change Combine TraitMerge (traitAt a id t) none (traitAt a id t)
      cases traitAt a id t <;> constructor
  have hok := merge_of_parts ha (wf_new a.version) (legal_new _) rfl (fun k => ⟨_, hm.metadata k⟩) (fun id => ⟨_, hm.bodies id⟩)
    (fun id t => ⟨_, hm.traits id t⟩)
  exact ⟨hok, Makes3.unique ha (wf_merge ha (wf_new _)) hm (makes3_of_merge ha (wf_new _) hok)⟩

/-- C99: models merged one after the other can be merged in two parts, each on its own, and the one then merged into the other, with
the same result; and what can be merged in two parts can be merged one after the other. -/
theorem C99_grouping (v : Version) (xs ys : List Model) (hw : ∀ m ∈ xs ++ ys, WfModel m) (hl : ∀ m ∈ xs ++ ys, LegalModel m) :
    (∀ r, MergesTo (Model.new v) (xs ++ ys) r → ∃ x y, MergesTo (Model.new v) xs x ∧ MergesTo (Model.new v) ys y ∧
      (x.merge y).2 = .ok () ∧ Alike r (x.merge y).1) ∧
    (∀ x y, MergesTo (Model.new v) xs x → MergesTo (Model.new v) ys y → (x.merge y).2 = .ok () →
      ∃ r, MergesTo (Model.new v) (xs ++ ys) r ∧ Alike r (x.merge y).1) := by
  have hwx : ∀ m ∈ xs, WfModel m := fun m h => hw m (by simp [h])
  have hwy : ∀ m ∈ ys, WfModel m := fun m h => hw m (by simp [h])
  have hly : ∀ m ∈ ys, LegalModel m := fun m h => hl m (by simp [h])
  have first : ∀ r, MergesTo (Model.new v) (xs ++ ys) r → ∃ x y, MergesTo (Model.new v) xs x ∧ MergesTo (Model.new v) ys y ∧
      (x.merge y).2 = .ok () ∧ Alike r (x.merge y).1 := by
    intro r h
    obtain ⟨x, hx, hr⟩ := mergesTo_append.mp h
    have wx := hx.wf (wf_new v) hwx
    obtain ⟨hok, hal⟩ := merge_new wx
    have hv : x.version = v := (C97_merge_all v xs hwx x hx).1
    rw [hv] at hok hal
    obtain ⟨r', hr', hal'⟩ := hal.merges wx (wf_merge wx (wf_new v)) hwy hly hr
    obtain ⟨y, hy, hok', hal''⟩ := (merges_group wx (wf_new v) (legal_new v) hwy hly).1 r' hok hr'
    exact ⟨x, y, hx, hy, hok', hal'.trans hal''⟩
  refine ⟨first, fun x y hx hy hok => ?_⟩
  have wx := hx.wf (wf_new v) hwx
  obtain ⟨hok', r, hr⟩ := (merges_group wx (wf_new v) (legal_new v) hwy hly).2 y hy hok
  obtain ⟨_, hal⟩ := merge_new wx
  have hv : x.version = v := (C97_merge_all v xs hwx x hx).1
  rw [hv] at hal
  obtain ⟨r', hr', -⟩ := hal.symm.merges (wf_merge wx (wf_new v)) wx hwy hly hr
  have hall := mergesTo_append.mpr ⟨x, hx, hr'⟩
  obtain ⟨x2, y2, hx2, hy2, -, hal2⟩ := first r' hall
  rw [hx2.functional hx, hy2.functional hy] at hal2
  exact ⟨r', hall, hal2⟩

end Verif
