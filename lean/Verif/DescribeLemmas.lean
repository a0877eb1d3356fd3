/-
Lemmas for C80-C83.
-/
import Verif.Describe
import Verif.DescribeSpec
import Verif.LinesLemmas
import Verif.PlantUmlProps

namespace Verif
open Spec
namespace Describe
open Spec.Doc

/-! ### Values -/

theorem showArray_eq (f : Fmt) (vs : List Value) : showArray f vs = vs.map (showValue f) := by
  induction vs with
  | nil => rfl
  | cons v vs ih => simp only [showArray, ih, List.map_cons]

theorem showObject_eq (f : Fmt) (vs : List (Str × Value)) : showObject f vs = vs.map fun e => e.1 ++ %s": " ++ showValue f e.2 := by
  induction vs with
  | nil => rfl
  | cons e vs ih => obtain ⟨k, v⟩ := e; simp only [showObject, showEntry, ih, List.map_cons]

theorem arrayRows_eq (f : Fmt) (id : Str) (n : Nat) (vs : List Value) :
    arrayRows f id n vs = ((vs.zipIdx n).map fun e => traitValue f id (some (%s"[" ++ showNat e.2 ++ %s"]")) e.1).flatten := by
  induction vs generalizing n with
  | nil => rfl
  | cons v vs ih => simp only [arrayRows, ih, List.zipIdx_cons, List.map_cons, List.flatten_cons]; rfl

theorem objectRows_eq (f : Fmt) (id : Str) (vs : List (Str × Value)) :
    objectRows f id vs = vs.map fun e => (e.1, traitValue f id (some (%s"." ++ e.1)) e.2) := by
  induction vs with
  | nil => rfl
  | cons e vs ih => obtain ⟨k, v⟩ := e; simp only [objectRows, entryRows, ih, List.map_cons]; rfl

theorem map_zip_map {α β γ : Type} (g : α → β) (h : α × β → γ) (l : List α) : (l.zip (l.map g)).map h = l.map fun a => h (a, g a) := by
  induction l with
  | nil => rfl
  | cons a l ih => simp [ih]

/-- Induction over values. -/
theorem value_induction {P : Value → Prop} (hn : P .none) (hs : ∀ s, P (.string s)) (hb : ∀ b, P (.boolean b)) (hx : ∀ n, P (.number n))
    (ha : ∀ vs, (∀ v ∈ vs, P v) → P (.array vs)) (ho : ∀ vs : List (Str × Value), (∀ k v, (k, v) ∈ vs → P v) → P (.object vs)) : ∀ v, P v
  | .none => hn
  | .string s => hs s
  | .boolean b => hb b
  | .number n => hx n
  | .array vs => ha vs fun v hv => value_induction hn hs hb hx ha ho v
  | .object vs => ho vs fun k v hv => value_induction hn hs hb hx ha ho v
termination_by v => sizeOf v
decreasing_by
  · have := List.sizeOf_lt_of_mem hv; simp; omega
  · have := List.sizeOf_lt_of_mem hv; simp at this ⊢; omega

theorem showValue_text (f : Fmt) (v : Value) : ShownAs f v (showValue f v) := by
  induction v using value_induction with
  | hn => exact .none
  | hs s => exact .string
  | hb b => exact .boolean
  | hx n => exact .number
  | ha vs ih =>
    simp only [showValue, showArray_eq]
    refine .array (by simp) fun i v t h1 h2 => ?_
    rw [List.getElem?_map, h1] at h2
    cases h2
    exact ih v (List.mem_of_getElem? h1)
  | ho vs ih =>
    have := ShownAs.object (f := f) (vs := vs) (ts := vs.map fun e => showValue f e.2) (by simp) fun i k v t h1 h2 => by
      rw [List.getElem?_map, h1] at h2
      cases h2
      exact ih k v (List.mem_of_getElem? h1)
    rw [map_zip_map] at this
    simpa only [showValue, showObject_eq] using this

/-- `Prod.mk` for rows. -/
def withId (id : Str) (r : Option Str × Option Str) : TraitRow := (id, r.1, r.2)

theorem traitValue_rows (f : Fmt) (v : Value) : ∀ p, ∃ rows, Rows f p v rows ∧ ∀ id, traitValue f id p v = rows.map (withId id) := by
  induction v using value_induction with
  | hn => exact fun p => ⟨_, .null, fun id => rfl⟩
  | hs s => exact fun p => ⟨_, .string, fun id => rfl⟩
  | hb b => exact fun p => ⟨_, .boolean, fun id => rfl⟩
  | hx n => exact fun p => ⟨_, .number, fun id => rfl⟩
  | ha vs ih =>
    intro p
    cases vs with
    | nil => exact ⟨_, .emptyArray, fun id => rfl⟩
    | cons w ws =>
      generalize hvs : w :: ws = vs at ih ⊢
      have hne : vs ≠ [] := by rw [← hvs]; simp
      have : ∀ e : Value × Nat, e ∈ vs.zipIdx → ∃ rows, Rows f (some (%s"[" ++ showNat e.2 ++ %s"]")) e.1 rows ∧
          ∀ id, traitValue f id (some (%s"[" ++ showNat e.2 ++ %s"]")) e.1 = rows.map (withId id) := by
        intro e he
        exact ih e.1 (by obtain ⟨v, i⟩ := e; exact (List.mem_zipIdx he).2.2 ▸ List.getElem_mem _) _
      choose! g hg using this
      refine ⟨_, .array (parts := vs.zipIdx.map g) hne (by simp) ?_, fun id => ?_⟩
      · intro i v part h1 h2
        rw [List.getElem?_map, List.getElem?_zipIdx, h1] at h2
        simp only [Option.map_some, Nat.zero_add] at h2
        cases h2
        refine (hg (v, i) ?_).1
        rw [List.mem_iff_getElem?]
        exact ⟨i, by rw [List.getElem?_zipIdx, h1]; simp⟩
      · rw [traitValue, if_neg (by simpa using hne), arrayRows_eq, List.map_flatten, List.map_map]
        exact congrArg _ (List.map_congr_left fun e he => (hg e he).2 id)
  | ho vs ih =>
    intro p
    cases vs with
    | nil => exact ⟨_, .emptyObject, fun id => rfl⟩
    | cons w ws =>
      generalize hvs : w :: ws = vs at ih ⊢
      have hne : vs ≠ [] := by rw [← hvs]; simp
      have hmem : ∀ e, e ∈ vs.mergeSort (fun a b => strLe a.1 b.1) ↔ e ∈ vs := fun e => List.mem_mergeSort
      have : ∀ e : Str × Value, e ∈ vs.mergeSort (fun a b => strLe a.1 b.1) → ∃ rows, Rows f (some (%s"." ++ e.1)) e.2 rows ∧
          ∀ id, traitValue f id (some (%s"." ++ e.1)) e.2 = rows.map (withId id) := by
        intro e he
        exact ih e.1 e.2 ((hmem e).mp he) _
      choose! g hg using this
      refine ⟨_, .object (es := vs.mergeSort fun a b => strLe a.1 b.1) (parts := (vs.mergeSort fun a b => strLe a.1 b.1).map g) hne
        (List.mergeSort_perm _ _) ?_ (by simp) ?_, fun id => ?_⟩
      · exact List.pairwise_mergeSort (fun a b c => strLe_trans a.1 b.1 c.1) (fun a b => strLe_total a.1 b.1) _
      · intro i k v part h1 h2
        rw [List.getElem?_map, h1] at h2
        cases h2
        exact (hg (k, v) (List.mem_of_getElem? h1)).1
      · rw [traitValue, if_neg (by simpa using hne), objectRows_eq,
          ← List.map_mergeSort (r := fun a b => strLe a.1 b.1) (fun a _ b _ => rfl), List.flatMap_map, List.map_flatten, List.map_map, List.flatMap]
        exact congrArg _ (List.map_congr_left fun e he => (hg e he).2 id)

/-! ### Traits -/

theorem idLe_trans (a b c : ShapeID) (h : idLe a b = true) (h' : idLe b c = true) : idLe a c = true := by
  obtain ⟨an, am, ak⟩ := a; obtain ⟨bn, bm, bk⟩ := b; obtain ⟨cn, cm, ck⟩ := c
  simp only [idLe] at h h' ⊢
  by_cases h1 : an = bn
  · subst h1
    by_cases h2 : an = cn
    · subst h2
      simp only [ne_eq, not_true_eq_false, if_false] at h h' ⊢
      by_cases h3 : am = bm
      · subst h3
        by_cases h4 : am = cm
        · subst h4
          simp only [not_true_eq_false, if_false] at h h' ⊢
          cases ak <;> cases bk <;> cases ck <;> simp at h h' ⊢
          exact strLe_trans _ _ _ h h'
        · simp only [h4, not_true_eq_false, not_false_eq_true, if_false, if_true] at h h' ⊢
          exact h'
      · by_cases h5 : bm = cm
        · subst h5
          simp only [h3, not_true_eq_false, not_false_eq_true, if_false, if_true] at h h' ⊢
          exact h
        · simp only [h3, h5, not_false_eq_true, if_true] at h h'
          have h6 : am ≠ cm := fun e => h3 (strLe_antisymm h (by rw [e]; exact h'))
          simp only [h6, not_false_eq_true, if_true]
          exact strLe_trans _ _ _ h h'
    · simp only [ne_eq, h2, not_true_eq_false, not_false_eq_true, if_false, if_true] at h h' ⊢
      exact h'
  · by_cases h5 : bn = cn
    · subst h5
      simp only [ne_eq, h1, not_true_eq_false, not_false_eq_true, if_false, if_true] at h h' ⊢
      exact h
    · simp only [ne_eq, h1, h5, not_false_eq_true, if_true] at h h'
      have h6 : an ≠ cn := fun e => h1 (strLe_antisymm h (by rw [e]; exact h'))
      simp only [ne_eq, h6, not_false_eq_true, if_true]
      exact strLe_trans _ _ _ h h'

theorem idLe_total (a b : ShapeID) : (idLe a b || idLe b a) = true := by
  obtain ⟨an, am, ak⟩ := a; obtain ⟨bn, bm, bk⟩ := b
  simp only [idLe]
  by_cases h1 : an = bn
  · subst h1
    by_cases h3 : am = bm
    · subst h3
      cases ak <;> cases bk <;> simp
      exact (Bool.or_eq_true _ _).mp (strLe_total _ _)
    · simp only [ne_eq, not_true_eq_false, if_false, h3, Ne.symm h3, not_false_eq_true, if_true]
      exact strLe_total _ _
  · simp only [ne_eq, h1, Ne.symm h1, not_false_eq_true, if_true]
    exact strLe_total _ _

theorem before_of_idLe {a b : ShapeID} (h : idLe a b = true) (hn : a ≠ b) : Before a b := by
  obtain ⟨an, am, ak⟩ := a; obtain ⟨bn, bm, bk⟩ := b
  simp only [idLe] at h
  by_cases h1 : an = bn
  · subst h1
    by_cases h3 : am = bm
    · subst h3
      refine .inr ⟨rfl, .inr ⟨rfl, ?_⟩⟩
      simp only [ne_eq, not_true_eq_false, if_false] at h
      cases ak <;> cases bk <;> simp at h hn ⊢
      exact ⟨h, hn⟩
    · simp only [ne_eq, not_true_eq_false, if_false, h3, not_false_eq_true, if_true] at h
      exact .inr ⟨rfl, .inl ⟨h, h3⟩⟩
  · simp only [ne_eq, h1, not_false_eq_true, if_true] at h
    exact .inl ⟨h, h1⟩

theorem docs_eq (t : ShapeID) : (!t.ceq docTrait && !t.ceq extDocTrait) = !isDocs t := by
  simp only [isDocs, Bool.not_or]; rfl

theorem lower_prelude : lower preludeNamespace = %s"smithy.api" := by decide

theorem traitName_eq (t : ShapeID) : (if identEq t.ns preludeNamespace then t.name else t.display) = traitName t := by
  simp only [traitName, identEq_iff, lower_prelude]

/-- A row of the table. -/
def cells (r : TraitRow) : List Cell := [.plain r.1, codeOrSkip r.2.1, codeOrSkip r.2.2]

theorem codeOrSkip_eq (o : Option Str) : codeOrSkip o = o.elim .skip .code := by cases o <;> rfl

theorem trait_part (f : Fmt) (e : ShapeID × TraitValue) (h : isDocs e.1 = false) : TraitPart f e ((rowsOfTrait f e).map cells) := by
  unfold rowsOfTrait
  rw [docs_eq, h, Bool.not_false, if_pos rfl]
  simp only [traitName_eq]
  cases hv : e.2 with
  | none =>
    refine ⟨[(none, none)], by simp [hv], ?_⟩
    rfl
  | some v =>
    obtain ⟨rows, h1, h2⟩ := traitValue_rows f v none
    refine ⟨rows, by simp [hv, h1], ?_⟩
    simp only [h2, List.map_map]
    exact List.map_congr_left fun r _ => by simp [cells, withId, codeOrSkip_eq]

theorem flatMap_filter {α β : Type} (g : α → List β) (p : α → Bool) (l : List α) (h : ∀ x ∈ l, p x = false → g x = []) :
    l.flatMap g = (l.filter p).flatMap g := by
  induction l with
  | nil => rfl
  | cons x l ih =>
    have ih := ih fun y hy => h y (List.mem_cons_of_mem _ hy)
    by_cases hp : p x = true
    · rw [List.filter_cons_of_pos hp, List.flatMap_cons, List.flatMap_cons, ih]
    · rw [List.filter_cons_of_neg hp, List.flatMap_cons, h x List.mem_cons_self (by simpa using hp), ih]; rfl

theorem forall₂_map {α β : Type} {R : α → β → Prop} (g : α → β) (l : List α) (h : ∀ x ∈ l, R x (g x)) : List.Forall₂ R l (l.map g) := by
  induction l with
  | nil => exact .nil
  | cons x l ih => exact .cons (h x List.mem_cons_self) (ih fun y hy => h y (List.mem_cons_of_mem _ hy))

theorem nodup_of_wf {K V : Type} [DecidableEq K] {m : AMap K V} (h : AMap.Wf m) : (m.map (·.1)).Nodup := h

theorem trait_rows (f : Fmt) {ts : Traits} (hw : AMap.Wf ts) :
    TraitRows f ts (((ts.mergeSort fun a b => idLe a.1 b.1).flatMap (rowsOfTrait f)).map cells) := by
  refine ⟨(ts.mergeSort fun a b => idLe a.1 b.1).filter fun e => !isDocs e.1, _, (List.mergeSort_perm _ _).filter _, ?_,
    forall₂_map (fun e => (rowsOfTrait f e).map cells) _ fun e he => trait_part f e (by simpa using (List.mem_filter.mp he).2), ?_⟩
  · have h1 := List.pairwise_mergeSort (le := fun a b : ShapeID × TraitValue => idLe a.1 b.1) (fun a b c => idLe_trans a.1 b.1 c.1)
      (fun a b => idLe_total a.1 b.1) ts
    have h2 : (ts.mergeSort fun a b => idLe a.1 b.1).Pairwise fun a b => a.1 ≠ b.1 := by
      have : ((ts.mergeSort fun a b => idLe a.1 b.1).map (·.1)).Nodup :=
        ((List.mergeSort_perm ts fun a b => idLe a.1 b.1).map _).nodup_iff.mpr (nodup_of_wf hw)
      exact List.pairwise_map.mp this
    exact ((h1.and h2).imp fun h => before_of_idLe h.1 h.2).filter _
  · rw [flatMap_filter (rowsOfTrait f) (fun e => !isDocs e.1) _ fun e _ hp => by
      unfold rowsOfTrait; rw [docs_eq, hp]; rfl]
    rw [List.flatMap, List.map_flatten, List.map_map]; rfl

/-! ### Documentation -/

/-- What documents a shape, when its documentation is a text. -/
def documentation (f : Fmt) (ts : Traits) : List Block :=
  (match AMap.get ts docTrait with
    | some (some (.string s)) => [.paragraph [.plain s]]
    | _ => []) ++
  ((match AMap.get ts extDocTrait with
    | some (some (.object o)) =>
      let links := o.map fun (e : Str × Value) => Inline.external (showValue f e.2) e.1
      if links.isEmpty then [] else [.paragraph (.plain %s"See also: " :: links)]
    | _ => []) ++ describeTraits f ts)

theorem documentation_part (f : Fmt) {ts : Traits} (hw : AMap.Wf ts) : DocumentationPart f ts (documentation f ts) := by
  have key : ∀ links : List Block,
      (match AMap.get ts ⟨%s"smithy.api", %s"externalDocumentation", none⟩ with
      | some (some (.object (e :: es))) => ∃ urls, List.Forall₂ (fun x url => ShownAs f x.2 url) (e :: es) urls ∧
          links = [.paragraph (.plain %s"See also: " :: ((e :: es).zip urls).map fun x => .external x.2 x.1.1)]
      | _ => links = []) →
      DocumentationPart f ts ((match AMap.get ts docTrait with
        | some (some (.string s)) => [.paragraph [.plain s]]
        | _ => []) ++ (links ++ describeTraits f ts)) := by
    intro links hl
    refine ⟨links, _, trait_rows f hw, hl, ?_⟩
    have ht : describeTraits f ts = if (((ts.mergeSort fun a b => idLe a.1 b.1).flatMap (rowsOfTrait f)).map cells) = [] then []
        else [.table [%s"Trait ID", %s"Path", %s"Value"] (((ts.mergeSort fun a b => idLe a.1 b.1).flatMap (rowsOfTrait f)).map cells)] := by
      unfold describeTraits
      simp only [List.isEmpty_iff, List.map_eq_nil_iff]
      rfl
    rw [← ht, List.append_assoc]; rfl
  apply key
  change match AMap.get ts extDocTrait with
      | some (some (.object (e :: es))) => _
      | _ => _
  cases hx : AMap.get ts extDocTrait with
  | none => rfl
  | some v =>
    cases v with
    | none => rfl
    | some v =>
      cases v with
      | object o =>
        cases o with
        | nil => rfl
        | cons e es =>
          refine ⟨(e :: es).map fun x => showValue f x.2, forall₂_map _ _ fun x _ => showValue_text f x.2, ?_⟩
          rw [map_zip_map]; rfl
      | _ => rfl

theorem describeDocumentation_eq (f : Fmt) (ts : Traits) :
    (¬ BadDocumentation ts → describeDocumentation f ts = .ok (documentation f ts)) ∧
    (BadDocumentation ts → describeDocumentation f ts = .error .panic) := by
  unfold describeDocumentation documentation BadDocumentation
  change (¬ (∃ v, AMap.get ts docTrait = some (some v) ∧ _) → _) ∧ ((∃ v, AMap.get ts docTrait = some (some v) ∧ _) → _)
  cases hd : AMap.get ts docTrait with
  | none => exact ⟨fun _ => rfl, by rintro ⟨v, h, -⟩; cases h⟩
  | some v =>
    cases v with
    | none => exact ⟨fun _ => rfl, by rintro ⟨v, h, -⟩; cases h⟩
    | some v =>
      cases v with
      | string s => exact ⟨fun _ => rfl, by rintro ⟨v, h, hs⟩; cases h; exact absurd rfl (hs s)⟩
      | _ => exact ⟨fun h => absurd ⟨_, rfl, by simp⟩ h, fun _ => rfl⟩

end Describe
end Verif
