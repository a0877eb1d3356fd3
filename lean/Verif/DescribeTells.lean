/-
C82: what the document about a model tells. Two models with the same document have the same shapes, of the same types, with the same members and
references, documentation and traits. The proof cuts a document into its parts again.
-/
import Verif.DescribeMore
import Verif.GraphMLProps

namespace Verif.Spec.Doc
open Describe (Label Inline Cell Block Document)

/-- A reference is to the same id, up to the case of the letters of the namespace if it is that of the shape that refers to it. -/
def SameRef (source t t' : ShapeID) : Prop :=
  t = t' ∨ (lower t.ns = lower source.ns ∧ lower t'.ns = lower source.ns ∧ t.name = t'.name ∧ t.member = t'.member)

/-- The shapes have the same id and type, the same documentation, traits with the same names, the same members (or properties) in the same order with
the same targets; services have the same version and renames. -/
structure Told (s s' : TopLevelShape) : Prop where
  id : s.id = s'.id
  type : GraphML.typeOf s.body = GraphML.typeOf s'.body
  documentation : ∀ x, AMap.get s.traits ⟨%s"smithy.api", %s"documentation", none⟩ = some (some (.string x)) ↔
    AMap.get s'.traits ⟨%s"smithy.api", %s"documentation", none⟩ = some (some (.string x))
  traits : ∀ n, (∃ e ∈ s.traits, isDocs e.1 = false ∧ traitName e.1 = n) ↔ ∃ e ∈ s'.traits, isDocs e.1 = false ∧ traitName e.1 = n
  members : List.Forall₂ (fun a b => a.1 = b.1 ∧ SameRef s.id a.2 b.2) (GraphML.membersOf s.body) (GraphML.membersOf s'.body)
  service : ∀ v v', s.body = .service v → s'.body = .service v' → v.version = v'.version ∧ v.renames = v'.renames

end Verif.Spec.Doc

namespace Verif
open Spec
namespace Describe
open Spec.Doc

/-! ### Cutting lists -/

/-- A piece: a block that begins one, and blocks that do not. -/
def Piece (p : Block → Bool) (l : List Block) : Prop := ∃ h t, l = h :: t ∧ p h = true ∧ ∀ b ∈ t, p b = false

theorem cut_front {p : Block → Bool} : ∀ {xs ys : List Block} {r r' : List Block}, (∀ b ∈ xs, p b = false) → (∀ b ∈ ys, p b = false) →
    (∀ b, r.head? = some b → p b = true) → (∀ b, r'.head? = some b → p b = true) → xs ++ r = ys ++ r' → xs = ys ∧ r = r'
  | [], [], _, _, _, _, _, _, h => ⟨rfl, h⟩
  | x :: xs, [], r, r', hx, _, _, hr', h => by
    have := hr' x (by rw [List.nil_append] at h; rw [← h]; rfl)
    rw [hx x (List.mem_cons_self ..)] at this; cases this
  | [], y :: ys, r, r', _, hy, hr, _, h => by
    have := hr y (by rw [List.nil_append] at h; rw [h]; rfl)
    rw [hy y (List.mem_cons_self ..)] at this; cases this
  | x :: xs, y :: ys, r, r', hx, hy, hr, hr', h => by
    injection h with h1 h2
    obtain ⟨h3, h4⟩ := cut_front (fun b hb => hx b (List.mem_cons_of_mem _ hb)) (fun b hb => hy b (List.mem_cons_of_mem _ hb)) hr hr' h2
    exact ⟨by rw [h1, h3], h4⟩

theorem head_pieces {p : Block → Bool} {ps : List (List Block)} (h : ∀ l ∈ ps, Piece p l) : ∀ b, ps.flatten.head? = some b → p b = true := by
  intro b hb
  cases ps with
  | nil => cases hb
  | cons l ps =>
    obtain ⟨x, t, rfl, hx, -⟩ := h l (List.mem_cons_self ..)
    cases hb; exact hx

theorem cut_pieces {p : Block → Bool} : ∀ {ps qs : List (List Block)}, (∀ l ∈ ps, Piece p l) → (∀ l ∈ qs, Piece p l) → ps.flatten = qs.flatten → ps = qs
  | [], [], _, _, _ => rfl
  | l :: ps, [], hp, _, h => by
    obtain ⟨x, t, rfl, -, -⟩ := hp l (List.mem_cons_self ..)
    cases h
  | [], l :: qs, _, hq, h => by
    obtain ⟨x, t, rfl, -, -⟩ := hq l (List.mem_cons_self ..)
    cases h
  | l :: ps, k :: qs, hp, hq, h => by
    have hp' : ∀ l ∈ ps, Piece p l := fun x hx => hp x (List.mem_cons_of_mem _ hx)
    have hq' : ∀ l ∈ qs, Piece p l := fun x hx => hq x (List.mem_cons_of_mem _ hx)
    obtain ⟨x, t, rfl, hx, ht⟩ := hp l (List.mem_cons_self ..)
    obtain ⟨y, u, rfl, hy, hu⟩ := hq k (List.mem_cons_self ..)
    rw [List.flatten_cons, List.flatten_cons, List.cons_append, List.cons_append] at h
    injection h with h1 h2
    obtain ⟨h3, h4⟩ := cut_front ht hu (head_pieces hp') (head_pieces hq') h2
    rw [h1, h3, cut_pieces hp' hq' h4]

/-! ### Documentation -/

/-- A block of documentation. -/
def isDoc : Block → Bool
  | .paragraph (.plain _ :: _) => true
  | .table _ _ => true
  | _ => false

/-- A heading of a namespace or a shape. -/
def isTop : Block → Bool
  | .heading n _ _ => n ≤ 2
  | _ => false

theorem isTop_of_isDoc {b : Block} (h : isDoc b = true) : isTop b = false := by
  cases b <;> first | rfl | cases h

theorem docs_blocks {f : Fmt} {ts : Traits} {bs : List Block} (h : DocumentationPart f ts bs) : ∀ b ∈ bs, isDoc b = true := by
  obtain ⟨links, rows, -, h2, rfl⟩ := h
  intro b hb
  rcases List.mem_append.mp hb with hb | hb
  · rcases List.mem_append.mp hb with hb | hb
    · split at hb
      · rw [List.mem_singleton.mp hb]; rfl
      · cases hb
    · split at h2
      · obtain ⟨urls, -, rfl⟩ := h2
        rw [List.mem_singleton.mp hb]; rfl
      · subst h2; cases hb
  · split at hb
    · cases hb
    · rw [List.mem_singleton.mp hb]; rfl

theorem docs_text {f : Fmt} {ts : Traits} {bs : List Block} (h : DocumentationPart f ts bs) (x : Str) :
    AMap.get ts ⟨%s"smithy.api", %s"documentation", none⟩ = some (some (.string x)) ↔ .paragraph [.plain x] ∈ bs := by
  obtain ⟨links, rows, -, h2, rfl⟩ := h
  constructor
  · intro h
    rw [h]
    simp
  · intro hb
    rcases List.mem_append.mp hb with hb | hb
    · rcases List.mem_append.mp hb with hb | hb
      · split at hb
        · rename_i h
          cases List.mem_singleton.mp hb; exact h
        · cases hb
      · split at h2
        · obtain ⟨urls, h3, rfl⟩ := h2
          cases h3
          have := List.mem_singleton.mp hb
          simp at this
        · subst h2; cases hb
    · split at hb
      · cases hb
      · cases List.mem_singleton.mp hb

theorem rows_ne {f : Fmt} {p : Option Str} {v : Value} {r : List (Option Str × Option Str)} (h : Rows f p v r) : r ≠ [] := by
  induction h with
  | string => simp
  | number => simp
  | boolean => simp
  | null => simp
  | emptyArray => simp
  | emptyObject => simp
  | @array p vs parts hn hl hr ih =>
    intro h0
    cases vs with
    | nil => exact hn rfl
    | cons v vs =>
      cases parts with
      | nil => cases hl
      | cons q parts =>
        exact ih 0 v q rfl rfl (List.flatten_eq_nil_iff.mp h0 q (List.mem_cons_self ..))
  | @object p vs es parts hn hp hs hl hr ih =>
    intro h0
    cases es with
    | nil => exact hn hp.nil_eq.symm
    | cons e es =>
      cases parts with
      | nil => cases hl
      | cons q parts =>
        exact ih 0 e.1 e.2 q rfl rfl (List.flatten_eq_nil_iff.mp h0 q (List.mem_cons_self ..))

theorem docs_traits {f : Fmt} {ts : Traits} {bs : List Block} (h : DocumentationPart f ts bs) (n : Str) :
    (∃ e ∈ ts, isDocs e.1 = false ∧ traitName e.1 = n) ↔ ∃ cols rows row, .table cols rows ∈ bs ∧ row ∈ rows ∧ row.head? = some (.plain n) := by
  obtain ⟨links, rows, ⟨es, parts, hp, -, hf, rfl⟩, h2, rfl⟩ := h
  constructor
  · rintro ⟨e, he, hd, rfl⟩
    have hm : e ∈ es := hp.mem_iff.mpr (List.mem_filter.mpr ⟨he, by rw [hd]; rfl⟩)
    have : ∃ part ∈ parts, TraitPart f e part := by
      clear hp h2
      induction hf with
      | nil => cases hm
      | cons h _ ih =>
        rcases List.mem_cons.mp hm with rfl | hm
        · exact ⟨_, List.mem_cons_self .., h⟩
        · obtain ⟨q, hq, hq'⟩ := ih hm
          exact ⟨q, List.mem_cons_of_mem _ hq, hq'⟩
    obtain ⟨part, hpart, rs, hr, rfl⟩ := this
    have hne : rs ≠ [] := by
      split at hr
      · rw [hr]; simp
      · exact rows_ne hr
    obtain ⟨r, rs, rfl⟩ := List.exists_cons_of_ne_nil hne
    refine ⟨[%s"Trait ID", %s"Path", %s"Value"], parts.flatten, _, ?_, List.mem_flatten.mpr ⟨_, hpart, List.mem_cons_self ..⟩, rfl⟩
    have : parts.flatten ≠ [] := fun h0 => by simpa using List.flatten_eq_nil_iff.mp h0 _ hpart
    rw [if_neg this]
    exact List.mem_append_right _ (List.mem_singleton_self _)
  · rintro ⟨cols, rows, row, ht, hr, hn⟩
    have : rows = parts.flatten := by
      rcases List.mem_append.mp ht with hb | hb
      · exfalso
        rcases List.mem_append.mp hb with hb | hb
        · split at hb
          · cases List.mem_singleton.mp hb
          · cases hb
        · split at h2
          · obtain ⟨urls, -, rfl⟩ := h2
            cases List.mem_singleton.mp hb
          · subst h2; cases hb
      · split at hb
        · cases hb
        · cases List.mem_singleton.mp hb; rfl
    subst this
    obtain ⟨part, hpart, hrow⟩ := List.mem_flatten.mp hr
    have : ∃ e ∈ es, TraitPart f e part := by
      clear hp h2 hr ht
      induction hf with
      | nil => cases hpart
      | cons h _ ih =>
        rcases List.mem_cons.mp hpart with rfl | hm
        · exact ⟨_, List.mem_cons_self .., h⟩
        · obtain ⟨q, hq, hq'⟩ := ih hm
          exact ⟨q, List.mem_cons_of_mem _ hq, hq'⟩
    obtain ⟨e, he, rs, -, rfl⟩ := this
    obtain ⟨r, -, rfl⟩ := List.mem_map.mp hrow
    obtain ⟨he, hd⟩ := List.mem_filter.mp (hp.mem_iff.mp he)
    refine ⟨e, he, by simpa using hd, ?_⟩
    simpa using hn

/-! ### The body -/

/-- What is left of the body without documentation. -/
def skeleton (id : ShapeID) : ShapeKind → List Block
  | .list m | .set m => [.paragraph [.bold %s"Member type: ", refTo id m.target]]
  | .map k v => [.paragraph [.bold %s"Key type: ", refTo id k.target], .paragraph [.bold %s", value type: ", refTo id v.target]]
  | .struct ms | .union ms => if ms = [] then [] else [.heading 3 %s"Members" none,
      .quote (ms.map fun (e : Str × MemberShape) => .paragraph [.code e.1, .plain %s": ", refTo id e.2.target])]
  | .service s => .paragraph [.bold %s"Service version", .plain %s": ", .plain s.version] ::
      listOf %s"Operations" (s.operations.map fun x => [refTo id x]) ++ listOf %s"Resources" (s.resources.map fun x => [refTo id x]) ++
      listOf %s"Renames" (s.renames.map fun (e : ShapeID × Str) => [.code e.1.display, .plain %s" renamed to ", .code e.2])
  | .operation o =>
      (o.input.toList.map fun x => .quote [.paragraph [.bold %s"Input type", .plain %s": ", refTo id x]]) ++
      (o.output.toList.map fun x => .quote [.paragraph [.bold %s"Output type", .plain %s": ", refTo id x]]) ++
      if o.errors = [] then [] else [.quote [.paragraph [.bold %s"Errors", .plain %s":"], .list (o.errors.map fun x => [refTo id x])]]
  | .resource r =>
      let item (name : Str) (x : ShapeID) : List Inline := [.code name, .plain %s": ", refTo id x]
      listOf %s"Resource Operations" (r.create.toList.map (item %s"create") ++ r.put.toList.map (item %s"put") ++
          r.read.toList.map (item %s"read") ++ r.update.toList.map (item %s"update") ++ r.delete.toList.map (item %s"delete") ++ r.list.toList.map (item %s"list")) ++
        listOf %s"Operations" (r.operations.map fun x => [refTo id x]) ++
        listOf %s"Collection Operations" (r.collectionOperations.map fun x => [refTo id x]) ++ listOf %s"Resources" (r.resources.map fun x => [refTo id x])
  | .simple _ | .unresolved => []

/-- A block of a skeleton. -/
def isBone (b : Block) : Prop := isDoc b = false ∧ isTop b = false

theorem listOf_bones {t : Str} {items : List (List Inline)} : ∀ b ∈ listOf t items, isBone b := by
  unfold listOf
  intro b hb
  split at hb
  · cases hb
  · simp only [List.mem_cons, List.not_mem_nil, or_false] at hb
    rcases hb with rfl | rfl <;> exact ⟨rfl, rfl⟩

theorem skeleton_bones (id : ShapeID) (k : ShapeKind) : ∀ b ∈ skeleton id k, isBone b := by
  intro b hb
  cases k with
  | list m => cases List.mem_singleton.mp hb; exact ⟨rfl, rfl⟩
  | set m => cases List.mem_singleton.mp hb; exact ⟨rfl, rfl⟩
  | map k v =>
    simp only [skeleton, List.mem_cons, List.not_mem_nil, or_false] at hb
    rcases hb with rfl | rfl <;> exact ⟨rfl, rfl⟩
  | struct ms =>
    simp only [skeleton] at hb
    split at hb
    · cases hb
    · simp only [List.mem_cons, List.not_mem_nil, or_false] at hb
      rcases hb with rfl | rfl <;> exact ⟨rfl, rfl⟩
  | union ms =>
    simp only [skeleton] at hb
    split at hb
    · cases hb
    · simp only [List.mem_cons, List.not_mem_nil, or_false] at hb
      rcases hb with rfl | rfl <;> exact ⟨rfl, rfl⟩
  | service s =>
    simp only [skeleton, List.cons_append, List.mem_cons, List.mem_append] at hb
    rcases hb with rfl | (hb | hb) | hb
    · exact ⟨rfl, rfl⟩
    all_goals exact listOf_bones b hb
  | operation o =>
    simp only [skeleton, List.mem_append, List.mem_map] at hb
    rcases hb with (⟨x, -, rfl⟩ | ⟨x, -, rfl⟩) | hb
    · exact ⟨rfl, rfl⟩
    · exact ⟨rfl, rfl⟩
    · split at hb
      · cases hb
      · cases List.mem_singleton.mp hb; exact ⟨rfl, rfl⟩
  | resource r =>
    simp only [skeleton, List.mem_append] at hb
    rcases hb with ((hb | hb) | hb) | hb <;> exact listOf_bones b hb
  | simple => cases hb
  | unresolved => cases hb

theorem filter_docs {l : List Block} (h : ∀ b ∈ l, isDoc b = true) : l.filter (fun b => !isDoc b) = [] :=
  List.filter_eq_nil_iff.mpr fun b hb => by rw [h b hb]; simp

theorem filter_bones {l : List Block} (h : ∀ b ∈ l, isBone b) : l.filter (fun b => !isDoc b) = l :=
  List.filter_eq_self.mpr fun b hb => by rw [(h b hb).1]; rfl

/-- A body is its skeleton with documentation in between, and does not begin with documentation. -/
theorem body_cut {f : Fmt} {id : ShapeID} {bs : List Block} {k : ShapeKind} (h : BodyPart f id bs k) :
    bs.filter (fun b => !isDoc b) = skeleton id k ∧ (∀ b, bs.head? = some b → isDoc b = false) ∧ ∀ b ∈ bs, isTop b = false := by
  have own : ∀ l : List Block, (∀ b ∈ l, isBone b) → l.filter (fun b => !isDoc b) = l ∧ (∀ b, l.head? = some b → isDoc b = false) ∧ ∀ b ∈ l, isTop b = false :=
    fun l hl => ⟨filter_bones hl, fun b hb => (hl b (List.mem_of_head? hb)).1, fun b hb => (hl b hb).2⟩
  have members : ∀ ms : AMap Str MemberShape, (∃ docs, List.Forall₂ (fun (e : Str × MemberShape) d => DocumentationPart f e.2.traits d) ms docs ∧
      bs = if ms = [] then [] else .heading 3 %s"Members" none :: docs.flatten ++
        [.quote (ms.map fun (e : Str × MemberShape) => .paragraph [.code e.1, .plain %s": ", refTo id e.2.target])]) →
      bs.filter (fun b => !isDoc b) = skeleton id (.struct ms) ∧ (∀ b, bs.head? = some b → isDoc b = false) ∧ ∀ b ∈ bs, isTop b = false := by
    rintro ms ⟨docs, hd, rfl⟩
    have hdocs : ∀ b ∈ docs.flatten, isDoc b = true := by
      intro b hb
      obtain ⟨l, hl, hbs⟩ := List.mem_flatten.mp hb
      have : ∃ ts, DocumentationPart f ts l := by
        clear hb h own hbs
        induction hd with
        | nil => cases hl
        | cons h _ ih =>
          rcases List.mem_cons.mp hl with rfl | hl
          · exact ⟨_, h⟩
          · exact ih hl
      obtain ⟨ts, hts⟩ := this
      exact docs_blocks hts b hbs
    by_cases hm : ms = []
    · subst hm; exact ⟨rfl, nofun, nofun⟩
    · simp only [skeleton, if_neg hm]
      refine ⟨?_, ?_, ?_⟩
      · rw [List.cons_append, List.filter_cons_of_pos (by rfl), List.filter_append, filter_docs hdocs]
        rfl
      · rintro b ⟨⟩; rfl
      · intro b hb
        simp only [List.cons_append, List.mem_cons, List.mem_append, List.not_mem_nil, or_false] at hb
        rcases hb with rfl | hb | rfl
        · rfl
        · exact isTop_of_isDoc (hdocs b hb)
        · rfl
  cases k with
  | simple => subst h; exact own [] nofun
  | unresolved => subst h; exact own [] nofun
  | list m =>
    obtain ⟨docs, hd, rfl⟩ := h
    refine ⟨?_, ?_, ?_⟩
    · rw [List.filter_cons_of_pos (by rfl), filter_docs (docs_blocks hd)]; rfl
    · rintro b ⟨⟩; rfl
    · intro b hb
      rcases List.mem_cons.mp hb with rfl | hb
      · rfl
      · exact isTop_of_isDoc (docs_blocks hd b hb)
  | set m =>
    obtain ⟨docs, hd, rfl⟩ := h
    refine ⟨?_, ?_, ?_⟩
    · rw [List.filter_cons_of_pos (by rfl), filter_docs (docs_blocks hd)]; rfl
    · rintro b ⟨⟩; rfl
    · intro b hb
      rcases List.mem_cons.mp hb with rfl | hb
      · rfl
      · exact isTop_of_isDoc (docs_blocks hd b hb)
  | map k v =>
    obtain ⟨docs, docs', hd, hd', rfl⟩ := h
    refine ⟨?_, ?_, ?_⟩
    · rw [List.cons_append, List.filter_cons_of_pos (by rfl), List.filter_append, filter_docs (docs_blocks hd), List.filter_cons_of_pos (by rfl),
        filter_docs (docs_blocks hd')]; rfl
    · rintro b ⟨⟩; rfl
    · intro b hb
      simp only [List.cons_append, List.mem_cons, List.mem_append] at hb
      rcases hb with rfl | hb | rfl | hb
      · rfl
      · exact isTop_of_isDoc (docs_blocks hd b hb)
      · rfl
      · exact isTop_of_isDoc (docs_blocks hd' b hb)
  | struct ms => exact members ms h
  | union ms => exact members ms h
  | service s => have : bs = skeleton id (.service s) := h; subst this; exact own _ (skeleton_bones id _)
  | operation o => have : bs = skeleton id (.operation o) := h; subst this; exact own _ (skeleton_bones id _)
  | resource r => have : bs = skeleton id (.resource r) := h; subst this; exact own _ (skeleton_bones id _)

/-! ### What skeletons tell -/

theorem refTo_inj {id t t' : ShapeID} (ht : t.Valid) (ht' : t'.Valid) (h : refTo id t = refTo id t') : SameRef id t t' := by
  unfold refTo at h
  split at h <;> split at h <;> simp only [Inline.link.injEq, Inline.code.injEq, reduceCtorEq] at h
  · rename_i h1 h2
    obtain ⟨hl, hn⟩ := h
    refine .inr ⟨h1.symm, h2.symm, hn, ?_⟩
    unfold labelOf at hl
    cases hm : t.member with
    | none =>
      cases hm' : t'.member with
      | none => rfl
      | some y => rw [hm, hm'] at hl; simp at hl
    | some x =>
      cases hm' : t'.member with
      | none => rw [hm, hm'] at hl; simp at hl
      | some y => rw [hm, hm', hn] at hl; simp at hl; rw [hl]
  · exact .inl (C03_display_injective _ _ ht ht' h)

theorem maps_eq {α β γ : Type} {f : α → γ} {g : β → γ} : ∀ {l : List α} {l' : List β}, l.map f = l'.map g → List.Forall₂ (fun a b => f a = g b) l l'
  | [], [], _ => .nil
  | a :: l, b :: l', h => by
    injection h with h1 h2
    exact .cons h1 (maps_eq h2)

/-- The items of the list under a title. -/
def itemsUnder (t : Str) : List Block → List (List Inline)
  | .heading 3 t' none :: .quote [.list items] :: rest => if t = t' then items else itemsUnder t rest
  | _ :: rest => itemsUnder t rest
  | [] => []

theorem itemsUnder_same (t : Str) (items : List (List Inline)) (rest : List Block) (h : itemsUnder t rest = []) : itemsUnder t (listOf t items ++ rest) = items := by
  unfold listOf
  split
  · subst items; exact h
  · simp [itemsUnder]

theorem itemsUnder_other (t t' : Str) (items : List (List Inline)) (rest : List Block) (h : t ≠ t') :
    itemsUnder t (listOf t' items ++ rest) = itemsUnder t rest := by
  unfold listOf
  split
  · rfl
  · simp [itemsUnder, h]

theorem itemsUnder_last (t t' : Str) (items : List (List Inline)) : itemsUnder t (listOf t' items) = if t = t' then items else [] := by
  by_cases h : t = t'
  · subst h
    rw [if_pos rfl]
    have := itemsUnder_same t items [] rfl
    rwa [List.append_nil] at this
  · rw [if_neg h]
    have := itemsUnder_other t t' items [] h
    rwa [List.append_nil] at this

theorem refs_eq {id : ShapeID} {l l' : List ShapeID} (hl : ∀ x ∈ l, x.Valid) (hl' : ∀ x ∈ l', x.Valid) (name : Str)
    (h : (l.map fun x => [refTo id x]) = l'.map fun x => [refTo id x]) :
    List.Forall₂ (fun a b => a.1 = b.1 ∧ SameRef id a.2 b.2) (l.map (Prod.mk name)) (l'.map (Prod.mk name)) := by
  have h' := maps_eq h
  clear h
  induction h' with
  | nil => exact .nil
  | cons h _ ih =>
    refine .cons ⟨rfl, refTo_inj (hl _ (List.mem_cons_self ..)) (hl' _ (List.mem_cons_self ..)) (List.head_eq_of_cons_eq h)⟩ ?_
    exact ih (fun x hx => hl x (List.mem_cons_of_mem _ hx)) (fun x hx => hl' x (List.mem_cons_of_mem _ hx))

/-- The same for entries with names. -/
theorem named_eq {id : ShapeID} : ∀ {l l' : List (Str × ShapeID)}, (∀ x ∈ l, x.2.Valid) → (∀ x ∈ l', x.2.Valid) →
    (l.map fun e => [Inline.code e.1, .plain %s": ", refTo id e.2]) = (l'.map fun e => [Inline.code e.1, .plain %s": ", refTo id e.2]) →
    List.Forall₂ (fun a b => a.1 = b.1 ∧ SameRef id a.2 b.2) l l'
  | [], [], _, _, _ => .nil
  | a :: l, b :: l', hl, hl', h => by
    simp only [List.map_cons, List.cons.injEq, Inline.code.injEq, and_true, true_and] at h
    exact .cons ⟨h.1.1, refTo_inj (hl _ (List.mem_cons_self ..)) (hl' _ (List.mem_cons_self ..)) h.1.2⟩
      (named_eq (fun x hx => hl x (List.mem_cons_of_mem _ hx)) (fun x hx => hl' x (List.mem_cons_of_mem _ hx)) h.2)

theorem lifecycle_items (id : ShapeID) (r : Resource) :
    let item (name : Str) (x : ShapeID) : List Inline := [.code name, .plain %s": ", refTo id x]
    r.create.toList.map (item %s"create") ++ r.put.toList.map (item %s"put") ++
      r.read.toList.map (item %s"read") ++ r.update.toList.map (item %s"update") ++ r.delete.toList.map (item %s"delete") ++ r.list.toList.map (item %s"list") =
    (r.create.toList.map (Prod.mk %s"create") ++ r.put.toList.map (Prod.mk %s"put") ++
      r.read.toList.map (Prod.mk %s"read") ++ r.update.toList.map (Prod.mk %s"update") ++
      r.delete.toList.map (Prod.mk %s"delete") ++ r.list.toList.map (Prod.mk %s"list")).map fun e => [Inline.code e.1, .plain %s": ", refTo id e.2] := by
  simp only [List.map_append, List.map_map]
  rfl

theorem service_items (id : ShapeID) (s : Service) :
    itemsUnder %s"Operations" (skeleton id (.service s)) = (s.operations.map fun x => [refTo id x]) ∧
    itemsUnder %s"Resources" (skeleton id (.service s)) = (s.resources.map fun x => [refTo id x]) ∧
    itemsUnder %s"Renames" (skeleton id (.service s)) =
      s.renames.map fun (e : ShapeID × Str) => [.code e.1.display, .plain %s" renamed to ", .code e.2] := by
  have e : ∀ t, itemsUnder t (skeleton id (.service s)) =
      itemsUnder t (listOf %s"Operations" (s.operations.map fun x => [refTo id x]) ++ (listOf %s"Resources" (s.resources.map fun x => [refTo id x]) ++
        listOf %s"Renames" (s.renames.map fun (e : ShapeID × Str) => [.code e.1.display, .plain %s" renamed to ", .code e.2]))) := fun t => by
    simp only [skeleton, List.cons_append, List.append_assoc, itemsUnder]
  refine ⟨?_, ?_, ?_⟩
  · rw [e, itemsUnder_same]
    rw [itemsUnder_other _ _ _ _ (by decide), itemsUnder_last, if_neg (by decide)]
  · rw [e, itemsUnder_other _ _ _ _ (by decide), itemsUnder_same]
    rw [itemsUnder_last, if_neg (by decide)]
  · rw [e, itemsUnder_other _ _ _ _ (by decide), itemsUnder_other _ _ _ _ (by decide), itemsUnder_last, if_pos rfl]

theorem resource_items (id : ShapeID) (r : Resource) :
    itemsUnder %s"Resource Operations" (skeleton id (.resource r)) = ((r.create.toList.map (Prod.mk %s"create") ++ r.put.toList.map (Prod.mk %s"put") ++
      r.read.toList.map (Prod.mk %s"read") ++ r.update.toList.map (Prod.mk %s"update") ++
      r.delete.toList.map (Prod.mk %s"delete") ++ r.list.toList.map (Prod.mk %s"list")).map fun e => [Inline.code e.1, .plain %s": ", refTo id e.2]) ∧
    itemsUnder %s"Operations" (skeleton id (.resource r)) = (r.operations.map fun x => [refTo id x]) ∧
    itemsUnder %s"Collection Operations" (skeleton id (.resource r)) = (r.collectionOperations.map fun x => [refTo id x]) ∧
    itemsUnder %s"Resources" (skeleton id (.resource r)) = r.resources.map fun x => [refTo id x] := by
  have e : skeleton id (.resource r) =
      listOf %s"Resource Operations" ((r.create.toList.map (Prod.mk %s"create") ++ r.put.toList.map (Prod.mk %s"put") ++
        r.read.toList.map (Prod.mk %s"read") ++ r.update.toList.map (Prod.mk %s"update") ++
        r.delete.toList.map (Prod.mk %s"delete") ++ r.list.toList.map (Prod.mk %s"list")).map fun e => [Inline.code e.1, .plain %s": ", refTo id e.2]) ++
      (listOf %s"Operations" (r.operations.map fun x => [refTo id x]) ++
      (listOf %s"Collection Operations" (r.collectionOperations.map fun x => [refTo id x]) ++ listOf %s"Resources" (r.resources.map fun x => [refTo id x]))) := by
    rw [← lifecycle_items]
    simp only [skeleton, List.append_assoc]
  rw [e]
  refine ⟨?_, ?_, ?_, ?_⟩
  · rw [itemsUnder_same]
    rw [itemsUnder_other _ _ _ _ (by decide), itemsUnder_other _ _ _ _ (by decide), itemsUnder_last, if_neg (by decide)]
  · rw [itemsUnder_other _ _ _ _ (by decide), itemsUnder_same]
    rw [itemsUnder_other _ _ _ _ (by decide), itemsUnder_last, if_neg (by decide)]
  · rw [itemsUnder_other _ _ _ _ (by decide), itemsUnder_other _ _ _ _ (by decide), itemsUnder_same]
    rw [itemsUnder_last, if_neg (by decide)]
  · rw [itemsUnder_other _ _ _ _ (by decide), itemsUnder_other _ _ _ _ (by decide), itemsUnder_other _ _ _ _ (by decide), itemsUnder_last, if_pos rfl]

theorem members_paragraphs {id : ShapeID} {ms ms' : AMap Str MemberShape}
    (h : skeleton id (.struct ms) = skeleton id (.struct ms')) :
    ((ms.map fun (e : Str × MemberShape) => (e.1, e.2.target)).map fun e => [Inline.code e.1, .plain %s": ", refTo id e.2]) =
      (ms'.map fun (e : Str × MemberShape) => (e.1, e.2.target)).map fun e => [Inline.code e.1, .plain %s": ", refTo id e.2] := by
  simp only [skeleton] at h
  by_cases h1 : ms = [] <;> by_cases h2 : ms' = []
  · rw [h1, h2]
  · rw [if_pos h1, if_neg h2] at h; cases h
  · rw [if_neg h1, if_pos h2] at h; cases h
  · rw [if_neg h1, if_neg h2] at h
    simp only [List.cons.injEq, Block.quote.injEq, and_true, true_and] at h
    rw [List.map_map, List.map_map]
    have h3 := maps_eq h
    clear h h1 h2
    induction h3 with
    | nil => rfl
    | cons h _ ih =>
      rw [List.map_cons, List.map_cons, ih]
      simp only [Block.paragraph.injEq] at h
      simp only [Function.comp, h]

theorem sound_append {α β : Type} {R : α → β → Prop} {a b : List α} {c d : List β} (h : List.Forall₂ R a c) (h' : List.Forall₂ R b d) :
    List.Forall₂ R (a ++ b) (c ++ d) := by
  induction h with
  | nil => exact h'
  | cons h _ ih => exact .cons h ih

/-- What the skeleton of a body tells, if the type is known. -/
theorem skeleton_tells {id : ShapeID} {k k' : ShapeKind} (hw : WfKind k) (hw' : WfKind k') (hv : ValidKind k) (hv' : ValidKind k')
    (ht : GraphML.typeOf k = GraphML.typeOf k') (h : skeleton id k = skeleton id k') :
    List.Forall₂ (fun a b => a.1 = b.1 ∧ SameRef id a.2 b.2) (GraphML.membersOf k) (GraphML.membersOf k') ∧
    ∀ v v', k = .service v → k' = .service v' → v.version = v'.version ∧ v.renames = v'.renames := by
  have hm : ∀ x ∈ GraphML.membersOf k, x.2.Valid := fun x hx => (Verif.GraphML.valid_members hw hv x hx).2
  have hm' : ∀ x ∈ GraphML.membersOf k', x.2.Valid := fun x hx => (Verif.GraphML.valid_members hw' hv' x hx).2
  cases k with
  | simple a =>
    cases k' with
    | simple b => exact ⟨.nil, nofun⟩
    | unresolved => exact ⟨.nil, nofun⟩
    | _ => exfalso; cases a <;> exact absurd ht (by simp [GraphML.typeOf, Simple.display])
  | unresolved =>
    cases k' with
    | simple b => exact ⟨.nil, nofun⟩
    | unresolved => exact ⟨.nil, nofun⟩
    | _ => exact absurd ht (by simp [GraphML.typeOf])
  | list a =>
    cases k' with
    | list b =>
      simp only [skeleton, List.cons.injEq, Block.paragraph.injEq, and_true, true_and] at h
      exact ⟨.cons ⟨rfl, refTo_inj (hm _ (List.mem_cons_self ..)) (hm' _ (List.mem_cons_self ..)) h⟩ .nil, nofun⟩
    | simple b => exfalso; cases b <;> exact absurd ht (by simp [GraphML.typeOf, Simple.display])
    | _ => exact absurd ht (by simp [GraphML.typeOf])
  | set a =>
    cases k' with
    | set b =>
      simp only [skeleton, List.cons.injEq, Block.paragraph.injEq, and_true, true_and] at h
      exact ⟨.cons ⟨rfl, refTo_inj (hm _ (List.mem_cons_self ..)) (hm' _ (List.mem_cons_self ..)) h⟩ .nil, nofun⟩
    | simple b => exfalso; cases b <;> exact absurd ht (by simp [GraphML.typeOf, Simple.display])
    | _ => exact absurd ht (by simp [GraphML.typeOf])
  | map a b =>
    cases k' with
    | map a' b' =>
      simp only [skeleton, List.cons.injEq, Block.paragraph.injEq, and_true, true_and] at h
      exact ⟨.cons ⟨rfl, refTo_inj (hm (%s"key", a.target) (by simp [GraphML.membersOf])) (hm' (%s"key", a'.target) (by simp [GraphML.membersOf])) h.1⟩
        (.cons ⟨rfl, refTo_inj (hm (%s"value", b.target) (by simp [GraphML.membersOf])) (hm' (%s"value", b'.target) (by simp [GraphML.membersOf])) h.2⟩ .nil), nofun⟩
    | simple b => exfalso; cases b <;> exact absurd ht (by simp [GraphML.typeOf, Simple.display])
    | _ => exact absurd ht (by simp [GraphML.typeOf])
  | struct ms =>
    cases k' with
    | struct ms' => exact ⟨named_eq hm hm' (members_paragraphs h), nofun⟩
    | simple b => exfalso; cases b <;> exact absurd ht (by simp [GraphML.typeOf, Simple.display])
    | _ => exact absurd ht (by simp [GraphML.typeOf])
  | union ms =>
    cases k' with
    | union ms' => exact ⟨named_eq hm hm' (members_paragraphs h), nofun⟩
    | simple b => exfalso; cases b <;> exact absurd ht (by simp [GraphML.typeOf, Simple.display])
    | _ => exact absurd ht (by simp [GraphML.typeOf])
  | service s =>
    cases k' with
    | service s' =>
      obtain ⟨-, v1, v2, v3⟩ := hv
      obtain ⟨-, v1', v2', v3'⟩ := hv'
      have hver : s.version = s'.version := by
        simp only [skeleton, List.cons_append, List.cons.injEq, Block.paragraph.injEq, Inline.plain.injEq, true_and, and_true] at h
        exact h.1
      obtain ⟨a1, a2, a3⟩ := service_items id s
      obtain ⟨b1, b2, b3⟩ := service_items id s'
      have g1 := a1.symm.trans (h ▸ b1)
      have g2 := a2.symm.trans (h ▸ b2)
      have g3 := a3.symm.trans (h ▸ b3)
      refine ⟨sound_append (refs_eq v1 v1' _ g1) (refs_eq v2 v2' _ g2), ?_⟩
      rintro v v' ⟨⟩ ⟨⟩
      refine ⟨hver, ?_⟩
      have hr : ∀ e ∈ s.renames, e.1.Valid := fun e he => (v3 e.1 e.2 (AMap.get_of_mem hw he)).1
      have hr' : ∀ e ∈ s'.renames, e.1.Valid := fun e he => (v3' e.1 e.2 (AMap.get_of_mem hw' he)).1
      have g3 := maps_eq g3
      clear v3 v3' h hm hm' hw hw' ht hver g1 g2 v1 v2 v1' v2' a1 a2 a3 b1 b2 b3
      revert hr hr' g3
      generalize s.renames = l
      generalize s'.renames = l'
      intro hr hr' g3
      induction g3 with
      | nil => rfl
      | @cons a b _ _ h _ ih =>
        simp only [List.cons.injEq, Inline.code.injEq, and_true, true_and] at h
        have h1 := C03_display_injective _ _ (hr a (List.mem_cons_self ..)) (hr' b (List.mem_cons_self ..)) h.1
        rw [ih (fun e he => hr e (List.mem_cons_of_mem _ he)) (fun e he => hr' e (List.mem_cons_of_mem _ he))]
        congr 1
        exact Prod.ext h1 h.2
    | simple b => exfalso; cases b <;> exact absurd ht (by simp [GraphML.typeOf, Simple.display])
    | _ => exact absurd ht (by simp [GraphML.typeOf])
  | operation o =>
    cases k' with
    | operation o' =>
      refine ⟨?_, nofun⟩
      obtain ⟨v1, v2, v3⟩ := hv
      obtain ⟨v1', v2', v3'⟩ := hv'
      obtain ⟨i, u, es⟩ := o
      obtain ⟨i', u', es'⟩ := o'
      simp only [skeleton] at h
      have key : (i.map (refTo id) = i'.map (refTo id)) ∧ (u.map (refTo id) = u'.map (refTo id)) ∧ es.map (fun x => [refTo id x]) = es'.map fun x => [refTo id x] := by
        by_cases h1 : es = [] <;> by_cases h2 : es' = [] <;> cases i <;> cases i' <;> cases u <;> cases u' <;> simp [h1, h2] at h ⊢ <;> try exact h
      obtain ⟨k1, k2, k3⟩ := key
      refine sound_append (sound_append ?_ ?_) (refs_eq v3 v3' _ k3)
      · cases i <;> cases i' <;> first | cases k1 | skip
        · exact .nil
        · exact .cons ⟨rfl, refTo_inj (v1 _ rfl) (v1' _ rfl) (Option.some.inj k1)⟩ .nil
      · cases u <;> cases u' <;> first | cases k2 | skip
        · exact .nil
        · exact .cons ⟨rfl, refTo_inj (v2 _ rfl) (v2' _ rfl) (Option.some.inj k2)⟩ .nil
    | simple b => exfalso; cases b <;> exact absurd ht (by simp [GraphML.typeOf, Simple.display])
    | _ => exact absurd ht (by simp [GraphML.typeOf])
  | resource r =>
    cases k' with
    | resource r' =>
      refine ⟨?_, nofun⟩
      obtain ⟨-, -, v1, v2, v3⟩ := hv
      obtain ⟨-, -, v1', v2', v3'⟩ := hv'
      obtain ⟨a1, a2, a3, a4⟩ := resource_items id r
      obtain ⟨b1, b2, b3, b4⟩ := resource_items id r'
      have g1 := a1.symm.trans (h ▸ b1)
      have g2 := a2.symm.trans (h ▸ b2)
      have g3 := a3.symm.trans (h ▸ b3)
      have g4 := a4.symm.trans (h ▸ b4)
      refine sound_append (sound_append (sound_append (named_eq (fun x hx => hm x ?_) (fun x hx => hm' x ?_) g1) (refs_eq v1 v1' _ g2))
        (refs_eq v2 v2' _ g3)) (refs_eq v3 v3' _ g4)
      · exact List.mem_append_left _ (List.mem_append_left _ (List.mem_append_left _ hx))
      · exact List.mem_append_left _ (List.mem_append_left _ (List.mem_append_left _ hx))
    | simple b => exfalso; cases b <;> exact absurd ht (by simp [GraphML.typeOf, Simple.display])
    | _ => exact absurd ht (by simp [GraphML.typeOf])

/-! ### The document -/

theorem name_type {n n' t t' : Str} (hn : IsIdentifier n) (hn' : IsIdentifier n') (h : n ++ %s" (" ++ t ++ %s")" = n' ++ %s" (" ++ t' ++ %s")") :
    n = n' ∧ t = t' := by
  have key : ∀ {a b x y : Str}, (∀ c ∈ a, c ≠ ' ') → (∀ c ∈ b, c ≠ ' ') → a ++ ' ' :: x = b ++ ' ' :: y → a = b ∧ x = y := by
    intro a
    induction a with
    | nil =>
      intro b x y _ hb h
      cases b with
      | nil => injection h with _ h; exact ⟨rfl, h⟩
      | cons c b => injection h with h1 _; exact absurd h1.symm (hb c (List.mem_cons_self ..))
    | cons c a ih =>
      intro b x y ha hb h
      cases b with
      | nil => injection h with h1 _; exact absurd h1 (ha c (List.mem_cons_self ..))
      | cons d b =>
        injection h with h1 h2
        obtain ⟨h3, h4⟩ := ih (fun c hc => ha c (List.mem_cons_of_mem _ hc)) (fun c hc => hb c (List.mem_cons_of_mem _ hc)) h2
        exact ⟨by rw [h1, h3], h4⟩
  have no : ∀ {n : Str}, IsIdentifier n → ∀ c ∈ n, c ≠ ' ' := by
    rintro n hn c hc rfl
    have := Verif.ident_chars hn _ hc
    exact absurd this (by decide)
  simp only [List.append_assoc, List.cons_append, List.nil_append] at h
  obtain ⟨h1, h2⟩ := key (no hn) (no hn') h
  injection h2 with _ h2
  exact ⟨h1, List.append_cancel_right h2⟩

/-- What the part about a shape tells. -/
theorem shape_tells {f : Fmt} {s s' : TopLevelShape} {bs : List Block} (hw : WfShape s) (hw' : WfShape s') (hi : s.id.Valid) (hi' : s'.id.Valid)
    (hv : ValidKind s.body) (hv' : ValidKind s'.body) (hns : s.id.ns = s'.id.ns) (hmem : s.id.member = none) (hmem' : s'.id.member = none)
    (h : ShapePart f s bs) (h' : ShapePart f s' bs) : Told s s' := by
  obtain ⟨docs, body, hd, hb, rfl⟩ := h
  obtain ⟨docs', body', hd', hb', he⟩ := h'
  rw [List.cons_append, List.cons_append] at he
  injection he with he1 he2
  unfold headingOf at he1
  injection he1 with _ ht _
  obtain ⟨hname, htype⟩ := name_type hi.2.1 hi'.2.1 ht
  have hid : s.id = s'.id := by
    have : ∀ x y : ShapeID, x.ns = y.ns → x.name = y.name → x.member = none → y.member = none → x = y := by
      rintro ⟨a, b, c⟩ ⟨a', b', c'⟩ h1 h2 h3 h4
      simp only at h1 h2 h3 h4
      rw [h1, h2, h3, h4]
    exact this _ _ hns hname hmem hmem'
  obtain ⟨b1, b2, -⟩ := body_cut hb
  obtain ⟨b1', b2', -⟩ := body_cut hb'
  obtain ⟨hdocs, hbody⟩ := cut_front (p := fun b => !isDoc b) (fun b hb => by rw [docs_blocks hd b hb]; rfl) (fun b hb => by rw [docs_blocks hd' b hb]; rfl)
    (fun b hb => by rw [b2 b hb]; rfl) (fun b hb => by rw [b2' b hb]; rfl) he2
  subst hdocs hbody
  have hsk : skeleton s.id s.body = skeleton s.id s'.body := by rw [← b1]; conv_rhs => rw [hid, ← b1']
  obtain ⟨hm, hs⟩ := skeleton_tells hw.body hw'.body hv hv' htype hsk
  exact ⟨hid, htype, fun x => (docs_text hd x).trans (docs_text hd' x).symm, fun n => (docs_traits hd n).trans (docs_traits hd' n).symm, hm, hs⟩

/-- The heading of a namespace. -/
def isNs : Block → Bool
  | .heading 1 ('N' :: _) none => true
  | _ => false

/-- The heading of a shape. -/
def isShape : Block → Bool
  | .heading 2 _ _ => true
  | _ => false

theorem not_top {b : Block} (h : isTop b = false) : isNs b = false ∧ isShape b = false := by
  cases b with
  | heading n t l =>
    have : ¬ n ≤ 2 := by simpa [isTop] using h
    constructor
    · unfold isNs; split
      · rename_i h; cases h; omega
      · rfl
    · unfold isShape; split
      · rename_i h; cases h; omega
      · rfl
  | _ => exact ⟨rfl, rfl⟩

theorem shape_piece {f : Fmt} {s : TopLevelShape} {bs : List Block} (h : ShapePart f s bs) : Piece isShape bs ∧ ∀ b ∈ bs, isNs b = false := by
  obtain ⟨docs, body, hd, hb, rfl⟩ := h
  have hin : ∀ b ∈ docs ++ body, isTop b = false := by
    intro b hx
    rcases List.mem_append.mp hx with hx | hx
    · exact isTop_of_isDoc (docs_blocks hd b hx)
    · exact (body_cut hb).2.2 b hx
  refine ⟨⟨headingOf s, docs ++ body, rfl, rfl, fun b hb => (not_top (hin b hb)).2⟩, fun b hb => ?_⟩
  rcases List.mem_cons.mp hb with rfl | hb
  · rfl
  · exact (not_top (hin b hb)).1

theorem forall₂_right {α β : Type} {R : α → β → Prop} {l : List α} {l' : List β} (h : List.Forall₂ R l l') : ∀ b ∈ l', ∃ a ∈ l, R a b := by
  induction h with
  | nil => nofun
  | cons h _ ih =>
    intro b hb
    rcases List.mem_cons.mp hb with rfl | hb
    · exact ⟨_, List.mem_cons_self .., h⟩
    · obtain ⟨a, ha, h⟩ := ih b hb
      exact ⟨a, List.mem_cons_of_mem _ ha, h⟩

theorem forall₂_left {α β : Type} {R : α → β → Prop} {l : List α} {l' : List β} (h : List.Forall₂ R l l') : ∀ a ∈ l, ∃ b ∈ l', R a b := by
  induction h with
  | nil => nofun
  | cons h _ ih =>
    intro b hb
    rcases List.mem_cons.mp hb with rfl | hb
    · exact ⟨_, List.mem_cons_self .., h⟩
    · obtain ⟨a, ha, h⟩ := ih b hb
      exact ⟨a, List.mem_cons_of_mem _ ha, h⟩

theorem namespace_piece {f : Fmt} {m : Model} {ns : Str} {bs : List Block} (h : NamespacePart f m ns bs) : Piece isNs bs := by
  obtain ⟨ss, parts, -, -, -, hf, rfl⟩ := h
  refine ⟨_, _, rfl, rfl, fun b hb => ?_⟩
  obtain ⟨l, hl, hb⟩ := List.mem_flatten.mp hb
  obtain ⟨s, -, hs⟩ := forall₂_right hf l hl
  exact (shape_piece hs).2 b hb

/-- C82: models with the same document (and no namespaces that differ only in the case of letters) have metadata with the same keys that is shown as
the same texts, and the same shapes, of the same types, with the same documentation, names of traits, members and references. -/
theorem C82_tells (f : Fmt) (m m' : Model) (hw : WfModel m) (hw' : WfModel m') (hv : ValidModel m) (hv' : ValidModel m')
    (hn' : NamespacesDiffer m') (hn : NamespacesDiffer m) (d : Document) (h : describeModel f m = .ok d) (h' : describeModel f m' = .ok d) :
    (∃ texts, texts.length = m.metadata.length ∧ m.metadata.map (·.1) = m'.metadata.map (·.1) ∧
      List.Forall₂ (fun e t => ShownAs f e.2 t) m.metadata texts ∧ List.Forall₂ (fun e t => ShownAs f e.2 t) m'.metadata texts) ∧
    (∀ id s, DefinesShape m id s → ∃ s', DefinesShape m' id s' ∧ Told s s') ∧
    ∀ id s', DefinesShape m' id s' → ∃ s, DefinesShape m id s ∧ Told s s' := by
  obtain ⟨about, nss, parts, ⟨texts, ht, ha⟩, -, hnss, hf, -, hd⟩ := C81_document f m hw d h
  obtain ⟨about', nss', parts', ⟨texts', ht', ha'⟩, -, hnss', hf', -, hd'⟩ := C81_document f m' hw' d h'
  have quietA : ∀ {m : Model} {texts : List Str} {about : List Block}, (about = if m.metadata = [] then [] else
      [.heading 1 %s"Metadata" none, .table [%s"Key", %s"Value"] ((m.metadata.zip texts).map fun e => [.plain e.1.1, .code e.2])]) →
      ∀ b ∈ (.paragraph [.plain (%s"Smithy Version: " ++ m.version.display)] :: about), isNs b = false := by
    rintro m texts about rfl b hb
    rcases List.mem_cons.mp hb with rfl | hb
    · rfl
    · split at hb
      · cases hb
      · simp only [List.mem_cons, List.not_mem_nil, or_false] at hb
        rcases hb with rfl | rfl <;> rfl
  have pieces : ∀ l ∈ parts, Piece isNs l := fun l hl => namespace_piece (forall₂_right hf l hl).choose_spec.2
  have pieces' : ∀ l ∈ parts', Piece isNs l := fun l hl => namespace_piece (forall₂_right hf' l hl).choose_spec.2
  obtain ⟨hfront, hrest⟩ := cut_front (quietA ha) (quietA ha') (head_pieces pieces) (head_pieces pieces') (hd.symm.trans hd')
  have hparts : parts = parts' := cut_pieces pieces pieces' hrest
  subst hparts
  injection hfront with _ hab
  have one : ∀ {m m' : Model} {nss nss' : List Str}, WfModel m → WfModel m' → ValidModel m → ValidModel m' → NamespacesDiffer m' →
      (∀ ns, ns ∈ nss ↔ Uml.IsNamespaceOf m ns) → (∀ ns, ns ∈ nss' ↔ Uml.IsNamespaceOf m' ns) →
      List.Forall₂ (NamespacePart f m) nss parts → List.Forall₂ (NamespacePart f m') nss' parts →
      ∀ id s, DefinesShape m id s → ∃ s', DefinesShape m' id s' ∧ Told s s' := by
    intro m m' nss nss' hw hw' hv hv' hn' hnss hnss' hf hf' id s hs
    obtain ⟨hid, hmem⟩ := member_none hw hs
    subst hid
    obtain ⟨part, hpart, ss, pieces, hss, -, -, hsf, rfl⟩ := forall₂_left hf s.id.ns ((hnss _).mpr ⟨_, s, hs, rfl⟩)
    obtain ⟨ns', hns', ss', pieces', hss', -, -, hsf', he⟩ := forall₂_right hf' _ hpart
    injection he with he1 he2
    injection he1 with _ hns _
    have hns : s.id.ns = ns' := List.append_cancel_left hns
    have hp : pieces = pieces' := cut_pieces (fun l hl => (shape_piece (forall₂_right hsf l hl).choose_spec.2).1)
      (fun l hl => (shape_piece (forall₂_right hsf' l hl).choose_spec.2).1) he2
    subst hp
    obtain ⟨bs, hbs, hsp⟩ := forall₂_left hsf s ((hss s).mpr ⟨hs, rfl⟩)
    obtain ⟨s', hs', hsp'⟩ := forall₂_right hsf' bs hbs
    obtain ⟨hd', hl⟩ := (hss' s').mp hs'
    have hn2 : s'.id.ns = ns' := hn' _ _ ⟨_, s', hd', rfl⟩ ((hnss' _).mp hns') hl
    obtain ⟨-, hmem'⟩ := member_none hw' hd'
    have told := shape_tells (hw.shapes _ _ hs.1) (hw'.shapes _ _ hd'.1) (hv _ _ hs.1).1 (hv' _ _ hd'.1).1 (hv _ _ hs.1).2.2 (hv' _ _ hd'.1).2.2
      (hns.trans hn2.symm) hmem hmem' hsp hsp'
    exact ⟨s', told.id ▸ hd', told⟩
  refine ⟨?_, one hw hw' hv hv' hn' hnss hnss' hf hf', fun id s' hs' => ?_⟩
  · rw [ha, ha'] at hab
    have hl := ht.length_eq
    have hl' := ht'.length_eq
    by_cases h1 : m.metadata = [] <;> by_cases h2 : m'.metadata = []
    · refine ⟨[], ?_⟩
      rw [h1, h2]
      exact ⟨rfl, rfl, .nil, .nil⟩
    · rw [if_pos h1, if_neg h2] at hab; cases hab
    · rw [if_neg h1, if_pos h2] at hab; cases hab
    · rw [if_neg h1, if_neg h2] at hab
      simp only [List.cons.injEq, Block.table.injEq, and_true, true_and] at hab
      have h3 := maps_eq hab
      have key : ∀ {l l' : List ((Str × Value) × Str)}, List.Forall₂ (fun a b => [Cell.plain a.1.1, Cell.code a.2] = [Cell.plain b.1.1, Cell.code b.2]) l l' →
          l.map (·.1.1) = l'.map (·.1.1) ∧ l.map (·.2) = l'.map (·.2) := by
        intro l l' hll
        induction hll with
        | nil => exact ⟨rfl, rfl⟩
        | cons h _ ih =>
          simp only [List.cons.injEq, Cell.plain.injEq, Cell.code.injEq, and_true] at h
          simp only [List.map_cons, h.1, h.2, ih.1, ih.2, and_self]
      obtain ⟨k1, k2⟩ := key h3
      have z1 : ∀ (l : AMap Str Value) (t : List Str), l.length = t.length → (l.zip t).map (·.1.1) = l.map (·.1) ∧ (l.zip t).map (·.2) = t := by
        intro l t hlt
        refine ⟨?_, List.map_snd_zip (by omega)⟩
        have := List.map_fst_zip (l₁ := l) (l₂ := t) (by omega)
        conv_rhs => rw [← this]
        rw [List.map_map]; rfl
      rw [(z1 _ _ hl).1, (z1 _ _ hl').1] at k1
      rw [(z1 _ _ hl).2, (z1 _ _ hl').2] at k2
      exact ⟨texts, hl.symm, k1, ht, k2 ▸ ht'⟩
  · obtain ⟨s, hs, told⟩ := one hw' hw hv' hv hn hnss' hnss hf' hf id s' hs'
    refine ⟨s, hs, told.id.symm, told.type.symm, fun x => (told.documentation x).symm, fun n => (told.traits n).symm, ?_, ?_⟩
    · refine (told.members.flip).imp fun a b hab => ⟨hab.1.symm, ?_⟩
      rcases hab.2 with h | ⟨h1, h2, h3, h4⟩
      · exact .inl h.symm
      · rw [told.id] at h1 h2
        exact .inr ⟨h2, h1, h3.symm, h4.symm⟩
    · intro v v' h1 h2
      obtain ⟨h3, h4⟩ := told.service v' v h2 h1
      exact ⟨h3.symm, h4.symm⟩

/-- A resource with these identifiers. -/
def exOneResource (ids : AMap Str ShapeID) : Model :=
  ⟨.v10, [(%s"k", .boolean true)], [(sid %s"R", ⟨sid %s"R", [], .resource ⟨ids, some (sid %s"Make"), none, none, none, none, none, [], [], []⟩⟩)]⟩

theorem exOneResource_get {ids : AMap Str ShapeID} {id : ShapeID} {s : TopLevelShape} (h : (exOneResource ids).shape id = some s) :
    id = sid %s"R" ∧ s = ⟨sid %s"R", [], .resource ⟨ids, some (sid %s"Make"), none, none, none, none, none, [], [], []⟩⟩ := by
  have := AMap.mem_of_get h
  simp only [exOneResource, List.mem_singleton, Prod.mk.injEq] at this
  exact this

theorem exOneResource_ok {ids : AMap Str ShapeID} (hi : AMap.Wf ids) (hv : ∀ n id, AMap.get ids n = some id → IsIdentifier n ∧ id.Valid) (f : Fmt) :
    WfModel (exOneResource ids) ∧ ValidModel (exOneResource ids) ∧ NamespacesDiffer (exOneResource ids) ∧ ∃ d, describeModel f (exOneResource ids) = .ok d := by
  have hw : WfModel (exOneResource ids) := by
    refine ⟨List.nodup_singleton _, fun k v h => ?_, List.nodup_singleton _, ?_, ?_, ?_⟩
    · obtain ⟨-, rfl⟩ := get_one h; exact .boolean
    · intro id s h; obtain ⟨rfl, rfl⟩ := exOneResource_get h; rfl
    · intro id s h hm; obtain ⟨rfl, rfl⟩ := exOneResource_get h; cases hm
    · intro id s h; obtain ⟨rfl, rfl⟩ := exOneResource_get h; exact ⟨goodTraits_nil.wf, hi⟩
  refine ⟨hw, ?_, ?_, (C80_panics_iff f _ hw).2 ?_⟩
  · intro id s h
    obtain ⟨rfl, rfl⟩ := exOneResource_get h
    refine ⟨valid_sid rfl, nofun, hv, ?_, nofun, nofun, nofun⟩
    intro l id hl
    cases l <;> cases hl
    exact valid_sid rfl
  · rintro a b ⟨id, s, hs, rfl⟩ ⟨id', s', hs', rfl⟩ -
    obtain ⟨rfl, -⟩ := exOneResource_get hs.1
    obtain ⟨rfl, -⟩ := exOneResource_get hs'.1
    rfl
  · rintro ⟨id, s, hs, hb⟩
    obtain ⟨rfl, rfl⟩ := exOneResource_get hs.1
    rcases hb with ⟨v, hv, -⟩ | ⟨x, hx, -⟩
    · cases hv
    · cases hx

/-- Two models with the same document: a resource with an identifier and without. -/
example (f : Fmt) : ∃ d, describeModel f (exOneResource [(%s"id", sid %s"T")]) = .ok d ∧ describeModel f (exOneResource []) = .ok d ∧
    (∀ id s, DefinesShape (exOneResource [(%s"id", sid %s"T")]) id s → ∃ s', DefinesShape (exOneResource []) id s' ∧ Told s s') := by
  obtain ⟨hw, hv, hn, d, hd⟩ := exOneResource_ok (ids := [(%s"id", sid %s"T")]) (by unfold AMap.Wf; decide)
    (fun n id h => by obtain ⟨rfl, rfl⟩ := get_one h; exact ⟨(isIdent_iff _).mp rfl, valid_sid rfl⟩) f
  obtain ⟨hw', hv', hn', -⟩ := exOneResource_ok (ids := []) AMap.wf_nil nofun f
  have hd' : describeModel f (exOneResource []) = .ok d := by
    rw [← hd]
    have ha : AlikeModels (exOneResource [(%s"id", sid %s"T")]) (exOneResource []) := by
      refine ⟨rfl, rfl, .cons ⟨rfl, ?_⟩ .nil⟩
      exact Alike.resource (r := ⟨[(%s"id", sid %s"T")], some (sid %s"Make"), none, none, none, none, none, [], [], []⟩) .nil
    exact (C82_alike f _ _ ha).symm
  exact ⟨d, hd, hd', (C82_tells f _ _ hw hw' hv hv' hn' hn d hd hd').2.1⟩

end Describe
end Verif
