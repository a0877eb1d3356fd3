/-
Properties C40 and C41 (queries).
-/
import Verif.Query
import Verif.ModelProps

namespace Verif
open Query

namespace Spec

/-- What the documentation of `ShapeType` says each type matches (atelier-core/src/model/selector/mod.rs:20-73). -/
inductive Documented : ShapeType → ShapeKind → Prop
  | any {k} : Documented .any k
  | byteN : Documented .number (.simple .byte)
  | shortN : Documented .number (.simple .short)
  | integerN : Documented .number (.simple .integer)
  | longN : Documented .number (.simple .long)
  | floatN : Documented .number (.simple .float)
  | doubleN : Documented .number (.simple .double)
  | bigDecimalN : Documented .number (.simple .bigDecimal)
  | bigIntegerN : Documented .number (.simple .bigInteger)
  | simpleType {s} : Documented .simpleType (.simple s)
  | collectionList {m} : Documented .collection (.list m)
  | collectionSet {m} : Documented .collection (.set m)
  | blob : Documented .blob (.simple .blob)
  | boolean : Documented .boolean (.simple .boolean)
  | document : Documented .document (.simple .document)
  | string : Documented .string (.simple .string)
  | integer : Documented .integer (.simple .integer)
  | byte : Documented .byte (.simple .byte)
  | short : Documented .short (.simple .short)
  | long : Documented .long (.simple .long)
  | float : Documented .float (.simple .float)
  | double : Documented .double (.simple .double)
  | bigDecimal : Documented .bigDecimal (.simple .bigDecimal)
  | bigInteger : Documented .bigInteger (.simple .bigInteger)
  | timestamp : Documented .timestamp (.simple .timestamp)
  | list {m} : Documented .list (.list m)
  | set {m} : Documented .set (.set m)
  | map {k v} : Documented .map (.map k v)
  | structure_ {ms} : Documented .structure (.struct ms)
  | union {ms} : Documented .union (.union ms)
  | service {s} : Documented .service (.service s)
  | operation {o} : Documented .operation (.operation o)
  | resource {r} : Documented .resource (.resource r)

/-- What the code does instead: `number` leaves out bytes and longs, `collection` takes in maps. -/
def Actual (t : ShapeType) (k : ShapeKind) : Prop :=
  (Documented t k ∧ ¬ (t = .number ∧ (k = .simple .byte ∨ k = .simple .long))) ∨ (t = .collection ∧ ∃ x y, k = .map x y)

end Spec
open Spec

/-! ### C41 Shape types -/

theorem matchByShapeType_iff (t : ShapeType) (s : TopLevelShape) : matchByShapeType t s = true ↔ Actual t s.body := by
  obtain ⟨id, ts, k⟩ := s
  constructor
  · intro h
    cases t <;> cases k <;>
      simp only [matchByShapeType, isSimpleOf, ShapeKind.isSimple, ShapeKind.isList, ShapeKind.isSet, ShapeKind.isMap, ShapeKind.isStructure,
        ShapeKind.isUnion, ShapeKind.isService, ShapeKind.isOperation, ShapeKind.isResource, Bool.or_eq_true, decide_eq_true_eq, Bool.or_false,
        Bool.false_eq_true, Bool.false_or, Bool.or_true, Bool.true_or] at h <;>
      first
        | exact .inr ⟨rfl, _, _, rfl⟩
        | exact .inl ⟨by constructor, by simp⟩
        | (subst h; exact .inl ⟨by constructor, by simp⟩)
        | (rcases h with ((((h | h) | h) | h) | h) | h <;> subst h <;> exact .inl ⟨by constructor, by simp⟩)
  · rintro (⟨h, hn⟩ | ⟨rfl, x, y, hk⟩)
    · simp only at h hn
      cases h <;> first | rfl | (exact absurd ⟨rfl, by simp⟩ hn)
    · simp only at hk; subst hk; rfl

/-- C41: for every type but `number` and `collection` the match is the documented one. For those two,
`C41_number_violated` and `C41_collection_violated` say exactly what matches. -/
theorem C41_documented (t : ShapeType) (h1 : t ≠ .number) (h2 : t ≠ .collection) (s : TopLevelShape) :
    matchByShapeType t s = true ↔ Documented t s.body := by
  rw [matchByShapeType_iff]
  constructor
  · rintro (⟨h, -⟩ | ⟨h, -⟩)
    · exact h
    · exact absurd h h2
  · exact fun h => .inl ⟨h, fun hn => h1 hn.1⟩

/-- C41, violation: `number` matches the documented shapes except bytes and longs, which are numbers. -/
theorem C41_number_violated (s : TopLevelShape) : matchByShapeType .number s = true ↔
    Documented .number s.body ∧ s.body ≠ .simple .byte ∧ s.body ≠ .simple .long := by
  rw [matchByShapeType_iff]
  constructor
  · rintro (⟨h, hn⟩ | ⟨h, -⟩)
    · exact ⟨h, fun hb => hn ⟨rfl, .inl hb⟩, fun hb => hn ⟨rfl, .inr hb⟩⟩
    · cases h
  · rintro ⟨h, h1, h2⟩
    exact .inl ⟨h, fun hn => hn.2.elim h1 h2⟩

/-- C41, violation: `collection` matches maps as well. -/
theorem C41_collection_violated (s : TopLevelShape) : matchByShapeType .collection s = true ↔
    Documented .collection s.body ∨ ∃ k v, s.body = .map k v := by
  rw [matchByShapeType_iff]
  constructor
  · rintro (⟨h, -⟩ | ⟨-, h⟩)
    · exact .inl h
    · exact .inr h
  · rintro (h | h)
    · exact .inl ⟨h, fun hn => by cases hn.1⟩
    · exact .inr ⟨rfl, h⟩

example : Documented .number (.simple .byte) ∧ Documented .number (.simple .long) ∧
    ¬ Documented .collection (.map (MemberShape.new %s"key" (sid %s"A")) (MemberShape.new %s"value" (sid %s"A"))) :=
  ⟨.byteN, .longN, fun h => by cases h⟩

/-! ### C40 Queries -/

/-- The expressions a query can evaluate. -/
def Spec.Evaluable : SelectorExpression → Prop
  | .shapeType _ | .variableDefinition _ _ | .variableReference _ => True
  | _ => False

/-- The shape types asked for by a selector. -/
def Spec.askedTypes (s : Selector) (t : ShapeType) : Prop := SelectorExpression.shapeType t ∈ s

/-- The test an expression makes on an id. -/
def passes (m : Model) (id : ShapeID) : SelectorExpression → Bool
  | .shapeType t => (match m.shape id with | some x => matchByShapeType t x | none => false)
  | _ => true

theorem queryFrom_shapes (m : Model) (s : Selector) (ids : List ShapeID) (h : ∀ e ∈ s, Evaluable e) :
    queryFrom m s (.shapes ids) = .ok (.shapes (ids.filter fun id => s.all (passes m id))) := by
  induction s generalizing ids with
  | nil =>
    have : (ids.filter fun _ => true) = ids := List.filter_eq_self.mpr (by simp)
    simp only [queryFrom, List.all_nil, this]
  | cons e es ih =>
    have he := h e (by simp)
    have hes : ∀ e ∈ es, Evaluable e := fun x hx => h x (by simp [hx])
    cases e with
    | shapeType t =>
      simp only [queryFrom, queryOne, byShapeType, List.all_cons]
      refine (ih _ hes).trans ?_
      rw [List.filter_filter]
      congr 3
      funext id
      rw [Bool.and_comm]
      rfl
    | variableDefinition n x => exact ih ids hes
    | variableReference n => exact ih ids hes
    | _ => exact absurd he (by simp [Evaluable])

/-- C40: a selector of shape types (and variables) yields exactly the resolved shapes of the model that match every
shape type in it, each once, in the order of the model. `Actual` is what `C41` is about. -/
theorem C40_query_iff (m : Model) (hm : WfModel m) (s : Selector) (h : ∀ e ∈ s, Evaluable e) :
    ∃ ids : List ShapeID, query s m = .ok (.shapes ids) ∧ ids.Nodup ∧ List.Sublist ids m.shapeNames ∧
      ∀ id, id ∈ ids ↔ ∃ x, m.shape id = some x ∧ x.body ≠ .unresolved ∧ ∀ t, askedTypes s t → Actual t x.body := by
  refine ⟨_, queryFrom_shapes m s m.shapeNames h, ?_, List.filter_sublist, ?_⟩
  · refine List.Nodup.sublist List.filter_sublist ?_
    have hk : m.shapesList.map (·.id) = AMap.keys m.shapes := by
      simp only [Model.shapesList, AMap.values, AMap.keys, List.map_map]
      apply List.map_congr_left
      intro e he
      exact hm.key _ _ (AMap.get_of_mem hm.nodup he)
    have hn : (m.shapesList.map (·.id)).Nodup := by rw [hk]; exact hm.nodup
    exact hn.sublist (List.filter_sublist.map _)
  · intro id
    simp only [List.mem_filter, Model.shapeNames, List.mem_map, Bool.not_eq_true', List.all_eq_true]
    constructor
    · rintro ⟨⟨x, ⟨hx, hu⟩, rfl⟩, hall⟩
      obtain ⟨e, he, rfl⟩ := List.mem_map.mp hx
      have hg := AMap.get_of_mem hm.nodup he
      have hid : e.2.id = e.1 := hm.key _ _ hg
      have hsh : m.shape e.2.id = some e.2 := by rw [hid]; exact hg
      refine ⟨e.2, hsh, ?_, ?_⟩
      · intro hb
        simp [TopLevelShape.isUnresolved, ShapeKind.isUnresolved, hb] at hu
      · intro t ht
        have := hall _ ht
        simp only [passes, hsh] at this
        exact (matchByShapeType_iff t e.2).mp this
    · rintro ⟨x, hx, hb, hall⟩
      have hid : x.id = id := hm.key _ _ hx
      refine ⟨⟨x, ⟨List.mem_map.mpr ⟨(id, x), AMap.mem_of_get hx, rfl⟩, ?_⟩, hid⟩, ?_⟩
      · cases hk : x.body <;> simp_all [TopLevelShape.isUnresolved, ShapeKind.isUnresolved]
      · intro e he
        cases e with
        | shapeType t => simp only [passes, hx]; exact (matchByShapeType_iff t x).mpr (hall t he)
        | _ => rfl

/-- C40: the order of the expressions does not matter. -/
theorem C40_order_of_expressions (m : Model) (s s' : Selector) (hp : s.Perm s') (h : ∀ e ∈ s, Evaluable e) :
    query s m = query s' m := by
  have h' : ∀ e ∈ s', Evaluable e := fun e he => h e (hp.mem_iff.mpr he)
  rw [query, query, Projection.from, queryFrom_shapes m s _ h, queryFrom_shapes m s' _ h']
  congr 3
  funext id
  exact Bool.eq_iff_iff.mpr (by simp only [List.all_eq_true]; exact ⟨fun hh e he => hh e (hp.mem_iff.mpr he), fun hh e he => hh e (hp.mem_iff.mp he)⟩)

/-- C40, violation: any other selector (by attribute, neighbor or function) panics, whatever the model; so a query
returns normally exactly when it uses only shape types and variables. -/
theorem C40_panics_iff (m : Model) (s : Selector) : query s m = .error .panic ↔ ∃ e ∈ s, ¬ Evaluable e := by
  have key : ∀ (s : Selector) (ids : List ShapeID), (∃ e ∈ s, ¬ Evaluable e) → queryFrom m s (.shapes ids) = .error .panic := by
    intro s
    induction s with
    | nil => rintro ids ⟨e, he, -⟩; cases he
    | cons e es ih =>
      intro ids hex
      by_cases he : Evaluable e
      · have hes : ∃ x ∈ es, ¬ Evaluable x := by
          obtain ⟨x, hx, hn⟩ := hex
          rcases List.mem_cons.mp hx with rfl | hx
          · exact absurd he hn
          · exact ⟨x, hx, hn⟩
        cases e with
        | shapeType t => exact ih _ hes
        | variableDefinition n x => exact ih _ hes
        | variableReference n => exact ih _ hes
        | _ => exact absurd he (by simp [Evaluable])
      · cases e <;> first | rfl | exact absurd trivial he
  constructor
  · intro hp
    apply Classical.byContradiction
    intro hn
    have hall : ∀ e ∈ s, Evaluable e := fun e he => Classical.byContradiction fun h => hn ⟨e, he, h⟩
    rw [query, Projection.from, queryFrom_shapes m s _ hall] at hp
    cases hp
  · exact key s _

/-- Structures are selected, unresolved shapes are not. -/
example : WfModel exModel ∧ (∀ e ∈ ([.shapeType .structure, .variableReference %s"x"] : Selector), Evaluable e) ∧
    query [.shapeType .structure, .variableReference %s"x"] exModel = .ok (.shapes [sid %s"S"]) ∧
    query [.shapeType .any] exModel = .ok (.shapes [sid %s"S"]) :=
  ⟨exModel_wf, by simp [Evaluable], rfl, rfl⟩

end Verif
