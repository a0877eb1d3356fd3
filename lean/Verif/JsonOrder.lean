/-
C109: what is read from a JSON document does not depend on the order of the entries of its objects.
-/
import Verif.JsonSame
import Verif.SettleJson

namespace Verif
open Spec

/-! ### A JSON document is the AST of a model whatever the order of its entries -/

namespace Ordered

theorem get {a b : AMap Str Json} (h : SameJson (.object a) (.object b)) (k : Str) : OptRel SameJson (a.get k) (b.get k) := by
  cases h with
  | object h1 h2 =>
    have h1 := h1 k; have h2 := h2 k
    generalize AMap.get a k = x at h1 h2
    generalize AMap.get b k = y at h1 h2
    cases x <;> cases y <;> simp at h1
    · exact .none
    · exact .some (h2 _ _ rfl rfl)

theorem object {a : AMap Str Json} {j : Json} (h : SameJson (.object a) j) (hj : WfJson j) :
    ∃ b : AMap Str Json, j = .object b ∧ AMap.Wf b ∧ (∀ e ∈ b, WfJson e.2) ∧ ∀ k, OptRel SameJson (a.get k) (b.get k) := by
  cases h with
  | object h1 h2 =>
    cases hj with
    | object hw he => exact ⟨_, rfl, hw, he, Ordered.get (.object h1 h2)⟩

theorem string {s : Str} {j : Json} (h : SameJson (.string s) j) : j = .string s := by cases h; rfl

theorem field {a b : AMap Str Json} {k : Str} {x : Json} (h : ∀ k, OptRel SameJson (a.get k) (b.get k)) (hx : a.get k = some x) :
    ∃ y, b.get k = some y ∧ SameJson x y := by
  have := h k
  rw [hx] at this
  generalize AMap.get b k = y at this
  cases this with
  | some h => exact ⟨_, rfl, h⟩

theorem back {a b : AMap Str Json} {k : Str} {y : Json} (h : ∀ k, OptRel SameJson (a.get k) (b.get k)) (hy : b.get k = some y) :
    ∃ x, a.get k = some x ∧ SameJson x y := by
  have := h k
  rw [hy] at this
  generalize AMap.get a k = x at this
  cases this with
  | some h => exact ⟨_, rfl, h⟩

theorem stringField {a b : AMap Str Json} {k : Str} {s : Str} (h : ∀ k, OptRel SameJson (a.get k) (b.get k)) (hx : a.get k = some (.string s)) :
    b.get k = some (.string s) := by
  obtain ⟨y, hy, hs⟩ := field h hx
  rw [hy, string hs]

theorem member {b : AMap Str Json} (he : ∀ e ∈ b, WfJson e.2) {k : Str} {y : Json} (h : b.get k = some y) : WfJson y :=
  he _ (AMap.mem_of_get h)

theorem jsonOf {v : Value} {x : Json} (h : JsonOf v x) : ∀ y, SameJson x y → WfJson y → JsonOf v y := by
  induction h with
  | none => intro y hs _; cases hs; exact .none
  | boolean => intro y hs _; cases hs; exact .boolean
  | string => intro y hs _; cases hs; exact .string
  | integer h => intro y hs _; cases hs; exact .integer h
  | float h => intro y hs _; cases hs; exact .float h
  | @array a l hl _ ih =>
    intro y hs hy
    cases hs with
    | @array _ b hb he =>
      cases hy with
      | array hy =>
        refine .array (hl.trans hb) fun i v z hv hz => ?_
        have hi : i < l.length := by rw [hb]; exact (List.getElem?_eq_some_iff.mp hz).1
        have hx := List.getElem?_eq_getElem hi
        exact ih i v _ hv hx z (he i _ z hx hz) (hy z (List.mem_of_getElem? hz))
  | @object m o ho hk _ ih =>
    intro y hs hy
    obtain ⟨b, rfl, hw, he, hg⟩ := object hs hy
    refine .object hw (fun k => ?_) fun k v z hv hz => ?_
    · rw [hk k]
      have := hg k
      generalize AMap.get o k = x at this
      generalize AMap.get b k = y at this
      cases this <;> rfl
    · obtain ⟨x, hx, hs⟩ := back hg hz
      exact ih k v x hv hx z hs (member he hz)

theorem objOf {K V : Type} [DecidableEq K] {name : K → Str} {R : V → Json → Prop} (hR : ∀ v x y, R v x → SameJson x y → WfJson y → R v y)
    {m : AMap K V} {x y : Json} (h : ObjOf name R m x) (hs : SameJson x y) (hy : WfJson y) : ObjOf name R m y := by
  obtain ⟨o, rfl, ho, h1, h2⟩ := h
  obtain ⟨b, rfl, hw, he, hg⟩ := object hs hy
  refine ⟨b, rfl, hw, fun k v hv => ?_, fun s w hw => ?_⟩
  · obtain ⟨w, hw, hr⟩ := h1 k v hv
    obtain ⟨z, hz, hs⟩ := field hg hw
    exact ⟨z, hz, hR _ _ _ hr hs (member he hz)⟩
  · obtain ⟨x, hx, -⟩ := back hg hw
    exact h2 s x hx

theorem maybeObj {K V : Type} [DecidableEq K] {name : K → Str} {R : V → Json → Prop} (hR : ∀ v x y, R v x → SameJson x y → WfJson y → R v y)
    {m : AMap K V} {x y : Option Json} (h : MaybeObj name R m x) (hs : OptRel SameJson x y) (hy : ∀ z, y = some z → WfJson z) :
    MaybeObj name R m y := by
  rcases h with ⟨h1, rfl⟩ | ⟨z, rfl, h⟩
  · cases hs; exact .inl ⟨h1, rfl⟩
  · cases hs with
    | some hs => exact .inr ⟨_, rfl, objOf hR h hs (hy _ rfl)⟩

theorem optRel {α : Type} {R : α → Json → Prop} (hR : ∀ v x y, R v x → SameJson x y → WfJson y → R v y) {v : Option α} {x y : Option Json}
    (h : OptRel R v x) (hs : OptRel SameJson x y) (hy : ∀ z, y = some z → WfJson z) : OptRel R v y := by
  cases h with
  | none => cases hs; exact .none
  | some h => cases hs with
    | some hs => exact .some (hR _ _ _ h hs (hy _ rfl))

theorem refOf (id : ShapeID) (x y : Json) (h : RefOf id x) (hs : SameJson x y) (hy : WfJson y) : RefOf id y := by
  obtain ⟨o, rfl, ho, h1⟩ := h
  obtain ⟨b, rfl, hw, he, hg⟩ := object hs hy
  exact ⟨b, rfl, hw, stringField hg h1⟩

theorem maybeRefs {ids : List ShapeID} {x y : Option Json} (h : MaybeRefs ids x) (hs : OptRel SameJson x y) (hy : ∀ z, y = some z → WfJson z) :
    MaybeRefs ids y := by
  rcases h with ⟨h1, rfl⟩ | ⟨l, rfl, hl, h⟩
  · cases hs; exact .inl ⟨h1, rfl⟩
  · cases hs with
    | some hs =>
      cases hs with
      | @array _ b hb he =>
        have hy := hy _ rfl
        cases hy with
        | array hy =>
          refine .inr ⟨b, rfl, hl.trans hb, fun i v z hv hz => ?_⟩
          have hi : i < l.length := by rw [hb]; exact (List.getElem?_eq_some_iff.mp hz).1
          have hx := List.getElem?_eq_getElem hi
          exact refOf _ _ _ (h i v _ hv hx) (he i _ z hx hz) (hy z (List.mem_of_getElem? hz))

theorem traitOf (v : TraitValue) (x y : Json) (h : TraitOf v x) (hs : SameJson x y) (hy : WfJson y) : TraitOf v y := by
  cases v with
  | some v => exact jsonOf h y hs hy
  | none =>
    change x = _ at h
    subst h
    obtain ⟨b, rfl, hw, he, hg⟩ := object hs hy
    cases b with
    | nil => rfl
    | cons e b =>
      obtain ⟨k, w⟩ := e
      have := hg k
      rw [AMap.get_cons, if_pos rfl] at this
      cases this

theorem traitsOf {ts : Traits} {x y : Option Json} (h : TraitsOf ts x) (hs : OptRel SameJson x y) (hy : ∀ z, y = some z → WfJson z) :
    TraitsOf ts y := maybeObj traitOf h hs hy

theorem memberOf (m : MemberShape) (x y : Json) (h : MemberOf m x) (hs : SameJson x y) (hy : WfJson y) : MemberOf m y := by
  obtain ⟨o, rfl, ho, h1, h2⟩ := h
  obtain ⟨b, rfl, hw, he, hg⟩ := object hs hy
  exact ⟨b, rfl, hw, stringField hg h1, traitsOf h2 (hg _) fun z hz => member he hz⟩

theorem nameOf (n : Str) (x y : Json) (h : x = .string n) (hs : SameJson x y) (_ : WfJson y) : y = .string n := by
  subst h; exact string hs

theorem kindOf {k : ShapeKind} {a b : AMap Str Json} (hg : ∀ k, OptRel SameJson (a.get k) (b.get k)) (he : ∀ e ∈ b, WfJson e.2) (h : KindOf k a) :
    KindOf k b := by
  have hm : ∀ {k z}, b.get k = some z → WfJson z := fun hz => member he hz
  cases k with
  | simple s => exact stringField hg h
  | list m => exact ⟨stringField hg h.1, optRel memberOf h.2 (hg _) fun z => hm⟩
  | set m => exact ⟨stringField hg h.1, optRel memberOf h.2 (hg _) fun z => hm⟩
  | map k v => exact ⟨stringField hg h.1, optRel memberOf h.2.1 (hg _) fun z => hm, optRel memberOf h.2.2 (hg _) fun z => hm⟩
  | struct ms => exact ⟨stringField hg h.1, maybeObj memberOf h.2 (hg _) fun z => hm⟩
  | union ms => exact ⟨stringField hg h.1, maybeObj memberOf h.2 (hg _) fun z => hm⟩
  | service s =>
    obtain ⟨h1, h2, h3, h4, h5⟩ := h
    exact ⟨stringField hg h1, stringField hg h2, maybeRefs h3 (hg _) fun z => hm, maybeRefs h4 (hg _) fun z => hm,
      maybeObj nameOf h5 (hg _) fun z => hm⟩
  | operation p =>
    obtain ⟨h1, h2, h3, h4⟩ := h
    exact ⟨stringField hg h1, optRel refOf h2 (hg _) fun z => hm, optRel refOf h3 (hg _) fun z => hm, maybeRefs h4 (hg _) fun z => hm⟩
  | resource r =>
    obtain ⟨h1, h2, h3, h4, h5, h6, h7, h8, h9, h10, h11⟩ := h
    exact ⟨stringField hg h1, maybeObj refOf h2 (hg _) fun z => hm, optRel refOf h3 (hg _) fun z => hm, optRel refOf h4 (hg _) fun z => hm,
      optRel refOf h5 (hg _) fun z => hm, optRel refOf h6 (hg _) fun z => hm, optRel refOf h7 (hg _) fun z => hm, optRel refOf h8 (hg _) fun z => hm,
      maybeRefs h9 (hg _) fun z => hm, maybeRefs h10 (hg _) fun z => hm, maybeRefs h11 (hg _) fun z => hm⟩
  | unresolved => exact stringField hg h

theorem shapeOf (s : TopLevelShape) (x y : Json) (h : ShapeOf s x) (hs : SameJson x y) (hy : WfJson y) : ShapeOf s y := by
  obtain ⟨o, rfl, ho, h1, h2⟩ := h
  obtain ⟨b, rfl, hw, he, hg⟩ := object hs hy
  exact ⟨b, rfl, hw, traitsOf h1 (hg _) fun z hz => member he hz, kindOf hg he h2⟩

theorem modelOf (m : Model) (x y : Json) (h : ModelOf m x) (hs : SameJson x y) (hy : WfJson y) : ModelOf m y := by
  obtain ⟨o, rfl, ho, h1, h2, h3⟩ := h
  obtain ⟨b, rfl, hw, he, hg⟩ := object hs hy
  exact ⟨b, rfl, hw, stringField hg h1, maybeObj (R := JsonOf) (fun _ _ _ h => jsonOf h _) h2 (hg _) fun z hz => member he hz,
    maybeObj shapeOf h3 (hg _) fun z hz => member he hz⟩

/-! ### The document the reader takes it for -/

theorem wrap {x y : Json} (h : SameJson x y) : SameJson (wrapInts x) (wrapInts y) := by
  induction h with
  | null => exact .null
  | bool => exact .bool
  | string => exact .string
  | @number n =>
    cases n with
    | posInt n => simp only [wrapInts]; split <;> exact .number
    | negInt n => exact .number
    | float n => exact .number
  | @array a b hl _ ih =>
    simp only [wrapInts, wrapList_map]
    refine .array (by simpa using hl) fun i x y hx hy => ?_
    rw [List.getElem?_map] at hx hy
    cases ha : a[i]? with
    | none => rw [ha] at hx; cases hx
    | some u =>
      cases hb : b[i]? with
      | none => rw [hb] at hy; cases hy
      | some v =>
        rw [ha] at hx; rw [hb] at hy
        cases hx; cases hy
        exact ih i u v ha hb
  | @object a b hk _ ih =>
    simp only [wrapInts, wrapEntries_map]
    refine JsonWriter.sameJson_object fun k => ?_
    rw [AMap.get_map_val (fun _ v => wrapInts v), AMap.get_map_val (fun _ v => wrapInts v)]
    have hk := hk k; have ih := ih k
    generalize AMap.get a k = x at hk ih
    generalize AMap.get b k = y at hk ih
    cases x <;> cases y <;> simp at hk
    · exact .none
    · exact .some (ih _ _ rfl rfl)

theorem mended {f : Str → Json → Option Json} {x y : Json} (h : SameJson x y) (hx : WfJson x) (hy : WfJson y)
    (hf : ∀ k u v, SameJson u v → WfJson u → WfJson v → OptRel SameJson (f k u) (f k v)) : SameJson (mend f x) (mend f y) := by
  cases h with
  | null => exact .null
  | bool => exact .bool
  | string => exact .string
  | number => exact .number
  | array h1 h2 => exact .array h1 h2
  | @object a b h1 h2 =>
    have hg := get (.object h1 h2)
    cases hx with
    | object ha hae =>
      cases hy with
      | object hb hbe =>
        refine JsonWriter.sameJson_object fun k => ?_
        rw [get_filterMap f _ ha, get_filterMap f _ hb]
        have hg := hg k
        have h1 := fun z => member (k := k) (y := z) hae
        have h2 := fun z => member (k := k) (y := z) hbe
        generalize AMap.get a k = x at hg h1
        generalize AMap.get b k = y at hg h2
        cases hg with
        | none => exact .none
        | some h => exact hf k _ _ h (h1 _ rfl) (h2 _ rfl)

theorem only {x y : Json} (h : SameJson x y) : OptRel SameJson (onlyObject x) (onlyObject y) := by
  cases h with
  | object h1 h2 => exact .some (.object h1 h2)
  | _ => exact .none

theorem only_wf {x y : Json} (hx : WfJson x) (h : onlyObject x = some y) : WfJson y := by
  obtain ⟨rfl, -⟩ := onlyObject_eq h; exact hx

theorem tidyMember {x y : Json} (h : SameJson x y) (hx : WfJson x) (hy : WfJson y) : SameJson (tidyMember x) (tidyMember y) := by
  refine mended h hx hy fun k u v h _ _ => ?_
  split
  · exact only h
  · exact .some h

theorem onlyMended {f : Json → Json} {x y : Json} (h : SameJson x y) (hx : WfJson x) (hy : WfJson y)
    (hf : ∀ u v, SameJson u v → WfJson u → WfJson v → SameJson (f u) (f v)) :
    OptRel SameJson ((onlyObject x).map (mend fun _ y => some (f y))) ((onlyObject y).map (mend fun _ y => some (f y))) := by
  have h1 := only h
  have h2 := fun z => only_wf (y := z) hx
  have h3 := fun z => only_wf (y := z) hy
  generalize onlyObject x = u at h1 h2
  generalize onlyObject y = v at h1 h3
  cases h1 with
  | none => exact .none
  | some h => exact .some (mended h (h2 _ rfl) (h3 _ rfl) fun _ u v h hu hv => .some (hf u v h hu hv))

theorem tidyShape {x y : Json} (h : SameJson x y) (hx : WfJson x) (hy : WfJson y) : SameJson (tidyShape x) (tidyShape y) := by
  refine mended h hx hy fun k u v h hu hv => ?_
  split
  · exact only h
  split
  · exact onlyMended h hu hv fun _ _ => tidyMember
  split
  · exact .some (tidyMember h hu hv)
  · exact .some h

theorem fullVersion {x y : Json} (h : SameJson x y) : SameJson (fullVersion x) (fullVersion y) := by
  cases h with
  | string => simp only [Verif.fullVersion]; split <;> exact .string
  | null => exact .null
  | bool => exact .bool
  | number => exact .number
  | array h1 h2 => exact .array h1 h2
  | object h1 h2 => exact .object h1 h2

theorem tidyDoc {x y : Json} (h : SameJson x y) (hx : WfJson x) (hy : WfJson y) : SameJson (tidyDoc x) (tidyDoc y) := by
  refine mended (wrap h) (wf_wrap hx) (wf_wrap hy) fun k u v h hu hv => ?_
  unfold tidyEntry
  split
  · exact .some (fullVersion h)
  split
  · exact only h
  split
  · exact onlyMended h hu hv fun _ _ => tidyShape
  · exact .some h

end Ordered

/-- C109: a JSON document in which the entries of objects are in another order is accepted too, and the same model is read from it. -/
theorem C109_json_order (j j' : Json) (hj : WfJson j) (hj' : WfJson j') (h : SameJson j j') (m : Model) (hm : JsonReader.model j = .ok m) :
    ∃ m', JsonReader.model j' = .ok m' ∧ SameModel m m' := by
  obtain ⟨hw, hv, hf⟩ := C30_read_model_wf j m hj hm
  have h1 := (C46_accepts_tidy_iff j hj).2 m hm
  have h2 := Ordered.modelOf m _ _ h1 (Ordered.tidyDoc h hj hj') (C46_tidy_strict j' hj').1
  obtain ⟨m', h3, h4⟩ := C30_read_ast m _ hw hv h2
  rw [C46_reads_tidy j' hj'] at h3
  exact ⟨m', h3, ((jsonNormal_same (read_roundTrips hj hm)).symm).trans h4⟩

end Verif
