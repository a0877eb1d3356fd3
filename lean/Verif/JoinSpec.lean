/-
Independent description of what several models, merged one after the other, make together, and of when two models differ only
in the order in which things were put together.
-/
import Verif.MergeSpec
import Verif.AssemblerSpec

namespace Verif.Spec

/-- What becomes of the values that several models have for one metadata key, in the order of the models: arrays are joined;
of values that are not arrays, which must all be equal, the first is kept. -/
inductive Joined : List Value → Option Value → Prop
  | nothing : Joined [] none
  | arrays {as : List (List Value)} : as ≠ [] → Joined (as.map .array) (some (.array as.flatten))
  | first {v : Value} {vs : List Value} : v.isArray = false → (∀ w ∈ vs, VEq v w) → Joined (v :: vs) (some v)

/-- The same for the values of a trait: either none of the applications has a value, or all have. -/
inductive JoinedTrait : List TraitValue → Option TraitValue → Prop
  | nothing : JoinedTrait [] none
  | valueless {ts : List TraitValue} : ts ≠ [] → (∀ t ∈ ts, t = none) → JoinedTrait ts (some none)
  | values {vs : List Value} {v : Value} : Joined vs (some v) → JoinedTrait (vs.map some) (some (some v))

/-- What becomes of the bodies of several shapes with one id: the first that is not a placeholder is kept, and all others are
placeholders or agree with it. -/
inductive JoinedBody : List ShapeKind → ShapeKind → Prop
  | placeholders {ks : List ShapeKind} : (∀ k ∈ ks, k = .unresolved) → JoinedBody ks .unresolved
  | definition {before after : List ShapeKind} {k : ShapeKind} : (∀ x ∈ before, x = .unresolved) → k ≠ .unresolved →
      (∀ x ∈ after, x = .unresolved ∨ SameDef k x) → JoinedBody (before ++ k :: after) k

/-- What becomes of several shapes with one id. -/
inductive JoinedShape (id : ShapeID) : List TopLevelShape → Option TopLevelShape → Prop
  | nothing : JoinedShape id [] none
  | shape {ss : List TopLevelShape} {s : TopLevelShape} : ss ≠ [] → s.id = id → JoinedBody (ss.map (·.body)) s.body →
      (∀ t, JoinedTrait (ss.filterMap fun x => x.traits.get t) (s.traits.get t)) → JoinedShape id ss (some s)

/-- `m` is what the models `ms` make together. -/
structure Joins (ms : List Model) (m : Model) : Prop where
  version : ∀ x ∈ ms, x.version = m.version
  metadata : ∀ k, Joined (ms.filterMap fun x => x.metadataValue k) (m.metadataValue k)
  shapes : ∀ id, JoinedShape id (ms.filterMap fun x => x.shape id) (m.shape id)

/-- Nothing stands in the way of putting the models together: the versions are `v`; for each metadata key, each id and each
trait of each id, what the models have can be joined; and no trait that is added to a shape already there is applied under the
id of a member. -/
structure Compatible (v : Version) (ms : List Model) : Prop where
  version : ∀ x ∈ ms, x.version = v
  metadata : ∀ k, ∃ o, Joined (ms.filterMap fun x => x.metadataValue k) o
  bodies : ∀ id, ∃ k, JoinedBody (ms.filterMap fun x => (x.shape id).map (·.body)) k
  traits : ∀ id t, ∃ o, JoinedTrait (ms.filterMap fun x => (x.shape id).bind fun s => s.traits.get t) o
  legal : ∀ id, ∀ s ∈ (ms.filterMap fun x => x.shape id).tail, LegalTraits s.traits

/-- Two values that are equal, or arrays with the same elements in another order. -/
inductive Reordered : Value → Value → Prop
  | refl {v : Value} : Reordered v v
  | equal {v w : Value} : VEq v w → Reordered v w
  | arrays {a b : List Value} : a.Perm b → Reordered (.array a) (.array b)

/-- Two models that agree but for the order of the elements of arrays in metadata and traits: the same version, the same
metadata keys, the same ids with definitions that agree, and the same traits. -/
structure SameButOrder (a b : Model) : Prop where
  version : a.version = b.version
  metadata : ∀ k, OptRel Reordered (a.metadataValue k) (b.metadataValue k)
  shapes : ∀ id, OptRel (fun x y : TopLevelShape => x.id = y.id ∧ SameDef x.body y.body ∧
    ∀ t, OptRel (OptRel Reordered) (x.traits.get t) (y.traits.get t)) (a.shape id) (b.shape id)

/-- Two models that nothing but the order of enumeration tells apart: the same version, the same metadata, the same ids with the
same definitions and the same traits. -/
structure Alike (a b : Model) : Prop where
  version : a.version = b.version
  metadata : ∀ k, a.metadataValue k = b.metadataValue k
  shapes : ∀ id, OptRel (fun x y : TopLevelShape => x.id = y.id ∧ x.body = y.body ∧ ∀ t, x.traits.get t = y.traits.get t)
    (a.shape id) (b.shape id)

/-- Two file trees that differ only in the order in which directories are listed. -/
inductive SameTree {C : Type} : Node C → Node C → Prop
  | refl {x} : SameTree x x
  | trans {x y z} : SameTree x y → SameTree y z → SameTree x z
  | order {es es' : List (Str × Node C)} : es.Perm es' → SameTree (.dir (some es)) (.dir (some es'))
  | inside {before after : List (Str × Node C)} {n : Str} {x y : Node C} : SameTree x y →
      SameTree (.dir (some (before ++ (n, x) :: after))) (.dir (some (before ++ (n, y) :: after)))

end Verif.Spec
