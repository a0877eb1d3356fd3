/-
The objects of services, operations and resources of the Smithy IDL: what is read is what the object says.
-/
import Verif.IdlLooseTraits
import Verif.IdlLayoutStatements

namespace Verif
open Peg Spec Spec.Idl

theorem names_of {v : Value} {n : ShapeName} (h : IdlParser.nameOf v = .ok n) : Names v n := by
  cases v with
  | string t => exact ⟨t, rfl, anyName_fromStr.mpr (ok_of_unwrap h)⟩
  | _ => cases h

theorem namesIn_of {vs : List Value} : ∀ {ns : List ShapeName}, IdlParser.namesIn vs = .ok ns → List.Forall₂ Names vs ns := by
  induction vs with
  | nil => intro ns h; cases h; exact .nil
  | cons v vs ih =>
    intro ns h
    unfold IdlParser.namesIn at h
    obtain ⟨n, h1, h2⟩ := ok_of_bind h
    obtain ⟨ns', h3, h4⟩ := ok_of_bind h2
    cases h4
    exact .cons (names_of h1) (ih h3)

theorem namesOf_of {place : Str} {v : Value} {ns : List ShapeName} (h : IdlParser.namesOf place v = .ok ns) : ∃ vs, v = .array vs ∧ List.Forall₂ Names vs ns := by
  cases v with
  | array vs => exact ⟨vs, rfl, namesIn_of h⟩
  | _ => cases h

theorem OneField.keep {k key : Str} {v : Value} {o : List (Str × Value)} {a b : Option ShapeName} (h : OneField o key a b) (hk : key ≠ k) : OneField ((k, v) :: o) key a b := by
  unfold OneField at h ⊢
  rwa [get_skip hk]

theorem ListField.keep {k key : Str} {v : Value} {o : List (Str × Value)} {a b : List ShapeName} (h : ListField o key a b) (hk : key ≠ k) : ListField ((k, v) :: o) key a b := by
  unfold ListField at h ⊢
  rwa [get_skip hk]

theorem OneField.put {k : Str} {v : Value} {o : List (Str × Value)} {a b : Option ShapeName} {n : ShapeName} (h : OneField o k (some n) b)
    (hk : AMap.get o k = none) (hv : IdlParser.nameOf v = .ok n) : OneField ((k, v) :: o) k a b := by
  rcases h with ⟨-, rfl⟩ | ⟨_, _, h, -⟩
  · exact .inr ⟨v, n, get_take, names_of hv, rfl⟩
  · rw [hk] at h; cases h

theorem ListField.put {k : Str} {v : Value} {o : List (Str × Value)} {a b ns : List ShapeName} (h : ListField o k (a ++ ns) b)
    (hk : AMap.get o k = none) {place : Str} (hv : IdlParser.namesOf place v = .ok ns) : ListField ((k, v) :: o) k a b := by
  rcases h with ⟨-, rfl⟩ | ⟨_, _, h, -⟩
  · obtain ⟨vs, rfl, hn⟩ := namesOf_of hv
    exact .inr ⟨vs, ns, get_take, hn, rfl⟩
  · rw [hk] at h; cases h

theorem OneField.says {o : AMap Str Value} {key : Str} {n : Option ShapeName} (h : OneField o key none n) : NamesOne (AMap.get o key) n := by
  rcases h with ⟨h, rfl⟩ | ⟨x, y, h1, h2, rfl⟩
  · exact .inl ⟨h, rfl⟩
  · exact .inr ⟨x, y, h1, rfl, h2⟩

theorem ListField.says {o : AMap Str Value} {key : Str} {n : List ShapeName} (h : ListField o key [] n) : NamesAll (AMap.get o key) n := by
  rcases h with ⟨h, rfl⟩ | ⟨x, y, h1, h2, rfl⟩
  · exact .inl ⟨h, rfl⟩
  · exact .inr ⟨x, h1, h2⟩

theorem only_put {keys : List Str} {k : Str} {v : Value} {o : List (Str × Value)} (h : Only keys o) (hk : k ∈ keys) : Only keys ((k, v) :: o) := by
  intro j x hj
  by_cases e : j = k
  · rw [e]; exact hk
  · rw [get_skip e] at hj
    exact h j x hj

theorem serviceLoop_says {o : List (Str × Value)} (hw : AMap.Wf o) : ∀ {a1 a2 b1 b2 : List ShapeName}, IdlParser.serviceLoop a1 a2 o = .ok (b1, b2) →
    Only [%s"version", %s"operations", %s"resources"] o ∧ ListField o %s"operations" a1 b1 ∧ ListField o %s"resources" a2 b2 := by
  induction o with
  | nil =>
    intro a1 a2 b1 b2 h
    cases h
    exact ⟨fun k v h => (by cases h), .inl ⟨rfl, rfl⟩, .inl ⟨rfl, rfl⟩⟩
  | cons e o ih =>
    intro a1 a2 b1 b2 h
    obtain ⟨k, v⟩ := e
    obtain ⟨hr, hw'⟩ := get_rest hw
    unfold IdlParser.serviceLoop at h
    split at h
    · next e =>
      subst e
      obtain ⟨h0, h1, h2⟩ := ih hw' h
      exact ⟨only_put h0 (by decide), h1.keep (by decide), h2.keep (by decide)⟩
    split at h
    · next e =>
      subst e
      obtain ⟨n, hn, h⟩ := ok_of_bind h
      obtain ⟨h0, h1, h2⟩ := ih hw' h
      exact ⟨only_put h0 (by decide), h1.put hr hn, h2.keep (by decide)⟩
    split at h
    · next e =>
      subst e
      obtain ⟨n, hn, h⟩ := ok_of_bind h
      obtain ⟨h0, h1, h2⟩ := ih hw' h
      exact ⟨only_put h0 (by decide), h1.keep (by decide), h2.put hr hn⟩
    · cases h

theorem operationLoop_says {o : List (Str × Value)} (hw : AMap.Wf o) : ∀ {a1 a2 : Option ShapeName} {a3 : List ShapeName} {b : BuilderBody},
    IdlParser.operationLoop a1 a2 a3 o = .ok b → ∃ b1 b2 b3, b = .operation b1 b2 b3 ∧ Only [%s"input", %s"output", %s"errors"] o ∧
      OneField o %s"input" a1 b1 ∧ OneField o %s"output" a2 b2 ∧ ListField o %s"errors" a3 b3 := by
  induction o with
  | nil =>
    intro a1 a2 a3 b h
    cases h
    exact ⟨_, _, _, rfl, fun k v h => (by cases h), .inl ⟨rfl, rfl⟩, .inl ⟨rfl, rfl⟩, .inl ⟨rfl, rfl⟩⟩
  | cons e o ih =>
    intro a1 a2 a3 b h
    obtain ⟨k, v⟩ := e
    obtain ⟨hr, hw'⟩ := get_rest hw
    unfold IdlParser.operationLoop at h
    split at h
    · next e =>
      subst e
      obtain ⟨n, hn, h⟩ := ok_of_bind h
      obtain ⟨b1, b2, b3, e, h0, h1, h2, h3⟩ := ih hw' h
      exact ⟨b1, b2, b3, e, only_put h0 (by decide), h1.put hr hn, h2.keep (by decide), h3.keep (by decide)⟩
    split at h
    · next e =>
      subst e
      obtain ⟨n, hn, h⟩ := ok_of_bind h
      obtain ⟨b1, b2, b3, e, h0, h1, h2, h3⟩ := ih hw' h
      exact ⟨b1, b2, b3, e, only_put h0 (by decide), h1.keep (by decide), h2.put hr hn, h3.keep (by decide)⟩
    split at h
    · next e =>
      subst e
      obtain ⟨n, hn, h⟩ := ok_of_bind h
      obtain ⟨b1, b2, b3, e, h0, h1, h2, h3⟩ := ih hw' h
      exact ⟨b1, b2, b3, e, only_put h0 (by decide), h1.keep (by decide), h2.keep (by decide), h3.put hr hn⟩
    · cases h

/-! ### Resources -/

theorem identifiersIn_of {o : List (Str × Value)} : ∀ {a b : AMap Str ShapeName}, IdlParser.identifiersIn a o = .ok b →
    ∃ l : List (Str × ShapeName), List.Forall₂ (fun e i => i.1 = e.1 ∧ IsIdentifier e.1 ∧ Names e.2 i.2) o l ∧ b = l.foldl (fun m e => AMap.insert m e.1 e.2) a := by
  induction o with
  | nil => intro a b h; cases h; exact ⟨[], .nil, rfl⟩
  | cons e o ih =>
    intro a b h
    obtain ⟨k, v⟩ := e
    unfold IdlParser.identifiersIn at h
    split at h
    · obtain ⟨k', h1, h⟩ := ok_of_bind h
      obtain ⟨n, h2, h⟩ := ok_of_bind h
      have h1 := ok_of_unwrap h1
      unfold Identifier.fromStr at h1
      split at h1
      · next hi =>
        cases h1
        obtain ⟨l, hl, rfl⟩ := ih h
        exact ⟨(k, n) :: l, .cons ⟨rfl, (isIdent_iff k).mp hi, _, rfl, anyName_fromStr.mpr (ok_of_unwrap h2)⟩ hl, rfl⟩
      · cases h1
    · cases h

theorem IdsField.keep {k : Str} {v : Value} {o : List (Str × Value)} {a b : AMap Str ShapeName} (h : IdsField o a b) (hk : %s"identifiers" ≠ k) : IdsField ((k, v) :: o) a b := by
  unfold IdsField at h ⊢
  rwa [get_skip hk]

/-- The field of the identifiers is read from the empty map. -/
theorem IdsField.put {v : Value} {o : List (Str × Value)} {b n : AMap Str ShapeName} (h : IdsField o n b)
    (hk : AMap.get o %s"identifiers" = none) (hv : IdlParser.identifiersOf [] v = .ok n) : IdsField ((%s"identifiers", v) :: o) [] b := by
  unfold IdsField at h ⊢
  rw [get_take]
  cases v with
  | object o' =>
    obtain ⟨l, hl, rfl⟩ := identifiersIn_of hv
    rcases h with ⟨-, rfl⟩ | ⟨e, h⟩
    · exact .inr ⟨rfl, .inr ⟨o', l, rfl, hl, rfl⟩⟩
    · rw [hk] at h
      rcases h with ⟨-, rfl⟩ | ⟨_, _, h, -⟩
      · exact .inr ⟨rfl, .inr ⟨o', l, rfl, hl, e.symm⟩⟩
      · cases h
  | _ => cases hv

theorem IdsField.says {o : AMap Str Value} {n : AMap Str ShapeName} (h : IdsField o [] n) : NamesBy (AMap.get o %s"identifiers") n := by
  rcases h with ⟨h, rfl⟩ | ⟨-, h⟩
  · exact .inl ⟨h, rfl⟩
  · exact h

/-- The keys of a resource. -/
def resourceKeys : List Str :=
  [%s"identifiers", %s"create", %s"put", %s"read", %s"update", %s"delete", %s"list", %s"operations", %s"collectionOperations", %s"resources"]

/-- What the entries make of the fields of a resource. -/
structure ResourceSays (o : List (Str × Value)) (a b : ResourceFields) : Prop where
  only : Only resourceKeys o
  ids : IdsField o a.identifiers b.identifiers
  create : OneField o %s"create" a.create b.create
  put : OneField o %s"put" a.put b.put
  read : OneField o %s"read" a.read b.read
  update : OneField o %s"update" a.update b.update
  delete : OneField o %s"delete" a.delete b.delete
  list : OneField o %s"list" a.list b.list
  ops : ListField o %s"operations" a.operations b.operations
  cops : ListField o %s"collectionOperations" a.collectionOperations b.collectionOperations
  res : ListField o %s"resources" a.resources b.resources

theorem resourceLoop_says {o : List (Str × Value)} (hw : AMap.Wf o) : ∀ {a b : ResourceFields}, (AMap.get o %s"identifiers" ≠ none → a.identifiers = []) →
    IdlParser.resourceLoop a o = .ok b → ResourceSays o a b := by
  induction o with
  | nil =>
    intro a b _ h
    cases h
    exact ⟨fun k v h => (by cases h), .inl ⟨rfl, rfl⟩, .inl ⟨rfl, rfl⟩, .inl ⟨rfl, rfl⟩, .inl ⟨rfl, rfl⟩, .inl ⟨rfl, rfl⟩, .inl ⟨rfl, rfl⟩, .inl ⟨rfl, rfl⟩,
      .inl ⟨rfl, rfl⟩, .inl ⟨rfl, rfl⟩, .inl ⟨rfl, rfl⟩⟩
  | cons e o ih =>
    intro a b ha h
    obtain ⟨k, v⟩ := e
    obtain ⟨hr, hw'⟩ := get_rest hw
    unfold IdlParser.resourceLoop at h
    by_cases e : k = %s"identifiers"
    · rw [if_pos e] at h
      subst e
      obtain ⟨n, hn, h⟩ := ok_of_bind h
      have ha' := ha (by rw [get_take]; simp)
      have hs := ih hw' (fun e => absurd hr e) h
      rw [ha'] at hn
      exact ⟨only_put hs.only (by decide), (by rw [ha']; exact hs.ids.put hr hn), hs.create.keep (by decide), hs.put.keep (by decide), hs.read.keep (by decide), hs.update.keep (by decide),
        hs.delete.keep (by decide), hs.list.keep (by decide), hs.ops.keep (by decide), hs.cops.keep (by decide), hs.res.keep (by decide)⟩
    rw [if_neg e] at h
    by_cases e : k = %s"create"
    · rw [if_pos e] at h
      subst e
      obtain ⟨n, hn, h⟩ := ok_of_bind h
      have hs := ih hw' (by intro e; exact ha (by rwa [get_skip (by decide)])) h
      exact ⟨only_put hs.only (by decide), hs.ids.keep (by decide), hs.create.put hr hn, hs.put.keep (by decide), hs.read.keep (by decide), hs.update.keep (by decide),
        hs.delete.keep (by decide), hs.list.keep (by decide), hs.ops.keep (by decide), hs.cops.keep (by decide), hs.res.keep (by decide)⟩
    rw [if_neg e] at h
    by_cases e : k = %s"put"
    · rw [if_pos e] at h
      subst e
      obtain ⟨n, hn, h⟩ := ok_of_bind h
      have hs := ih hw' (by intro e; exact ha (by rwa [get_skip (by decide)])) h
      exact ⟨only_put hs.only (by decide), hs.ids.keep (by decide), hs.create.keep (by decide), hs.put.put hr hn, hs.read.keep (by decide), hs.update.keep (by decide),
        hs.delete.keep (by decide), hs.list.keep (by decide), hs.ops.keep (by decide), hs.cops.keep (by decide), hs.res.keep (by decide)⟩
    rw [if_neg e] at h
    by_cases e : k = %s"read"
    · rw [if_pos e] at h
      subst e
      obtain ⟨n, hn, h⟩ := ok_of_bind h
      have hs := ih hw' (by intro e; exact ha (by rwa [get_skip (by decide)])) h
      exact ⟨only_put hs.only (by decide), hs.ids.keep (by decide), hs.create.keep (by decide), hs.put.keep (by decide), hs.read.put hr hn, hs.update.keep (by decide),
        hs.delete.keep (by decide), hs.list.keep (by decide), hs.ops.keep (by decide), hs.cops.keep (by decide), hs.res.keep (by decide)⟩
    rw [if_neg e] at h
    by_cases e : k = %s"update"
    · rw [if_pos e] at h
      subst e
      obtain ⟨n, hn, h⟩ := ok_of_bind h
      have hs := ih hw' (by intro e; exact ha (by rwa [get_skip (by decide)])) h
      exact ⟨only_put hs.only (by decide), hs.ids.keep (by decide), hs.create.keep (by decide), hs.put.keep (by decide), hs.read.keep (by decide), hs.update.put hr hn,
        hs.delete.keep (by decide), hs.list.keep (by decide), hs.ops.keep (by decide), hs.cops.keep (by decide), hs.res.keep (by decide)⟩
    rw [if_neg e] at h
    by_cases e : k = %s"delete"
    · rw [if_pos e] at h
      subst e
      obtain ⟨n, hn, h⟩ := ok_of_bind h
      have hs := ih hw' (by intro e; exact ha (by rwa [get_skip (by decide)])) h
      exact ⟨only_put hs.only (by decide), hs.ids.keep (by decide), hs.create.keep (by decide), hs.put.keep (by decide), hs.read.keep (by decide), hs.update.keep (by decide),
        hs.delete.put hr hn, hs.list.keep (by decide), hs.ops.keep (by decide), hs.cops.keep (by decide), hs.res.keep (by decide)⟩
    rw [if_neg e] at h
    by_cases e : k = %s"list"
    · rw [if_pos e] at h
      subst e
      obtain ⟨n, hn, h⟩ := ok_of_bind h
      have hs := ih hw' (by intro e; exact ha (by rwa [get_skip (by decide)])) h
      exact ⟨only_put hs.only (by decide), hs.ids.keep (by decide), hs.create.keep (by decide), hs.put.keep (by decide), hs.read.keep (by decide), hs.update.keep (by decide),
        hs.delete.keep (by decide), hs.list.put hr hn, hs.ops.keep (by decide), hs.cops.keep (by decide), hs.res.keep (by decide)⟩
    rw [if_neg e] at h
    by_cases e : k = %s"operations"
    · rw [if_pos e] at h
      subst e
      obtain ⟨n, hn, h⟩ := ok_of_bind h
      have hs := ih hw' (by intro e; exact ha (by rwa [get_skip (by decide)])) h
      exact ⟨only_put hs.only (by decide), hs.ids.keep (by decide), hs.create.keep (by decide), hs.put.keep (by decide), hs.read.keep (by decide), hs.update.keep (by decide),
        hs.delete.keep (by decide), hs.list.keep (by decide), hs.ops.put hr hn, hs.cops.keep (by decide), hs.res.keep (by decide)⟩
    rw [if_neg e] at h
    by_cases e : k = %s"collectionOperations"
    · rw [if_pos e] at h
      subst e
      obtain ⟨n, hn, h⟩ := ok_of_bind h
      have hs := ih hw' (by intro e; exact ha (by rwa [get_skip (by decide)])) h
      exact ⟨only_put hs.only (by decide), hs.ids.keep (by decide), hs.create.keep (by decide), hs.put.keep (by decide), hs.read.keep (by decide), hs.update.keep (by decide),
        hs.delete.keep (by decide), hs.list.keep (by decide), hs.ops.keep (by decide), hs.cops.put hr hn, hs.res.keep (by decide)⟩
    rw [if_neg e] at h
    by_cases e : k = %s"resources"
    · rw [if_pos e] at h
      subst e
      obtain ⟨n, hn, h⟩ := ok_of_bind h
      have hs := ih hw' (by intro e; exact ha (by rwa [get_skip (by decide)])) h
      exact ⟨only_put hs.only (by decide), hs.ids.keep (by decide), hs.create.keep (by decide), hs.put.keep (by decide), hs.read.keep (by decide), hs.update.keep (by decide),
        hs.delete.keep (by decide), hs.list.keep (by decide), hs.ops.keep (by decide), hs.cops.keep (by decide), hs.res.put hr hn⟩
    rw [if_neg e] at h
    cases h

end Verif
