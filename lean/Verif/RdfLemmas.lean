/-
Lemmas: what the insertions of the RDF writer amount to, for every graph they end up in.
-/
import Verif.RdfSpec
import Verif.UrnProps
import Verif.VisitorProps

namespace Verif
open Spec
namespace Rdf
open Emit

theorem smithy_eq (n : Str) : smithy n = smithyTerm n := rfl
theorem rdf_eq (n : Str) : rdf n = rdfTerm n := rfl

/-- The subject is a blank node with number in `[n, n')`. -/
def Inside (n n' : Nat) (s : Node) : Prop := ∃ k, s = .blank k ∧ n ≤ k ∧ k < n'

/-- The subject exists when the next blank node is `n`. -/
def Old (n : Nat) (s : Node) : Prop := ∀ k, s = .blank k → k < n

theorem Old.mono {n n' : Nat} {s : Node} (h : Old n s) (hn : n ≤ n') : Old n' s := fun k hk => Nat.lt_of_lt_of_le (h k hk) hn

theorem Old.not_inside {n n' : Nat} {s : Node} (h : Old n s) : ¬ Inside n n' s := by
  rintro ⟨k, rfl, h1, h2⟩
  have := h k rfl
  omega

theorem Inside.old {n n' : Nat} {s : Node} (h : Inside n n' s) : Old n' s := by
  obtain ⟨k, rfl, _, h2⟩ := h
  intro j hj; cases hj; exact h2

theorem old_iri (n : Nat) (i : Iri) : Old n (.iri i) := fun _ h => nomatch h

/-- The graph contains the statements, and no others about the blank nodes in `[n, n')`. -/
def Agrees (g : Graph) (l : List Statement) (n n' : Nat) : Prop :=
  (∀ st ∈ l, st ∈ g) ∧ ∀ st ∈ g, Inside n n' st.subj → st ∈ l

/-- From the next blank node `n` the insertions make the statements `ext` about nodes that existed before, the others are
about new blank nodes, and every graph that agrees has the property. -/
structure Writes (e : Emit) (n : Nat) (ext : List Statement) (P : Graph → Prop) : Prop where
  mono : n ≤ (e n).2
  outer : ∀ st ∈ ext, st ∈ (e n).1
  old : ∀ st ∈ ext, Old n st.subj
  rest : ∀ st ∈ (e n).1, st ∈ ext ∨ Inside n (e n).2 st.subj
  holds : ∀ g, Agrees g (e n).1 n (e n).2 → P g

theorem Writes.imp {e : Emit} {n : Nat} {ext : List Statement} {P Q : Graph → Prop} (h : Writes e n ext P) (hq : ∀ g, P g → Q g) :
    Writes e n ext Q := ⟨h.mono, h.outer, h.old, h.rest, fun g hg => hq g (h.holds g hg)⟩

theorem writes_skip (n : Nat) : Writes skip n [] (fun _ => True) :=
  ⟨Nat.le_refl _, by simp, by simp, by simp [skip], fun _ _ => trivial⟩

theorem writes_insert {n : Nat} {s : Node} {p : Iri} {o : Obj} (h : Old n s) :
    Writes (insert s p o) n [⟨s, p, o⟩] (fun _ => True) :=
  ⟨Nat.le_refl _, by simp [Emit.insert], by simpa using h, by simp [Emit.insert], fun _ _ => trivial⟩

theorem Writes.seq {a b : Emit} {n : Nat} {ea eb : List Statement} {P Q : Graph → Prop} (ha : Writes a n ea P)
    (hb : Writes b (a n).2 eb Q) (ho : ∀ st ∈ eb, Old n st.subj) : Writes (a ;; b) n (ea ++ eb) (fun g => P g ∧ Q g) := by
  have h1 := ha.mono
  have h2 := hb.mono
  have key : ∀ st ∈ (b (a n).2).1, ¬ Inside n (a n).2 st.subj := by
    intro st hst
    rcases hb.rest st hst with h | ⟨k, hk, h3, h4⟩
    · exact (ho st h).not_inside
    · rintro ⟨j, hj, h5, h6⟩
      rw [hk] at hj; cases hj; omega
  have key' : ∀ st ∈ (a n).1, ¬ Inside (a n).2 (b (a n).2).2 st.subj := by
    intro st hst
    rcases ha.rest st hst with h | h
    · exact ((ha.old st h).mono h1).not_inside
    · exact h.old.not_inside
  constructor
  · exact Nat.le_trans h1 h2
  · intro st hst
    rcases List.mem_append.mp hst with h | h
    · exact List.mem_append.mpr (.inl (ha.outer st h))
    · exact List.mem_append.mpr (.inr (hb.outer st h))
  · intro st hst
    rcases List.mem_append.mp hst with h | h
    · exact ha.old st h
    · exact ho st h
  · intro st hst
    rcases List.mem_append.mp hst with h | h
    · rcases ha.rest st h with h | ⟨k, hk, h3, h4⟩
      · exact .inl (List.mem_append.mpr (.inl h))
      · exact .inr ⟨k, hk, h3, Nat.lt_of_lt_of_le h4 h2⟩
    · rcases hb.rest st h with h | ⟨k, hk, h3, h4⟩
      · exact .inl (List.mem_append.mpr (.inr h))
      · exact .inr ⟨k, hk, Nat.le_trans h1 h3, h4⟩
  · intro g hg
    refine ⟨ha.holds g ⟨fun st h => hg.1 st (List.mem_append.mpr (.inl h)), fun st h hi => ?_⟩,
      hb.holds g ⟨fun st h => hg.1 st (List.mem_append.mpr (.inr h)), fun st h hi => ?_⟩⟩
    · obtain ⟨k, hk, h3, h4⟩ := hi
      rcases List.mem_append.mp (hg.2 st h ⟨k, hk, h3, Nat.lt_of_lt_of_le h4 h2⟩) with h | h
      · exact h
      · exact absurd ⟨k, hk, h3, h4⟩ (key st h)
    · obtain ⟨k, hk, h3, h4⟩ := hi
      rcases List.mem_append.mp (hg.2 st h ⟨k, hk, Nat.le_trans h1 h3, h4⟩) with h | h
      · exact absurd ⟨k, hk, h3, h4⟩ (key' st h)
      · exact h

/-- Statements about one node. -/
def at_ (s : Node) (l : List (Iri × Obj)) : List Statement := l.map fun e => ⟨s, e.1, e.2⟩

theorem mem_at {s : Node} {l : List (Iri × Obj)} {st : Statement} : st ∈ at_ s l ↔ st.subj = s ∧ (st.pred, st.obj) ∈ l := by
  unfold at_
  rw [List.mem_map]
  constructor
  · rintro ⟨e, he, rfl⟩; exact ⟨rfl, he⟩
  · rintro ⟨rfl, h⟩; exact ⟨_, h, rfl⟩

theorem at_append (s : Node) (l l' : List (Iri × Obj)) : at_ s (l ++ l') = at_ s l ++ at_ s l' := List.map_append

/-- A new blank node: `ext` says about existing nodes, `l` about the new one. -/
theorem Writes.fresh {f : Node → Emit} {n : Nat} {ext : List Statement} {l : List (Iri × Obj)} {P : Graph → Prop}
    (h : Writes (f (.blank n)) (n + 1) (ext ++ at_ (.blank n) l) P) (ho : ∀ st ∈ ext, Old n st.subj) :
    Writes (Emit.fresh f) n ext (fun g => P g ∧ About g (.blank n) l) := by
  have hm : n + 1 ≤ (f (.blank n) (n + 1)).2 := h.mono
  constructor
  · exact Nat.le_trans (Nat.le_succ n) hm
  · exact fun st hst => h.outer st (List.mem_append.mpr (.inl hst))
  · exact ho
  · intro st hst
    rcases h.rest st hst with h1 | ⟨k, hk, h3, h4⟩
    · rcases List.mem_append.mp h1 with h1 | h1
      · exact .inl h1
      · exact .inr ⟨n, (mem_at.mp h1).1, Nat.le_refl n, hm⟩
    · exact .inr ⟨k, hk, by omega, h4⟩
  · intro g hg
    refine ⟨h.holds g ⟨hg.1, fun st hst hi => ?_⟩, fun p o => ⟨fun hp => ?_, fun hp => ?_⟩⟩
    · obtain ⟨k, hk, h3, h4⟩ := hi
      exact hg.2 st hst ⟨k, hk, by omega, h4⟩
    · have h1 := hg.2 _ hp ⟨n, rfl, Nat.le_refl n, hm⟩
      rcases h.rest _ h1 with h2 | ⟨k, hk, h3, h4⟩
      · rcases List.mem_append.mp h2 with h2 | h2
        · exact absurd (ho _ h2 n rfl) (Nat.lt_irrefl n)
        · exact (mem_at.mp h2).2
      · cases hk; omega
    · exact hg.1 _ (h.outer _ (List.mem_append.mpr (.inr (mem_at.mpr ⟨rfl, hp⟩))))

theorem Writes.congr {e : Emit} {n : Nat} {ext ext' : List Statement} {P : Graph → Prop} (h : Writes e n ext P)
    (he : ∀ st, st ∈ ext' ↔ st ∈ ext) : Writes e n ext' P :=
  ⟨h.mono, fun st hst => h.outer st ((he st).mp hst), fun st hst => h.old st ((he st).mp hst),
    fun st hst => (h.rest st hst).imp (he st).mpr id, h.holds⟩

theorem old_at {n : Nat} {s : Node} (h : Old n s) (l : List (Iri × Obj)) : ∀ st ∈ at_ s l, Old n st.subj := by
  intro st hst; rw [(mem_at.mp hst).1]; exact h

theorem writes_at {n : Nat} {s : Node} {p : Iri} {o : Obj} (h : Old n s) : Writes (insert s p o) n (at_ s [(p, o)]) (fun _ => True) :=
  writes_insert h

/-- Inserting statements about the same node one after the other. -/
theorem Writes.seqAt {a b : Emit} {n : Nat} {s : Node} {l l' : List (Iri × Obj)} {P Q : Graph → Prop} (hs : Old n s)
    (ha : Writes a n (at_ s l) P) (hb : Writes b (a n).2 (at_ s l') Q) : Writes (a ;; b) n (at_ s (l ++ l')) (fun g => P g ∧ Q g) := by
  rw [at_append]
  exact ha.seq hb (old_at hs l')

theorem writes_new {f : Node → Emit} {n : Nat} {s : Node} {p : Iri} {l : List (Iri × Obj)} {P : Graph → Prop}
    (hs : Old n s) (h : Writes (f (.blank n)) (n + 1) (at_ (.blank n) l) P) :
    Writes (Emit.fresh fun b => insert s p (.node b) ;; f b) n (at_ s [(p, .node (.blank n))])
      (fun g => P g ∧ About g (.blank n) l) := by
  have hb : Old (n + 1) (.blank n) := by intro k hk; cases hk; exact Nat.lt_succ_self n
  refine (Writes.fresh (l := l) ?_ (old_at hs _))
  refine ((writes_at (hs.mono (Nat.le_succ n))).seq h (old_at hb l)).imp fun g hg => hg.2

theorem old_new (n : Nat) : Old (n + 1) (.blank n) := by intro k hk; cases hk; exact Nat.lt_succ_self n

mutual
  theorem writes_value (v : Value) {n : Nat} {s : Node} (p : Iri) (hs : Old n s) :
      ∃ o, Writes (fromValue s p v) n (at_ s [(p, o)]) (fun g => ValueAt g o v) ∧
        ∀ b, o = .node (.blank b) → n ≤ b ∧ b < (fromValue s p v n).2 := by
    cases v with
    | string v => exact ⟨_, by unfold fromValue; exact (writes_at hs).imp fun g _ => .string v, fun _ h => by cases h⟩
    | number x =>
      cases x with
      | integer v => exact ⟨_, by unfold fromValue; exact (writes_at hs).imp fun g _ => .integer v, fun _ h => by cases h⟩
      | float v => exact ⟨_, by unfold fromValue; exact (writes_at hs).imp fun g _ => .float v, fun _ h => by cases h⟩
    | boolean v => exact ⟨_, by unfold fromValue; exact (writes_at hs).imp fun g _ => .boolean v, fun _ h => by cases h⟩
    | none => exact ⟨_, by unfold fromValue; exact (writes_at hs).imp fun g _ => .null, fun _ h => by cases h⟩
    | array vs =>
      obtain ⟨os, h, -⟩ := writes_items vs (old_new n)
      refine ⟨.node (.blank n), ?_, fun b hb => ?_⟩
      swap
      · cases hb
        unfold fromValue
        exact ⟨Nat.le_refl _, h.mono⟩
      unfold fromValue
      refine (writes_new (f := fun b => insert b aType (named (rdf %s"List")) ;; fromItems b vs) hs
        (Writes.seqAt (old_new n) (writes_at (old_new n)) h)).imp ?_
      rintro g ⟨⟨-, h1⟩, h2⟩
      exact .array h1 h2
    | object es =>
      obtain ⟨os, h⟩ := writes_entries es (old_new n)
      refine ⟨.node (.blank n), ?_, fun b hb => ?_⟩
      swap
      · cases hb
        unfold fromValue
        exact ⟨Nat.le_refl _, h.mono⟩
      unfold fromValue
      refine (writes_new (f := fun b => insert b aType (named (rdf %s"Bag")) ;; fromEntries b es) hs
        (Writes.seqAt (old_new n) (writes_at (old_new n)) h)).imp ?_
      rintro g ⟨⟨-, h1⟩, h2⟩
      exact .object h1 h2
  theorem writes_items (vs : List Value) {n : Nat} {b : Node} (hb : Old n b) :
      ∃ os, Writes (fromItems b vs) n (at_ b (os.map (Prod.mk (rdf %s"li")))) (fun g => ValuesAt g os vs) ∧
        ∀ k, .node (.blank k) ∈ os → n ≤ k := by
    cases vs with
    | nil => exact ⟨[], by unfold fromItems; exact (writes_skip n).imp fun g _ => .nil, nofun⟩
    | cons v vs =>
      obtain ⟨o, h, ho⟩ := writes_value v (rdf %s"li") hb
      obtain ⟨os, h', hos⟩ := writes_items vs (hb.mono h.mono)
      refine ⟨o :: os, ?_, fun k hk => ?_⟩
      · unfold fromItems
        refine (Writes.seqAt hb h h').imp fun g hg => .cons hg.1 hg.2 ?_
        rintro k rfl hk
        have h1 := ho k rfl
        have h2 := hos k hk
        omega
      · rcases List.mem_cons.mp hk with hk | hk
        · exact (ho k hk.symm).1
        · exact Nat.le_trans h.mono (hos k hk)
  theorem writes_entries (es : List (Str × Value)) {n : Nat} {b : Node} (hb : Old n b) :
      ∃ os, Writes (fromEntries b es) n (at_ b (os.map (Prod.mk (rdf %s"li")))) (fun g => EntriesAt g os es) := by
    cases es with
    | nil => exact ⟨[], by unfold fromEntries; exact (writes_skip n).imp fun g _ => .nil⟩
    | cons e es =>
      obtain ⟨k, v⟩ := e
      obtain ⟨o, h, -⟩ := writes_value v (smithy %s"value") (old_new n)
      have h1 := writes_new (f := fun kv => insert kv (smithy %s"key") (text k) ;; fromValue kv (smithy %s"value") v)
        (p := rdf %s"li") hb (Writes.seqAt (old_new n) (writes_at (old_new n)) h)
      obtain ⟨os, h'⟩ := writes_entries es (hb.mono h1.mono)
      refine ⟨.node (.blank n) :: os, ?_⟩
      unfold fromEntries
      refine (Writes.seqAt hb h1 h').imp ?_
      rintro g ⟨⟨⟨-, h2⟩, h3⟩, h4⟩
      exact .cons h2 h3 h4
end

/-- A loop whose every turn inserts one statement about the node. -/
theorem writes_each {α : Type} {f : α → Emit} {s : Node} {p : Iri} {R : Graph → Obj → α → Prop} (l : List α)
    (h : ∀ x ∈ l, ∀ n, Old n s → ∃ o, Writes (f x) n (at_ s [(p, o)]) (fun g => R g o x)) {n : Nat} (hs : Old n s) :
    ∃ os : List Obj, Writes (each f l) n (at_ s (os.map (Prod.mk p))) (fun g => List.Forall₂ (R g) os l) := by
  induction l generalizing n with
  | nil => exact ⟨[], (writes_skip n).imp fun g _ => .nil⟩
  | cons x xs ih =>
    obtain ⟨o, ho⟩ := h x (by simp) n hs
    obtain ⟨os, hos⟩ := ih (fun y hy => h y (by simp [hy])) (hs.mono ho.mono)
    exact ⟨o :: os, (Writes.seqAt hs ho hos).imp fun g hg => .cons hg.1 hg.2⟩

theorem writes_trait (e : ShapeID × TraitValue) {n : Nat} {s : Node} (hs : Old n s) :
    ∃ o, Writes (fromTrait s e) n (at_ s [(smithy %s"apply", o)]) (fun g => TraitAt g o e) := by
  obtain ⟨id, v⟩ := e
  have : ∃ x : Option Obj, Writes (ifSome (fromValue (.blank n) (smithy %s"value")) v) (n + 1)
      (at_ (.blank n) (x.toList.map (Prod.mk (smithy %s"value")))) (fun g => OptRel (ValueAt g) x v) := by
    cases v with
    | none => exact ⟨none, (writes_skip _).imp fun g _ => .none⟩
    | some v =>
      obtain ⟨o, h, -⟩ := writes_value v (smithy %s"value") (old_new n)
      exact ⟨some o, h.imp fun g hg => .some hg⟩
  obtain ⟨x, h⟩ := this
  refine ⟨.node (.blank n), ?_⟩
  refine (writes_new (f := fun t => insert t (smithy %s"trait") (named (shapeToIri id)) ;;
    ifSome (fromValue t (smithy %s"value")) v) hs (Writes.seqAt (old_new n) (writes_at (old_new n)) h)).imp ?_
  rintro g ⟨⟨-, h1⟩, h2⟩
  exact ⟨n, x, rfl, h1, h2⟩

theorem writes_traits (ts : Traits) {n : Nat} {s : Node} (hs : Old n s) :
    ∃ os : List Obj, Writes (fromTraits s ts) n (at_ s (os.map (Prod.mk (smithy %s"apply"))))
      (fun g => List.Forall₂ (TraitAt g) os ts) := writes_each ts (fun x _ _ h => writes_trait x h) hs

theorem writes_member (m : MemberShape) {n : Nat} {s : Node} (hs : Old n s) :
    ∃ o, Writes (fromMember s m) n (at_ s [(smithy %s"member", o)]) (fun g => MemberAt g o m) := by
  obtain ⟨ts, h⟩ := writes_traits m.traits (old_new n)
  refine ⟨.node (.blank n), ?_⟩
  refine (writes_new (f := fun b => insert b (smithy %s"name") (text m.id) ;;
    insert b aType (named (shapeToIri m.target)) ;; fromTraits b m.traits) hs
    (Writes.seqAt (old_new n) (writes_at (old_new n)) (Writes.seqAt (old_new n) (writes_at (old_new n)) h))).imp ?_
  rintro g ⟨⟨-, -, h1⟩, h2⟩
  exact ⟨n, ts, rfl, h1, h2⟩

theorem writes_targets (p : Iri) (xs : List ShapeID) {n : Nat} {s : Node} (hs : Old n s) :
    Writes (targets s p xs) n (at_ s (xs.map fun x => (p, res (shapeToIri x)))) (fun _ => True) := by
  unfold targets
  induction xs generalizing n with
  | nil => exact writes_skip n
  | cons x xs ih => exact (Writes.seqAt hs (writes_at hs) (ih hs)).imp fun _ _ => trivial

theorem writes_identifier (i : Nat) (e : Str × ShapeID) {n : Nat} {bag : Node} (hs : Old n bag) :
    ∃ o, Writes (fromIdentifier bag (i, e)) n (at_ bag [(rdf (%s"_" ++ showNat (i + 1)), o)]) (fun g => IdentifierAt g o e) := by
  refine ⟨.node (.blank n), ?_⟩
  refine (writes_new (f := fun pair => insert pair (smithy %s"key") (text e.1) ;;
    insert pair (smithy %s"value") (named (shapeToIri e.2))) hs
    (Writes.seqAt (old_new n) (writes_at (old_new n)) (writes_at (old_new n)))).imp ?_
  rintro g ⟨-, h⟩
  exact ⟨n, rfl, h⟩

theorem writes_pairs (ids : List (Str × ShapeID)) (i : Nat) {n : Nat} {bag : Node} (hs : Old n bag) :
    ∃ ps : List Obj, Writes (each (fromIdentifier bag) ((List.range' i ids.length).zip ids)) n
      (at_ bag ((ps.zipIdx (i + 1)).map fun (p, i) => (rdfTerm ('_' :: (toString i).toList), p)))
      (fun g => List.Forall₂ (IdentifierAt g) ps ids) := by
  induction ids generalizing i n with
  | nil => exact ⟨[], (writes_skip n).imp fun g _ => .nil⟩
  | cons e es ih =>
    obtain ⟨o, ho⟩ := writes_identifier i e hs
    obtain ⟨ps, hps⟩ := ih (i + 1) (hs.mono ho.mono)
    refine ⟨o :: ps, ?_⟩
    exact (Writes.seqAt hs ho hps).imp fun g hg => .cons hg.1 hg.2

theorem writes_identifiers (ids : AMap Str ShapeID) {n : Nat} {s : Node} (hs : Old n s) :
    ∃ os : List Obj, Writes (fromIdentifiers s ids) n (at_ s (os.map (Prod.mk (smithy %s"identifiers"))))
      (fun g => IdentifiersAt g os ids) := by
  cases ids with
  | nil => exact ⟨[], (writes_skip n).imp fun g _ => .inl ⟨rfl, rfl⟩⟩
  | cons e es =>
    obtain ⟨ps, h⟩ := writes_pairs (e :: es) 0 (old_new n)
    rw [← List.range_eq_range'] at h
    refine ⟨[.node (.blank n)], ?_⟩
    refine (writes_new (f := fun bag => insert bag aType (named (rdf %s"Bag")) ;; each (fromIdentifier bag) (enumerate (e :: es)))
      hs (Writes.seqAt (old_new n) (writes_at (old_new n)) h)).imp ?_
    rintro g ⟨⟨-, h1⟩, h2⟩
    exact .inr ⟨by simp, n, ps, rfl, h1, h2⟩

end Rdf
end Verif
