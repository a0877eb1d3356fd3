/-
Lemmas: what the GraphML writer writes, item by item.
-/
import Verif.XmlLemmas
import Verif.JsonProps

namespace Verif
open Spec
namespace GraphML
set_option linter.unusedSimpArgs false

/-! ### The text, item by item -/

/-- A node (id, type, version), or an edge (source, target, key and value of its data). -/
inductive Item where
  | node (id type : Str) (version : Option Str)
  | edge (e : Str × Str × Str × Str)

/-- The number of edges. -/
def edges : List Item → Nat
  | [] => 0
  | .node .. :: l => edges l
  | .edge _ :: l => edges l + 1

def nodeLines (id type : Str) (version : Option Str) : Str :=
  %s"        <node id=\"" ++ id ++ %s"\">\n" ++ %s"            <data key=\"type\">" ++ type ++ %s"</data>\n" ++
  (match version with | none => [] | some v => %s"            <data key=\"version\">" ++ v ++ %s"</data>\n") ++ %s"        </node>\n"

def edgeLines (n : Nat) (e : Str × Str × Str × Str) : Str :=
  %s"        <edge id=\"" ++ (%s"e" ++ showNat (n % 65536)) ++ %s"\" source=\"" ++ e.1 ++ %s"\" target=\"" ++ e.2.1 ++ %s"\">\n" ++
  %s"            <data key=\"" ++ e.2.2.1 ++ %s"\">" ++ e.2.2.2 ++ %s"</data>\n" ++ %s"        </edge>\n"

/-- The lines written for the items, from the `n`-th edge on. -/
def texts : Nat → List Item → Str
  | _, [] => []
  | n, .node id type v :: l => nodeLines id type v ++ texts n l
  | n, .edge e :: l => edgeLines n e ++ texts (n + 1) l

theorem edges_append (a b : List Item) : edges (a ++ b) = edges a + edges b := by
  induction a with
  | nil => simp [edges]
  | cons x a ih => cases x <;> (simp only [List.cons_append, edges, ih]; try omega)

theorem texts_append (a b : List Item) (n : Nat) : texts n (a ++ b) = texts n a ++ texts (n + edges a) b := by
  induction a generalizing n with
  | nil => simp [texts, edges]
  | cons x a ih =>
    cases x with
    | node => simp [texts, edges, ih]
    | edge => simp only [List.cons_append, texts, edges, ih, List.append_assoc]; rw [show n + 1 + edges a = n + (edges a + 1) by omega]

/-- The step writes these items, or panics if there are too many edges. -/
def Does (checked : Bool) (step : Step State Err) (items : List Item) : Prop :=
  ∀ n out, (checked = true → n ≤ 65535) →
    (¬ (checked = true ∧ 65535 < n + edges items) →
      step ⟨UInt16.ofNat n, out⟩ = (⟨UInt16.ofNat (n + edges items), out ++ texts n items⟩, .ok ())) ∧
    (checked = true ∧ 65535 < n + edges items → ∃ st, step ⟨UInt16.ofNat n, out⟩ = (st, .error .panic))

variable {checked : Bool}

theorem Does.andThen {a b : Step State Err} {x y : List Item} (ha : Does checked a x) (hb : Does checked b y) :
    Does checked (a.andThen b) (x ++ y) := by
  intro n out hn
  obtain ⟨h1, h2⟩ := ha n out hn
  rw [edges_append, texts_append]
  by_cases hx : checked = true ∧ 65535 < n + edges x
  · refine ⟨fun h => absurd ⟨hx.1, Nat.lt_of_lt_of_le hx.2 (by omega)⟩ h, fun _ => ?_⟩
    obtain ⟨st, h3⟩ := h2 hx
    exact ⟨st, by simp only [Step.andThen, h3]⟩
  · have h3 := h1 hx
    obtain ⟨h4, h5⟩ := hb (n + edges x) (out ++ texts n x) (fun hc => by
      exact Nat.le_of_not_lt fun h => hx ⟨hc, h⟩)
    constructor
    · intro h
      simp only [Step.andThen, h3]
      rw [h4 (by rw [Nat.add_assoc]; exact h)]
      simp [Nat.add_assoc]
    · intro h
      obtain ⟨st, h6⟩ := h5 (by rw [Nat.add_assoc]; exact h)
      exact ⟨st, by simp only [Step.andThen, h3, h6]⟩

theorem andThen_assoc {σ ε : Type} (a b c : Step σ ε) : (a.andThen b).andThen c = a.andThen (b.andThen c) := by
  funext s
  simp only [Step.andThen]
  rcases a s with ⟨s', _ | ⟨⟩⟩ <;> rfl

theorem does_skip : Does checked (fun s => (s, .ok ())) [] := by
  intro n out hn
  exact ⟨fun _ => by simp [texts, edges], fun h => absurd (hn h.1) (by have := h.2; simp [edges] at this; omega)⟩

theorem does_forEach {α : Type} {f : α → Step State Err} {g : α → List Item} (h : ∀ x, Does checked (f x) (g x)) :
    ∀ l : List α, Does checked (Step.forEach f l) (l.flatMap g)
  | [] => does_skip
  | x :: l => by
    have := (h x).andThen (does_forEach h l)
    rw [List.flatMap_cons]
    have he : Step.forEach f (x :: l) = (f x).andThen (Step.forEach f l) := by
      funext s; simp only [Step.forEach, Step.andThen]
    rw [he]; exact this

theorem does_ifSome {α : Type} {f : α → Step State Err} {g : α → List Item} (h : ∀ x, Does checked (f x) (g x)) :
    ∀ o : Option α, Does checked (Step.ifSome f o) (o.toList.flatMap g)
  | none => does_skip
  | some x => by
    have : (some x).toList.flatMap g = g x := by simp
    rw [this]; exact h x

theorem does_node (id : ShapeID) (type : Str) : Does checked (node id type) [.node id.display type none] := by
  intro n out hn
  refine ⟨fun _ => ?_, fun h => absurd (hn h.1) (by have := h.2; simp [edges] at this; omega)⟩
  simp [node, Step.andThen, line, texts, nodeLines, edges]

theorem edge_step (f : Str → Step State Err) (e : Str × Str × Str × Str)
    (hf : ∀ i st, f i st = (⟨st.edgeCount, st.out ++ (%s"        <edge id=\"" ++ i ++ %s"\" source=\"" ++ e.1 ++ %s"\" target=\"" ++ e.2.1 ++ %s"\">\n" ++
      %s"            <data key=\"" ++ e.2.2.1 ++ %s"\">" ++ e.2.2.2 ++ %s"</data>\n" ++ %s"        </edge>\n")⟩, .ok ())) :
    Does checked (edgeId checked f) [.edge e] := by
  intro n out hn
  have hb : (UInt16.ofNat n == 65535) = decide (n % 65536 = 65535) := by
    rw [Bool.eq_iff_iff, beq_iff_eq, decide_eq_true_iff, ← UInt16.toNat_inj, UInt16.toNat_ofNat']
    exact Iff.rfl
  have ht : (UInt16.ofNat n).toNat = n % 65536 := UInt16.toNat_ofNat'
  have ha : UInt16.ofNat (n + 1) = UInt16.ofNat n + 1 := by rw [UInt16.ofNat_add]; rfl
  constructor
  · intro h
    have hc : (checked && UInt16.ofNat n == 65535) = false := by
      rw [hb]
      cases checked with
      | false => rfl
      | true =>
        have := hn rfl
        have h2 := fun h2 => h ⟨rfl, h2⟩
        simp [edges] at h2 ⊢
        omega
    simp only [edgeId, hc, Bool.false_eq_true, if_false, hf, ht, edges, ha, texts, edgeLines, List.append_nil, Nat.zero_add]
  · rintro ⟨rfl, h⟩
    have h2 := hn rfl
    simp only [edges] at h
    have hc : n = 65535 := by omega
    refine ⟨_, by simp only [edgeId, hc]; rfl⟩

theorem does_member (source target : ShapeID) (name : Str) :
    Does checked (member checked source target name) [.edge (source.display, target.display, %s"member", name)] := by
  refine edge_step _ _ fun i st => ?_
  simp [Step.andThen, line]

theorem does_trait (source target : ShapeID) :
    Does checked (oneTrait checked source target) [.edge (source.display, target.display, %s"trait", %s"true")] := by
  refine edge_step _ _ fun i st => ?_
  simp [Step.andThen, line]

theorem does_traits (id : ShapeID) (ts : Traits) :
    Does checked (traits checked id ts) (ts.map fun e => .edge (id.display, e.1.display, %s"trait", %s"true")) := by
  have := does_forEach (fun x => does_trait (checked := checked) id x) (AMap.keys ts)
  have he : (AMap.keys ts).flatMap (fun x => [Item.edge (id.display, x.display, %s"trait", %s"true")]) =
      ts.map fun e => Item.edge (id.display, e.1.display, %s"trait", %s"true") := by
    rw [List.map_eq_flatMap]
    unfold AMap.keys
    rw [List.flatMap_map]
  rw [he] at this; exact this

theorem does_targets (id : ShapeID) (name : Str) (l : List ShapeID) :
    Does checked (Step.forEach (fun t => member checked id t name) l) (l.map fun t => .edge (id.display, t.display, %s"member", name)) := by
  have := does_forEach (fun x => does_member (checked := checked) id x name) l
  rw [List.map_eq_flatMap]; exact this

theorem does_target (id : ShapeID) (name : Str) (o : Option ShapeID) :
    Does checked (Step.ifSome (fun t => member checked id t name) o) (o.toList.map fun t => .edge (id.display, t.display, %s"member", name)) := by
  have := does_ifSome (fun x => does_member (checked := checked) id x name) o
  rw [List.map_eq_flatMap]; exact this

theorem does_members (id : ShapeID) (ms : AMap Str MemberShape) :
    Does checked (Step.forEach (fun m => member checked id m.target m.id) (AMap.values ms))
      (ms.map fun e => .edge (id.display, e.2.target.display, %s"member", e.2.id)) := by
  have := does_forEach (fun x : MemberShape => does_member (checked := checked) id x.target x.id) (AMap.values ms)
  rw [List.map_eq_flatMap]
  unfold AMap.values at *
  rw [List.flatMap_map] at this
  exact this

/-- The members, by the ids the members themselves have. -/
def members : ShapeKind → List (Str × ShapeID)
  | .struct ms | .union ms => ms.map fun (e : Str × MemberShape) => (e.2.id, e.2.target)
  | b => Spec.GraphML.membersOf b

/-- What is written for a shape. -/
def itemsOf (s : TopLevelShape) : List Item :=
  if s.isUnresolved then [] else
    .node s.id.display (Spec.GraphML.typeOf s.body) (match s.body with | .service v => some v.version | _ => none) ::
    (s.traits.map (fun e => .edge (s.id.display, e.1.display, %s"trait", %s"true")) ++
    (members s.body).map fun e => .edge (s.id.display, e.2.display, %s"member", e.1))

theorem does_cast {step : Step State Err} {a b : List Item} (h : Does checked step a) (e : a = b) : Does checked step b := e ▸ h

theorem does_shape (s : TopLevelShape) : Does checked (Visitor.walkShape (visitor checked) s) (itemsOf s) := by
  obtain ⟨id, ts, body⟩ := s
  have hm : ∀ {f : MemberVisitor State Err → Step State Err} {a : Step State Err} {x : List Item}, Does checked a x →
      Does checked (a.andThen (Visitor.withMembers (visitor checked) f)) x := by
    intro f a x h
    exact does_cast (h.andThen does_skip) (List.append_nil x)
  cases body with
  | simple b => exact does_cast ((does_node _ _).andThen (does_traits _ _)) (by simp [itemsOf, members, Spec.GraphML.membersOf, Spec.GraphML.typeOf, TopLevelShape.isUnresolved, ShapeKind.isUnresolved, Function.comp_def])
  | list m => exact hm (does_cast ((does_node _ _).andThen ((does_traits _ _).andThen (does_member _ _ _))) (by simp [itemsOf, members, Spec.GraphML.membersOf, Spec.GraphML.typeOf, TopLevelShape.isUnresolved, ShapeKind.isUnresolved, Function.comp_def]))
  | set m => exact hm (does_cast ((does_node _ _).andThen ((does_traits _ _).andThen (does_member _ _ _))) (by simp [itemsOf, members, Spec.GraphML.membersOf, Spec.GraphML.typeOf, TopLevelShape.isUnresolved, ShapeKind.isUnresolved, Function.comp_def]))
  | map k v => exact hm (does_cast ((does_node _ _).andThen ((does_traits _ _).andThen ((does_member _ _ _).andThen (does_member _ _ _)))) (by simp [itemsOf, members, Spec.GraphML.membersOf, Spec.GraphML.typeOf, TopLevelShape.isUnresolved, ShapeKind.isUnresolved, Function.comp_def]))
  | struct ms => exact hm (does_cast ((does_node _ _).andThen ((does_traits _ _).andThen (does_members _ _))) (by simp [itemsOf, members, Spec.GraphML.membersOf, Spec.GraphML.typeOf, TopLevelShape.isUnresolved, ShapeKind.isUnresolved, Function.comp_def]))
  | union ms => exact hm (does_cast ((does_node _ _).andThen ((does_traits _ _).andThen (does_members _ _))) (by simp [itemsOf, members, Spec.GraphML.membersOf, Spec.GraphML.typeOf, TopLevelShape.isUnresolved, ShapeKind.isUnresolved, Function.comp_def]))
  | service b =>
    have h1 : Does checked ((line (%s"        <node id=\"" ++ id.display ++ %s"\">")).andThen <|
        (line %s"            <data key=\"type\">service</data>").andThen <|
        (line (%s"            <data key=\"version\">" ++ b.version ++ %s"</data>")).andThen
        (line %s"        </node>")) [.node id.display %s"service" (some b.version)] := by
      intro n out hn
      refine ⟨fun _ => ?_, fun h => absurd (hn h.1) (by have := h.2; simp [edges] at this; omega)⟩
      simp [Step.andThen, line, texts, nodeLines, edges]
    have h2 := h1.andThen ((does_traits id ts).andThen ((does_targets id %s"operations" b.operations).andThen (does_targets id %s"resources" b.resources)))
    simp only [andThen_assoc] at h2
    refine hm (does_cast h2 ?_)
    simp [itemsOf, members, Spec.GraphML.membersOf, Spec.GraphML.typeOf, TopLevelShape.isUnresolved, ShapeKind.isUnresolved, Function.comp_def]
  | operation o => exact hm (does_cast ((does_node _ _).andThen ((does_traits _ _).andThen ((does_target _ _ _).andThen ((does_target _ _ _).andThen (does_targets _ _ _))))) (by simp [itemsOf, members, Spec.GraphML.membersOf, Spec.GraphML.typeOf, TopLevelShape.isUnresolved, ShapeKind.isUnresolved, Function.comp_def]))
  | resource r => exact hm (does_cast ((does_node _ _).andThen ((does_traits _ _).andThen ((does_target _ _ _).andThen ((does_target _ _ _).andThen ((does_target _ _ _).andThen ((does_target _ _ _).andThen ((does_target _ _ _).andThen ((does_target _ _ _).andThen ((does_targets _ _ _).andThen ((does_targets _ _ _).andThen (does_targets _ _ _))))))))))) (by simp [itemsOf, members, Spec.GraphML.membersOf, Spec.GraphML.typeOf, TopLevelShape.isUnresolved, ShapeKind.isUnresolved, Function.comp_def]))
  | unresolved => exact does_skip

theorem does_model (m : Model) : Does checked (Visitor.walkModel m (visitor checked)) (m.shapesList.flatMap itemsOf) := by
  have h1 : Does checked (Step.forEach (fun (e : Str × Value) => (visitor checked).metadata e.1 e.2) m.metadata) [] := by
    refine does_cast (does_forEach (g := fun _ => []) (fun e => does_skip) m.metadata) ?_
    simp
  exact does_cast (h1.andThen (does_forEach does_shape m.shapesList)) rfl

end GraphML
end Verif
