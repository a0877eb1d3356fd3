/-
C78: what PlantUML tells: two models with the same text have the same pictures. The text is cut into lines, these into packages and drawings, and
these into headings, traits, members, notes and associations.
-/
import Verif.PlantUmlProps
import Verif.JsonSpec
import Verif.IdentityProps
import Verif.UrnProps
import Verif.Decimal
import Mathlib.Tactic.IntervalCases

namespace Verif.Spec.Uml

/-! ### What is drawn, as data -/

/-- How the value of a trait is shown: not at all, as a text, number or boolean, or only that it is an array or an object. -/
inductive Shown where
  | nothing
  | text (s : Str)
  | number (digits : Str)
  | boolean (b : Bool)
  | array
  | object

/-- How this value is shown. -/
def shown (f : Fmt) : TraitValue → Shown
  | none | some .none => .nothing
  | some (.string s) => .text s
  | some (.number n) => .number (showNumber f n)
  | some (.boolean b) => .boolean b
  | some (.array _) => .array
  | some (.object _) => .object

/-- The types of an operation, as they are named. -/
structure Signature where
  input : Option Str
  output : Option Str

/-- The types of this operation. -/
def signature (m : Model) (id : ShapeID) : Signature :=
  match (m.shape id).map TopLevelShape.body with
  | some (.operation o) => ⟨o.input.map (typeText m), o.output.map (typeText m)⟩
  | _ => ⟨none, none⟩

/-- What structures and unions are drawn as. -/
inductive Stereotype where
  | annotation | error | structure_ | union_

/-- What is drawn apart from the id and the traits of a shape. -/
inductive Figure where
  | dataType (documentation : Str) (type : Option Simple)
  | service (version : Str) (operations : List (ShapeID × Signature)) (notes : List Str) (resources : List ShapeID)
  | resource (identifiers : List (Str × ShapeID)) (lifecycle : List Signature) (operations collectionOperations : List (ShapeID × Signature))
      (notes : List Str) (resources : List ShapeID)
  | structured (as : Stereotype) (members : List (Str × ShapeID)) (notes : List Str)

/-- What is drawn for a shape. -/
structure Picture where
  id : ShapeID
  traits : List (ShapeID × Shown)
  figure : Figure

/-- What a structure or union is drawn as: an annotation if it has the trait `trait`, else an error if it has the trait `error`. -/
def stereotype (s : TopLevelShape) (otherwise : Stereotype) : Stereotype :=
  if (⟨%s"smithy.api", %s"trait", none⟩ : ShapeID) ∈ s.traits.map (·.1) then .annotation
  else if (⟨%s"smithy.api", %s"error", none⟩ : ShapeID) ∈ s.traits.map (·.1) then .error
  else otherwise

/-- What is drawn of the body of a shape, if anything is: of a simple shape its documentation and, when asked for, its type; of a service its version,
operations and resources; of a resource its identifiers, the types of the operations of its lifecycle, its operations and resources; of a structure or
union its members; of all but simple shapes the documentation as notes. -/
def figure (expand : Bool) (m : Model) (s : TopLevelShape) : Option Figure :=
  let operation (id : ShapeID) := (id, signature m id)
  let members (ms : AMap Str MemberShape) := ms.map fun (e : Str × MemberShape) => (e.1, e.2.target)
  match s.body with
  | .simple b => some (.dataType (joinWith %s"\n" (documentationOf s)) (if expand then some b else none))
  | .service b => some (.service b.version (b.operations.map operation) (documentationOf s) b.resources)
  | .resource b => some (.resource b.identifiers ((lifecycle b).map (signature m)) (b.operations.map operation)
      (b.collectionOperations.map operation) (documentationOf s) b.resources)
  | .struct ms => some (.structured (stereotype s .structure_) (members ms) (documentationOf s))
  | .union ms => some (.structured (stereotype s .union_) (members ms) (documentationOf s))
  | _ => none

/-- What is drawn for a shape, if anything is; the traits without `error` and `documentation`. -/
def picture (expand : Bool) (f : Fmt) (m : Model) (s : TopLevelShape) : Option Picture :=
  (figure expand m s).map fun fig =>
    ⟨s.id, (s.traits.filter fun e => !isError e.1 && !isDocumentation e.1).map fun e => (e.1, shown f e.2), fig⟩

/-- The pictures of all shapes, in their order. -/
def pictures (expand : Bool) (f : Fmt) (m : Model) : List Picture := m.shapes.filterMap fun e => picture expand f m e.2

/-! ### Conditions -/

/-- As in the standard library: numbers are digits, points and minus signs, `NaN` or `inf`; quoted texts begin with a quote, are one line, and different
ones are different. -/
structure PlainFormat (f : Fmt) : Prop where
  float : ∀ x, ∀ c ∈ f.float x, c ∈ %s"0123456789.-NaNinf"
  quoted : ∀ s, ∃ t, f.debug s = '"' :: t ∧ '\n' ∉ t
  differ : ∀ s s', f.debug s = f.debug s' → s = s'

/-- The texts that are written as they are have no line breaks: those of traits, versions of services, and the documentation of simple shapes. -/
def OneLineTexts (m : Model) : Prop :=
  ∀ id s, m.shape id = some s →
    (∀ e ∈ s.traits, isError e.1 = false → isDocumentation e.1 = false → ∀ x, e.2 = some (.string x) → '\n' ∉ x) ∧
    (∀ b, s.body = .simple b → '\n' ∉ joinWith %s"\n" (documentationOf s)) ∧ ∀ v, s.body = .service v → '\n' ∉ v.version

end Verif.Spec.Uml

namespace Verif
open Spec
namespace PlantUml
open Spec.Uml

/-! ### Cutting -/

theorem cutAt {c : Char} : ∀ {a b x y : Str}, c ∉ a → c ∉ b → a ++ c :: x = b ++ c :: y → a = b ∧ x = y
  | [], [], _, _, _, _, h => by simpa using h
  | [], d :: b, _, _, _, hb, h => by simp at h; exact absurd (h.1 ▸ List.mem_cons_self) hb
  | d :: a, [], _, _, ha, _, h => by simp at h; exact absurd (h.1 ▸ List.mem_cons_self) ha
  | d :: a, e :: b, _, _, ha, hb, h => by
    simp only [List.cons_append, List.cons.injEq] at h
    obtain ⟨h1, h2⟩ := cutAt (fun m => ha (List.mem_cons_of_mem _ m)) (fun m => hb (List.mem_cons_of_mem _ m)) h.2
    exact ⟨by rw [h.1, h1], h2⟩

theorem cutBefore {α : Type} {p : α → Bool} : ∀ {xs ys r r' : List α}, (∀ b ∈ xs, p b = false) → (∀ b ∈ ys, p b = false) →
    (∀ b, r.head? = some b → p b = true) → (∀ b, r'.head? = some b → p b = true) → xs ++ r = ys ++ r' → xs = ys ∧ r = r'
  | [], [], _, _, _, _, _, _, h => ⟨rfl, h⟩
  | x :: xs, [], r, r', hx, _, _, hr', h => by
    have := hr' x (by rw [List.nil_append] at h; rw [← h]; rfl)
    rw [hx x (List.mem_cons_self ..)] at this; cases this
  | [], y :: ys, r, r', _, hy, hr, _, h => by
    have := hr y (by rw [List.nil_append] at h; rw [h]; rfl)
    rw [hy y (List.mem_cons_self ..)] at this; cases this
  | x :: xs, y :: ys, r, r', hx, hy, hr, hr', h => by
    injection h with h1 h2
    obtain ⟨h3, h4⟩ := cutBefore (fun b hb => hx b (List.mem_cons_of_mem _ hb)) (fun b hb => hy b (List.mem_cons_of_mem _ hb)) hr hr' h2
    exact ⟨by rw [h1, h3], h4⟩

theorem map_differ {α β : Type} {g : α → β} {P : α → Prop} (hg : ∀ a b, P a → P b → g a = g b → a = b) :
    ∀ {l l' : List α}, (∀ a ∈ l, P a) → (∀ a ∈ l', P a) → l.map g = l'.map g → l = l'
  | [], [], _, _, _ => rfl
  | [], _ :: _, _, _, h => by cases h
  | _ :: _, [], _, _, h => by cases h
  | a :: l, b :: l', hl, hl', h => by
    simp only [List.map_cons, List.cons.injEq] at h
    rw [hg a b (hl a List.mem_cons_self) (hl' b List.mem_cons_self) h.1,
      map_differ hg (fun x hx => hl x (List.mem_cons_of_mem _ hx)) (fun x hx => hl' x (List.mem_cons_of_mem _ hx)) h.2]

/-- The text with these lines. -/
def unlines (ls : List Str) : Str := ls.flatMap fun l => l ++ ['\n']

theorem unlines_nil : unlines [] = [] := rfl
theorem unlines_cons (l : Str) (ls : List Str) : unlines (l :: ls) = l ++ '\n' :: unlines ls := by simp [unlines]
theorem unlines_append (a b : List Str) : unlines (a ++ b) = unlines a ++ unlines b := List.flatMap_append

theorem unlines_differ : ∀ {a b : List Str}, (∀ l ∈ a, '\n' ∉ l) → (∀ l ∈ b, '\n' ∉ l) → unlines a = unlines b → a = b
  | [], [], _, _, _ => rfl
  | [], l :: b, _, _, h => by rw [unlines_cons] at h; simp [unlines] at h
  | l :: a, [], _, _, h => by rw [unlines_cons] at h; simp [unlines] at h
  | l :: a, k :: b, ha, hb, h => by
    rw [unlines_cons, unlines_cons] at h
    obtain ⟨h1, h2⟩ := cutAt (ha l List.mem_cons_self) (hb k List.mem_cons_self) h
    rw [h1, unlines_differ (fun x hx => ha x (List.mem_cons_of_mem _ hx)) (fun x hx => hb x (List.mem_cons_of_mem _ hx)) h2]

theorem join_lines (t : Str) (ts : List Str) : joinWith ['\n'] (t :: ts) ++ ['\n'] = unlines (t :: ts) := by
  induction ts generalizing t with
  | nil => simp [joinWith, unlines]
  | cons u ts ih =>
    rw [unlines_cons, ← ih u]
    simp [joinWith]

theorem display_not {id : ShapeID} (h : id.Valid) {c : Char} (hc : (identChar c || c == '.' || c == '#' || c == '$') = false) : c ∉ id.display := by
  intro hm
  rcases display_chars h hm with h1 | rfl | rfl | rfl
  · rw [h1] at hc; cases hc
  · revert hc; decide
  · revert hc; decide
  · revert hc; decide

theorem display_hash (id : ShapeID) : '#' ∈ id.display := by
  obtain ⟨ns, n, _ | m⟩ := id <;> simp [ShapeID.display]

/-! ### The lines of a picture -/

def shownText : Shown → Str
  | .nothing => []
  | .text s => %s" = \"" ++ s ++ %s"\""
  | .number t => %s" = " ++ t
  | .boolean true => %s" = true"
  | .boolean false => %s" = false"
  | .array => %s" = [ .. ]"
  | .object => %s" = { .. }"

def traitText (e : ShapeID × Shown) : Str := %s"    @" ++ e.1.display ++ shownText e.2

def traitLines : List (ShapeID × Shown) → List Str
  | [] => []
  | e :: l => (%s"    " ++ traitText e) :: (l.map traitText ++ [%s"        .."])

def opText (name : Str) (s : Signature) : Str :=
  %s"        " ++ name ++ %s"(in: " ++ s.input.toList.flatten ++ %s")" ++ s.output.toList.flatMap fun t => %s": " ++ t

def nameText (e : Str × ShapeID) : Str := %s"        " ++ e.1 ++ %s": " ++ e.2.display

def opSection (h : Str) : List (ShapeID × Signature) → List Str
  | [] => []
  | o :: os => h :: (o :: os).map fun e => opText e.1.display e.2

def inner : Figure → List Str
  | .dataType _ _ => []
  | .service v os _ _ => (%s"        version: string = \"" ++ v ++ %s"\"") :: os.map fun e => opText e.1.display e.2
  | .resource ids life os cs _ _ => ids.map nameText ++ (life.map (opText %s"create") ++
      (opSection %s"        ..operations.." os ++ opSection %s"        ..collectionOperations.." cs))
  | .structured _ ms _ => ms.map nameText

def noteName (id : ShapeID) (n : Nat) : Str := id.display ++ %s"_note_" ++ showNat n

def noteLines (f : Fmt) (id : ShapeID) (n : Nat) : List Str → List Str
  | [] => []
  | d :: ds => (if '\n' ∈ d then [%s"    note as " ++ noteName id n, f.debug d, %s"    end note"]
      else [%s"    note " ++ f.debug d ++ %s" as " ++ noteName id n]) ++ (%s"    " ++ id.display ++ %s" .. " ++ noteName id n) :: noteLines f id (n + 1) ds

def linkText (id r : ShapeID) : Str := %s"    " ++ id.display ++ %s" *-- " ++ r.display

def outer (f : Fmt) (id : ShapeID) : Figure → List Str
  | .dataType d t => (%s"    " ++ d) :: t.toList.map fun t => %s"    smithy.api." ++ t.display ++ %s" <|-- " ++ id.display
  | .service _ _ ns rs => noteLines f id 0 ns ++ rs.map (linkText id)
  | .resource _ _ _ _ ns rs => noteLines f id 0 ns ++ rs.map (linkText id)
  | .structured _ _ ns => noteLines f id 0 ns ++ ([] : List ShapeID).map (linkText id)

/-- The word before the id, and the text after it. -/
def around : Figure → Str × Str
  | .dataType _ _ => (%s"class", %s"<<dataType>> {")
  | .service _ _ _ _ => (%s"class", %s"<<service>> {")
  | .resource _ _ _ _ _ _ => (%s"class", %s"<<resource>> {")
  | .structured .annotation _ _ => (%s"annotation", %s"{")
  | .structured .error _ _ => (%s"class", %s"<<error>> {")
  | .structured .structure_ _ _ => (%s"class", %s"{")
  | .structured .union_ _ _ => (%s"class", %s"<<union>> {")

def top (id : ShapeID) (w : Str × Str) : Str := %s"    " ++ w.1 ++ ' ' :: (id.display ++ ' ' :: w.2)

def pictureLines (f : Fmt) (p : Picture) : List Str :=
  top p.id (around p.figure) :: (traitLines p.traits ++ (inner p.figure ++ %s"    }" :: outer f p.id p.figure))

/-! ### The text of a shape has the lines of its picture -/

theorem traits_lines (f : Fmt) (s : TopLevelShape) : traitsText f s =
    unlines (traitLines ((s.traits.filter fun e => !isError e.1 && !isDocumentation e.1).map fun e => (e.1, shown f e.2))) := by
  have ht : ∀ e : ShapeID × TraitValue, traitLine f e.1 e.2 = traitText (e.1, shown f e.2) := by
    rintro ⟨id, v⟩
    unfold traitLine traitText
    refine congrArg _ ?_
    cases v with
    | none => rfl
    | some v =>
      cases v with
      | boolean b => cases b <;> rfl
      | _ => rfl
  unfold traitsText
  simp only [ht]
  generalize s.traits.filter _ = l
  cases l with
  | nil => rfl
  | cons e l =>
    rw [if_neg (by simp)]
    simp only [List.map_cons, traitLines, unlines_cons, unlines_append, unlines_nil]
    have := join_lines (traitText (e.1, shown f e.2)) (l.map fun e => traitText (e.1, shown f e.2))
    rw [unlines_cons] at this
    have h2 : (%s"\n        ..\n" : Str) = ['\n'] ++ %s"        ..\n" := rfl
    rw [h2, ← List.append_assoc, List.append_assoc (%s"    "), this]
    simp [List.map_map, Function.comp_def]

theorem notes_lines (f : Fmt) (s : TopLevelShape) (n : Nat) (ds : List Str) :
    ((ds.zipIdx n).flatMap fun e => noteText f s e.1 e.2) = unlines (noteLines f s.id n ds) := by
  induction ds generalizing n with
  | nil => rfl
  | cons d ds ih =>
    rw [List.zipIdx_cons, List.flatMap_cons, ih]
    unfold noteText
    simp only [noteLines, unlines_append, unlines_cons]
    split <;> simp [unlines_cons, unlines_nil, noteName]

theorem ops_lines {m : Model} {name : Option Str} {ids : List ShapeID} {text : Str} (h : OperationLines m name ids text) :
    text = unlines (ids.map fun id => opText (name.getD id.display) (signature m id)) := by
  obtain ⟨ls, rfl, h⟩ := h
  induction h with
  | nil => rfl
  | @cons id l ids ls h _ ih =>
    obtain ⟨o, ⟨s, hs, hb⟩, rfl⟩ := h
    rw [List.flatten_cons, List.map_cons, unlines_cons, ← ih]
    have : signature m id = ⟨o.input.map (typeText m), o.output.map (typeText m)⟩ := by simp [signature, hs, hb]
    rw [this]
    unfold operationLine opText
    cases o.input <;> cases o.output <;> simp

theorem links_lines (s : TopLevelShape) (rs : List ShapeID) : associations s rs = unlines (rs.map (linkText s.id)) := by
  unfold associations
  induction rs with
  | nil => rfl
  | cons r rs ih => rw [List.flatMap_cons, ih, List.map_cons, unlines_cons]; simp [linkText]

theorem names_lines (l : List (Str × ShapeID)) : l.flatMap (fun (e : Str × ShapeID) => %s"        " ++ e.1 ++ %s": " ++ e.2.display ++ %s"\n") =
    unlines (l.map nameText) := by
  induction l with
  | nil => rfl
  | cons r rs ih => rw [List.flatMap_cons, ih, List.map_cons, unlines_cons]; simp [nameText]

theorem draws_lines {expand : Bool} {f : Fmt} {m : Model} {s : TopLevelShape} {text : Str} (h : Draws expand f m s text) :
    text = (picture expand f m s).elim [] fun p => unlines (pictureLines f p ++ [[]]) := by
  unfold Draws heading at h
  unfold picture figure
  have hn := notes_lines f s 0 (documentationOf s)
  cases hb : s.body with
  | simple b =>
    simp only [hb] at h
    rw [h, traits_lines]
    cases expand <;> simp [pictureLines, unlines_cons, unlines_append, unlines_nil, top, around, inner, outer]
  | service b =>
    simp only [hb] at h
    obtain ⟨ops, hops, rfl⟩ := h
    rw [traits_lines, ops_lines hops, links_lines, notesText, hn]
    simp [pictureLines, unlines_cons, unlines_append, unlines_nil, top, around, inner, outer, Function.comp_def]
  | resource b =>
    simp only [hb] at h
    obtain ⟨life, ops, cops, hlife, hops, hcops, rfl⟩ := h
    have sec : ∀ (hd : Str) (l : List ShapeID), (if l = [] then [] else hd ++ %s"\n") ++ unlines (l.map fun id => opText id.display (signature m id)) =
        unlines (opSection hd (l.map fun id => (id, signature m id))) := by
      intro hd l
      cases l with
      | nil => rfl
      | cons x l => simp [opSection, unlines_cons, Function.comp_def]
    have e1 := sec %s"        ..operations.." b.operations
    have e2 := sec %s"        ..collectionOperations.." b.collectionOperations
    rw [traits_lines, ops_lines hops, ops_lines hcops, ops_lines hlife, links_lines, notesText, hn, names_lines]
    simp only [Option.map_some, Option.elim_some, pictureLines, inner, unlines_cons, unlines_append, unlines_nil, ← e1, ← e2, outer, top, around]
    simp [Function.comp_def]
  | struct ms =>
    simp only [hb] at h
    have hms : ms.flatMap (fun (e : Str × MemberShape) => %s"        " ++ e.1 ++ %s": " ++ e.2.target.display ++ %s"\n") =
        unlines ((ms.map fun e => (e.1, e.2.target)).map nameText) := by rw [← names_lines, List.flatMap_map]
    rw [h, traits_lines, notesText, hn, hms]
    unfold stereotype
    simp only [Option.map_some, Option.elim_some, pictureLines, inner, unlines_cons, unlines_append, unlines_nil, outer, top]
    split
    · simp [around, unlines_nil]
    · split <;> simp [around, unlines_nil]
  | union ms =>
    simp only [hb] at h
    have hms : ms.flatMap (fun (e : Str × MemberShape) => %s"        " ++ e.1 ++ %s": " ++ e.2.target.display ++ %s"\n") =
        unlines ((ms.map fun e => (e.1, e.2.target)).map nameText) := by rw [← names_lines, List.flatMap_map]
    rw [h, traits_lines, notesText, hn, hms]
    unfold stereotype
    simp only [Option.map_some, Option.elim_some, pictureLines, inner, unlines_cons, unlines_append, unlines_nil, outer, top]
    split
    · simp [around, unlines_nil]
    · split <;> simp [around, unlines_nil]
  | _ => simp only [hb] at h; exact h

/-! ### Pictures that can be read back -/

/-- A text whose lines are as intended. -/
def OkTrait (e : ShapeID × Shown) : Prop :=
  e.1.Valid ∧ match e.2 with
    | .text s => '\n' ∉ s
    | .number t => '\n' ∉ t ∧ (∀ c, t.head? = some c → c ≠ '"' ∧ c ≠ '[' ∧ c ≠ '{') ∧ t ≠ %s"true" ∧ t ≠ %s"false"
    | _ => True

/-- A type is named, in one line and without parentheses. -/
def OkType (t : Option Str) : Prop := ∀ x, t = some x → x ≠ [] ∧ '\n' ∉ x ∧ ')' ∉ x

def OkSig (s : Signature) : Prop := OkType s.input ∧ OkType s.output

def OkOp (e : ShapeID × Signature) : Prop := e.1.Valid ∧ OkSig e.2

def OkName (e : Str × ShapeID) : Prop := IsIdentifier e.1 ∧ e.2.Valid

def OkFigure : Figure → Prop
  | .dataType d _ => '\n' ∉ d
  | .service v os _ rs => '\n' ∉ v ∧ (∀ o ∈ os, OkOp o) ∧ ∀ r ∈ rs, r.Valid
  | .resource ids life os cs _ rs => (∀ e ∈ ids, OkName e) ∧ (∀ s ∈ life, OkSig s) ∧ (∀ o ∈ os, OkOp o) ∧ (∀ o ∈ cs, OkOp o) ∧ ∀ r ∈ rs, r.Valid
  | .structured _ ms _ => ∀ e ∈ ms, OkName e

def OkPicture (p : Picture) : Prop := p.id.Valid ∧ (∀ e ∈ p.traits, OkTrait e) ∧ OkFigure p.figure

/-! ### Lines tell what they show -/

theorem shownText_differ {a b : Shown} {i j : ShapeID} (ha : OkTrait (i, a)) (hb : OkTrait (j, b)) (h : shownText a = shownText b) : a = b := by
  have num : ∀ {t x : Str} {k : ShapeID}, OkTrait (k, .number t) → t ≠ '"' :: x ∧ t ≠ '[' :: x ∧ t ≠ '{' :: x ∧ t ≠ %s"true" ∧ t ≠ %s"false" := by
    intro t x k hk
    obtain ⟨-, -, h1, h2, h3⟩ := hk
    exact ⟨fun e => (h1 _ (by rw [e]; rfl)).1 rfl, fun e => (h1 _ (by rw [e]; rfl)).2.1 rfl, fun e => (h1 _ (by rw [e]; rfl)).2.2 rfl, h2, h3⟩
  rcases a with _ | s | t | (_ | _) | _ | _ <;> rcases b with _ | s' | t' | (_ | _) | _ | _ <;> simp [shownText] at h ⊢ <;>
    first
    | exact h
    | exact absurd h (num ha).1
    | exact absurd h (num ha).2.1
    | exact absurd h (num ha).2.2.1
    | exact absurd h (num (x := []) ha).2.2.2.1
    | exact absurd h (num (x := []) ha).2.2.2.2
    | exact absurd h.symm (num hb).1
    | exact absurd h.symm (num hb).2.1
    | exact absurd h.symm (num hb).2.2.1
    | exact absurd h.symm (num (x := []) hb).2.2.2.1
    | exact absurd h.symm (num (x := []) hb).2.2.2.2

theorem shownText_start (a : Shown) : shownText a = [] ∨ ∃ x, shownText a = ' ' :: x := by
  rcases a with _ | s | t | (_ | _) | _ | _
  · exact .inl rfl
  all_goals exact .inr ⟨_, rfl⟩

theorem traitText_differ (a b : ShapeID × Shown) (ha : OkTrait a) (hb : OkTrait b) (h : traitText a = traitText b) : a = b := by
  obtain ⟨i, a⟩ := a
  obtain ⟨j, b⟩ := b
  have hi := display_not ha.1 (c := ' ') (by decide)
  have hj := display_not hb.1 (c := ' ') (by decide)
  simp only [traitText, List.append_assoc] at h
  have h := List.append_cancel_left h
  have key : i.display = j.display ∧ shownText a = shownText b := by
    rcases shownText_start a with ea | ⟨x, ea⟩ <;> rcases shownText_start b with eb | ⟨y, eb⟩ <;> rw [ea, eb] at h ⊢
    · exact ⟨by simpa using h, rfl⟩
    · exact absurd (by rw [List.append_nil] at h; rw [h]; simp) hi
    · exact absurd (by rw [List.append_nil] at h; rw [← h]; simp) hj
    · obtain ⟨h1, h2⟩ := cutAt hi hj h
      exact ⟨h1, by rw [h2]⟩
  rw [C03_display_injective i j ha.1 hb.1 key.1, shownText_differ ha hb key.2]

theorem opText_differ {name name' : Str} {s s' : Signature} (hn : '(' ∉ name) (hn' : '(' ∉ name') (hs : OkSig s) (hs' : OkSig s')
    (h : opText name s = opText name' s') : name = name' ∧ s = s' := by
  simp only [opText, List.append_assoc] at h
  have h := List.append_cancel_left h
  obtain ⟨h1, h2⟩ := cutAt (x := _ ++ _) hn hn' h
  have h3 := List.append_cancel_left (as := %s"in: ") h2
  have hp : ∀ {t : Option Str}, OkType t → ')' ∉ t.toList.flatten := by
    intro t ht
    cases t with
    | none => simp
    | some x => simpa using (ht x rfl).2.2
  obtain ⟨h4, h5⟩ := cutAt (hp hs.1) (hp hs'.1) h3
  refine ⟨h1, ?_⟩
  obtain ⟨i, o⟩ := s
  obtain ⟨i', o'⟩ := s'
  have hi : i = i' := by
    cases i <;> cases i' <;> simp at h4 ⊢
    · exact absurd h4 (hs'.1 _ rfl).1
    · exact absurd h4 (hs.1 _ rfl).1
    · exact h4
  have ho : o = o' := by
    cases o <;> cases o' <;> simp at h5 ⊢
    exact h5
  rw [hi, ho]

theorem op_differ (a b : ShapeID × Signature) (ha : OkOp a) (hb : OkOp b) (h : opText a.1.display a.2 = opText b.1.display b.2) : a = b := by
  obtain ⟨h1, h2⟩ := opText_differ (display_not ha.1 (by decide)) (display_not hb.1 (by decide)) ha.2 hb.2 h
  exact Prod.ext (C03_display_injective _ _ ha.1 hb.1 h1) h2

theorem nameText_differ (a b : Str × ShapeID) (ha : OkName a) (hb : OkName b) (h : nameText a = nameText b) : a = b := by
  simp only [nameText, List.append_assoc] at h
  have h := List.append_cancel_left h
  obtain ⟨h1, h2⟩ := cutAt (identifier_not_mem ha.1 (by decide)) (identifier_not_mem hb.1 (by decide)) h
  have h3 := List.append_cancel_left (as := %s" ") h2
  exact Prod.ext h1 (C03_display_injective _ _ ha.2 hb.2 h3)

theorem linkText_differ (id : ShapeID) (a b : ShapeID) (ha : a.Valid) (hb : b.Valid) (h : linkText id a = linkText id b) : a = b :=
  C03_display_injective _ _ ha hb (List.append_cancel_left h)

theorem simple_differ {a b : Simple} (h : a.display = b.display) : a = b := by
  cases a <;> cases b <;> first | rfl | (revert h; decide)

/-! ### Sections -/

theorem traits_cut {T T' : List (ShapeID × Shown)} {R R' : List Str} (ht : ∀ e ∈ T, OkTrait e) (ht' : ∀ e ∈ T', OkTrait e)
    (hr : ∀ l, R.head? = some l → l.take 9 ≠ %s"        @") (hr' : ∀ l, R'.head? = some l → l.take 9 ≠ %s"        @")
    (h : traitLines T ++ R = traitLines T' ++ R') : T = T' ∧ R = R' := by
  have front : ∀ (e : ShapeID × Shown) (x : Str), (%s"    " ++ traitText e) = x → x.take 9 = %s"        @" := by
    rintro e _ rfl; simp [traitText]
  cases T with
  | nil =>
    cases T' with
    | nil => exact ⟨rfl, h⟩
    | cons e' T' => exact absurd (front e' _ rfl) (hr _ (by rw [show R = _ from h]; rfl))
  | cons e T =>
    cases T' with
    | nil => exact absurd (front e _ rfl) (hr' _ (by rw [show R' = _ from h.symm]; rfl))
    | cons e' T' =>
      simp only [traitLines, List.cons_append, List.append_assoc, List.nil_append, List.cons.injEq] at h
      obtain ⟨h1, h2⟩ := h
      have quiet : ∀ (l : List (ShapeID × Shown)), ∀ x ∈ l.map traitText, (x == %s"        ..") = false := by
        intro l x hx
        obtain ⟨e, -, rfl⟩ := List.mem_map.mp hx
        simp [traitText]
      have hd : ∀ (R : List Str) (b : Str), (%s"        .." :: R).head? = some b → (b == %s"        ..") = true := by
        intro R b hb; cases hb; rfl
      obtain ⟨h3, h4⟩ := cutBefore (p := fun x => x == %s"        ..") (quiet T) (quiet T') (hd R) (hd R') h2
      rw [traitText_differ e e' (ht e List.mem_cons_self) (ht' e' List.mem_cons_self) (by simpa using h1),
        map_differ traitText_differ (fun x hx => ht x (List.mem_cons_of_mem _ hx)) (fun x hx => ht' x (List.mem_cons_of_mem _ hx)) h3]
      exact ⟨rfl, List.cons.inj h4 |>.2⟩

theorem opSection_cut {h1 h2 : Str} (hne : h1 ≠ h2) (p2 : '(' ∉ h2) {os cs os' cs' : List (ShapeID × Signature)}
    (ho : ∀ o ∈ os, OkOp o) (ho' : ∀ o ∈ os', OkOp o) (hc : ∀ o ∈ cs, OkOp o) (hc' : ∀ o ∈ cs', OkOp o)
    (h : opSection h1 os ++ opSection h2 cs = opSection h1 os' ++ opSection h2 cs') : os = os' ∧ cs = cs' := by
  have op : ∀ (l : List (ShapeID × Signature)), ∀ x ∈ l.map (fun e => opText e.1.display e.2), (!x.contains '(') = false := by
    intro l x hx
    obtain ⟨e, -, rfl⟩ := List.mem_map.mp hx
    simp [opText]
  have hd : ∀ (l : List (ShapeID × Signature)) (b : Str), (opSection h2 l).head? = some b → (!b.contains '(') = true := by
    intro l b hb
    cases l with
    | nil => cases hb
    | cons => cases hb; simpa using p2
  have snd : ∀ {cs cs'}, (∀ o ∈ cs, OkOp o) → (∀ o ∈ cs', OkOp o) → opSection h2 cs = opSection h2 cs' → cs = cs' := by
    intro cs cs' hc hc' h
    cases cs with
    | nil =>
      cases cs' with
      | nil => rfl
      | cons => cases h
    | cons =>
      cases cs' with
      | nil => cases h
      | cons => exact map_differ op_differ hc hc' (List.cons.inj h).2
  cases os with
  | nil =>
    cases os' with
    | nil => exact ⟨rfl, snd hc hc' h⟩
    | cons =>
      cases cs with
      | nil => cases h
      | cons => exact absurd (List.cons.inj h).1.symm hne
  | cons =>
    cases os' with
    | nil =>
      cases cs' with
      | nil => cases h
      | cons => exact absurd (List.cons.inj h).1 hne
    | cons =>
      obtain ⟨h3, h4⟩ := cutBefore (p := fun x => !x.contains '(') (op _) (op _) (hd _) (hd _) (List.cons.inj h).2
      exact ⟨map_differ op_differ ho ho' h3, snd hc hc' h4⟩

theorem notes_cut {f : Fmt} (hf : PlainFormat f) {id : ShapeID} (hid : id.Valid) {rs rs' : List ShapeID} (hr : ∀ r ∈ rs, r.Valid)
    (hr' : ∀ r ∈ rs', r.Valid) : ∀ {n : Nat} {ds ds' : List Str}, noteLines f id n ds ++ rs.map (linkText id) = noteLines f id n ds' ++ rs'.map (linkText id) →
      ds = ds' ∧ rs = rs' := by
  have no : ∀ (r : ShapeID) (y : Str), linkText id r ≠ %s"    note " ++ y := by
    intro r y e
    simp only [linkText, List.append_assoc] at e
    have e2 := List.append_cancel_left (as := %s"    ") (cs := %s"note " ++ y) e
    obtain ⟨e3, -⟩ := cutAt (a := id.display) (b := %s"note") (c := ' ') (y := y) (display_not hid (by decide)) (by decide) e2
    have := display_hash id
    rw [e3] at this
    revert this; decide
  have first : ∀ (n : Nat) (d : Str) (ds : List Str) (R : List Str), ∃ y Y, noteLines f id n (d :: ds) ++ R = (%s"    note " ++ y) :: Y := by
    intro n d ds R
    simp only [noteLines]
    split
    · exact ⟨_, _, rfl⟩
    · exact ⟨_, _, by simp only [List.append_assoc, List.cons_append, List.nil_append]; rfl⟩
  have never : ∀ (n : Nat) (d : Str) (ds : List Str) (rs : List ShapeID) (R : List Str), rs.map (linkText id) ≠ noteLines f id n (d :: ds) ++ R := by
    intro n d ds rs R h
    obtain ⟨y, Y, e⟩ := first n d ds R
    rw [e] at h
    cases rs with
    | nil => cases h
    | cons r rs => exact no r y (List.cons.inj h).1
  intro n ds
  induction ds generalizing n with
  | nil =>
    intro ds' h
    cases ds' with
    | nil => exact ⟨rfl, map_differ (linkText_differ id) hr hr' h⟩
    | cons d' ds' => exact absurd h (never _ _ _ _ _)
  | cons d ds ih =>
    intro ds' h
    cases ds' with
    | nil => exact absurd h.symm (never _ _ _ _ _)
    | cons d' ds' =>
      by_cases h1 : '\n' ∈ d <;> by_cases h2 : '\n' ∈ d'
      · simp only [noteLines, h1, h2, if_true, List.cons_append, List.nil_append, List.cons.injEq, true_and] at h
        obtain ⟨h3, h4⟩ := ih h.2
        rw [hf.differ _ _ h.1, h3]
        exact ⟨rfl, h4⟩
      · simp only [noteLines, h1, h2, if_true, if_false, List.cons_append, List.nil_append, List.append_assoc, List.cons.injEq] at h
        obtain ⟨t, ht, -⟩ := hf.quoted d'
        rw [ht] at h
        simp at h
      · simp only [noteLines, h1, h2, if_true, if_false, List.cons_append, List.nil_append, List.append_assoc, List.cons.injEq] at h
        obtain ⟨t, ht, -⟩ := hf.quoted d
        rw [ht] at h
        simp at h
      · simp only [noteLines, h1, h2, if_false, List.cons_append, List.nil_append, List.cons.injEq, true_and] at h
        obtain ⟨h3, h4⟩ := ih h.2
        have h5 := List.append_cancel_right (List.append_cancel_right h.1)
        rw [hf.differ _ _ h5, h3]
        exact ⟨rfl, h4⟩

theorem around_kind {a b : Figure} (h : around a = around b) :
    (∃ d t d' t', a = .dataType d t ∧ b = .dataType d' t') ∨ (∃ v o n r v' o' n' r', a = .service v o n r ∧ b = .service v' o' n' r') ∨
    (∃ i l o c n r i' l' o' c' n' r', a = .resource i l o c n r ∧ b = .resource i' l' o' c' n' r') ∨
    ∃ k m n m' n', a = .structured k m n ∧ b = .structured k m' n' := by
  rcases a with ⟨d, t⟩ | ⟨v, o, n, r⟩ | ⟨i, l, o, c, n, r⟩ | ⟨_ | _ | _ | _, m, n⟩ <;>
    rcases b with ⟨d', t'⟩ | ⟨v', o', n', r'⟩ | ⟨i', l', o', c', n', r'⟩ | ⟨_ | _ | _ | _, m', n'⟩ <;>
    first
    | exact .inl ⟨_, _, _, _, rfl, rfl⟩
    | exact .inr (.inl ⟨_, _, _, _, _, _, _, _, rfl, rfl⟩)
    | exact .inr (.inr (.inl ⟨_, _, _, _, _, _, _, _, _, _, _, _, rfl, rfl⟩))
    | exact .inr (.inr (.inr ⟨_, _, _, _, _, rfl, rfl⟩))
    | (exfalso; revert h; simp [around])

theorem top_differ {a b : ShapeID} {x y : Figure} (ha : a.Valid) (hb : b.Valid) (h : top a (around x) = top b (around y)) : a = b ∧ around x = around y := by
  have hw : ∀ x, ' ' ∉ (around x).1 := by rintro (_ | _ | _ | ⟨_ | _ | _ | _, _, _⟩) <;> simp [around]
  simp only [top, List.append_assoc] at h
  obtain ⟨h1, h2⟩ := cutAt (hw x) (hw y) (List.append_cancel_left h)
  obtain ⟨h3, h4⟩ := cutAt (display_not ha (by decide)) (display_not hb (by decide)) h2
  exact ⟨C03_display_injective _ _ ha hb h3, Prod.ext h1 h4⟩

/-- The lines within braces are further to the right than the closing brace. -/
theorem inner_right (fig : Figure) : ∀ l ∈ inner fig, ∃ x, l = %s"        " ++ x := by
  have sec : ∀ (h : Str) (os : List (ShapeID × Signature)), ∀ l ∈ opSection (%s"        " ++ h) os, ∃ x, l = %s"        " ++ x := by
    intro h os l hl
    cases os with
    | nil => cases hl
    | cons o os =>
      rcases List.mem_cons.mp hl with rfl | hl
      · exact ⟨_, rfl⟩
      · obtain ⟨e, -, rfl⟩ := List.mem_map.mp hl
        exact ⟨_, by simp only [opText, List.append_assoc]; rfl⟩
  have nm : ∀ (ms : List (Str × ShapeID)), ∀ l ∈ ms.map nameText, ∃ x, l = %s"        " ++ x := by
    intro ms l hl
    obtain ⟨e, -, rfl⟩ := List.mem_map.mp hl
    exact ⟨_, by simp only [nameText, List.append_assoc]; rfl⟩
  intro l hl
  cases fig with
  | dataType => cases hl
  | service v os ns rs =>
    rcases List.mem_cons.mp hl with rfl | hl
    · exact ⟨_, rfl⟩
    · obtain ⟨e, -, rfl⟩ := List.mem_map.mp hl
      exact ⟨_, by simp only [opText, List.append_assoc]; rfl⟩
  | resource ids life os cs ns rs =>
    simp only [inner, List.mem_append] at hl
    rcases hl with hl | hl | hl | hl
    · exact nm _ l hl
    · obtain ⟨e, -, rfl⟩ := List.mem_map.mp hl
      exact ⟨_, by simp only [opText, List.append_assoc]; rfl⟩
    · exact sec %s"..operations.." _ l hl
    · exact sec %s"..collectionOperations.." _ l hl
  | structured k ms ns => exact nm _ l hl

/-- What comes after the traits does not look like a trait. -/
theorem inner_first {fig : Figure} (h : OkFigure fig) (R : List Str) : ∀ l, (inner fig ++ %s"    }" :: R).head? = some l → l.take 9 ≠ %s"        @" := by
  have at_ : ∀ (x y : Str), x ≠ [] → '@' ∉ x → (%s"        " ++ (x ++ y)).take 9 ≠ %s"        @" := by
    intro x y hx ha e
    cases x with
    | nil => exact hx rfl
    | cons c x => simp at e; exact ha (by rw [e]; simp)
  have op : ∀ o : ShapeID × Signature, OkOp o → (opText o.1.display o.2).take 9 ≠ %s"        @" := by
    intro o ho
    simp only [opText, List.append_assoc]
    exact at_ _ _ (fun e => by have := display_hash o.1; rw [e] at this; cases this) (display_not ho.1 (by decide))
  have nm : ∀ e : Str × ShapeID, OkName e → (nameText e).take 9 ≠ %s"        @" := by
    intro e he
    simp only [nameText, List.append_assoc]
    refine at_ _ _ (fun h => ?_) (identifier_not_mem he.1 (by decide))
    obtain ⟨n, a, r, e1, -⟩ := he.1
    rw [h] at e1
    exact absurd e1 (by simp)
  intro l hl
  cases fig with
  | dataType => cases hl; decide
  | service v os ns rs => cases hl; simp
  | resource ids life os cs ns rs =>
    obtain ⟨hi, -, ho, hc, -⟩ := h
    cases ids with
    | cons e ids => cases hl; exact nm _ (hi _ List.mem_cons_self)
    | nil =>
      cases life with
      | cons s life => cases hl; simp [opText]
      | nil =>
        cases os with
        | cons => cases hl; simp
        | nil =>
          cases cs with
          | cons => cases hl; simp
          | nil => cases hl; decide
  | structured k ms ns =>
    cases ms with
    | nil => cases hl; decide
    | cons e ms => cases hl; exact nm _ (h _ List.mem_cons_self)

/-- The lines of a picture tell the picture. -/
theorem picture_differ {f : Fmt} (hf : PlainFormat f) {p q : Picture} (hp : OkPicture p) (hq : OkPicture q) (h : pictureLines f p = pictureLines f q) :
    p = q := by
  obtain ⟨id, T, fig⟩ := p
  obtain ⟨id', T', fig'⟩ := q
  obtain ⟨hid, hT, hF⟩ := hp
  obtain ⟨hid', hT', hF'⟩ := hq
  obtain ⟨h1, h2⟩ := List.cons.inj h
  obtain ⟨rfl, hk⟩ := top_differ hid hid' h1
  obtain ⟨rfl, h3⟩ := traits_cut hT hT' (inner_first hF _) (inner_first hF' _) h2
  have quiet : ∀ fig : Figure, ∀ l ∈ inner fig, (l == %s"    }") = false := by
    intro fig l hl
    obtain ⟨x, rfl⟩ := inner_right fig l hl
    simp
  have hd : ∀ (R : List Str) (b : Str), (%s"    }" :: R).head? = some b → (b == %s"    }") = true := by intro R b hb; cases hb; rfl
  obtain ⟨h4, h5⟩ := cutBefore (p := fun x => x == %s"    }") (quiet _) (quiet _) (hd _) (hd _) h3
  have h5 := (List.cons.inj h5).2
  have h6 : fig = fig' := by
    rcases around_kind hk with ⟨d, t, d', t', rfl, rfl⟩ | ⟨v, o, n, r, v', o', n', r', rfl, rfl⟩ | ⟨i, l, o, c, n, r, i', l', o', c', n', r', rfl, rfl⟩ |
      ⟨k, m, n, m', n', rfl, rfl⟩
    · obtain ⟨h6, h7⟩ := List.cons.inj h5
      have h6 := List.append_cancel_left (as := %s"    ") h6
      have h7 : t = t' := by
        cases t <;> cases t'
        · rfl
        · cases h7
        · cases h7
        · have h7 := (List.cons.inj h7).1
          simp only [List.append_assoc] at h7
          have h7 := List.append_cancel_left h7
          rw [simple_differ (List.append_cancel_right h7)]
      rw [h6, h7]
    · obtain ⟨-, ho, hr⟩ := hF
      obtain ⟨-, ho', hr'⟩ := hF'
      obtain ⟨h6, h7⟩ := List.cons.inj h4
      have h6 := List.append_cancel_left (List.append_cancel_right h6)
      obtain ⟨h8, h9⟩ := notes_cut hf hid hr hr' h5
      rw [h6, map_differ op_differ ho ho' h7, h8, h9]
    · obtain ⟨hi, hl, ho, hc, hr⟩ := hF
      obtain ⟨hi', hl', ho', hc', hr'⟩ := hF'
      obtain ⟨h8, h9⟩ := notes_cut hf hid hr hr' h5
      have ids : ∀ {ids : List (Str × ShapeID)}, (∀ e ∈ ids, OkName e) → ∀ x ∈ ids.map nameText, (!x.contains ':' || x.contains '(') = false := by
        intro ids hi x hx
        obtain ⟨e, he, rfl⟩ := List.mem_map.mp hx
        have n1 := identifier_not_mem (hi e he).1 (c := '(') (by decide)
        have n2 := display_not (hi e he).2 (c := '(') (by decide)
        simp [nameText, n1, n2]
      have ops : ∀ (life : List Signature), ∀ x ∈ life.map (opText %s"create"), (!x.contains '(') = false := by
        intro life x hx
        obtain ⟨e, he, rfl⟩ := List.mem_map.mp hx
        simp [opText]
      have secs : ∀ (o c : List (ShapeID × Signature)), ∀ b, (opSection %s"        ..operations.." o ++ opSection %s"        ..collectionOperations.." c).head? = some b →
          b.contains '(' = false ∧ b.contains ':' = false := by
        intro o c b hb
        cases o with
        | cons => cases hb; decide
        | nil =>
          cases c with
          | nil => cases hb
          | cons => cases hb; decide
      have rest : ∀ (l : List Signature) (o c : List (ShapeID × Signature)), ∀ b, (l.map (opText %s"create") ++
          (opSection %s"        ..operations.." o ++ opSection %s"        ..collectionOperations.." c)).head? = some b → (!b.contains ':' || b.contains '(') = true := by
        intro l o c b hb
        cases l with
        | nil => simp only [List.map_nil, List.nil_append] at hb; rw [(secs o c b hb).2]; rfl
        | cons => cases hb; simp [opText]
      obtain ⟨k1, k2⟩ := cutBefore (p := fun x => !x.contains ':' || x.contains '(') (ids hi) (ids hi') (rest _ _ _) (rest _ _ _) h4
      obtain ⟨k3, k4⟩ := cutBefore (p := fun x => !x.contains '(') (ops _) (ops _) (fun b hb => by rw [(secs _ _ b hb).1]; rfl) (fun b hb => by rw [(secs _ _ b hb).1]; rfl) k2
      obtain ⟨k5, k6⟩ := opSection_cut (by decide) (by decide) ho ho' hc hc' k4
      rw [map_differ nameText_differ hi hi' k1, map_differ (fun a b ha hb e => (opText_differ (by decide) (by decide) ha hb e).2) hl hl' k3, k5, k6, h8, h9]
    · obtain ⟨h8, -⟩ := notes_cut (rs := []) (rs' := []) hf hid (by simp) (by simp) h5
      rw [map_differ nameText_differ hF hF' h4, h8]
  rw [h6]

/-! ### The lines of a document -/

/-- A line of a drawing: not empty, and not the end of a package. -/
def Inside (l : Str) : Prop := '\n' ∉ l ∧ ∃ c x, l = c :: x ∧ c ≠ '}'

theorem picture_inside {f : Fmt} (hf : PlainFormat f) {p : Picture} (hp : OkPicture p) : ∀ l ∈ pictureLines f p, Inside l := by
  obtain ⟨id, T, fig⟩ := p
  obtain ⟨hid, hT, hF⟩ := hp
  have sp : ∀ x : Str, '\n' ∉ x → Inside (' ' :: x) := fun x hx => ⟨by simp [hx], _, _, rfl, by decide⟩
  have nd := display_not hid (c := '\n') (by decide)
  have nname : ∀ n, '\n' ∉ noteName id n := by
    intro n
    have : '\n' ∉ showNat n := fun h => absurd (showNat_digits n _ h) (by decide)
    simp [noteName, nd, this]
  have tt : ∀ e, OkTrait e → '\n' ∉ traitText e := by
    rintro ⟨i, v⟩ ⟨h1, h2⟩
    have n1 := display_not h1 (c := '\n') (by decide)
    have n2 : '\n' ∉ shownText v := by
      rcases v with _ | s | t | (_ | _) | _ | _
      · decide
      · have h2 : '\n' ∉ s := h2
        simp [shownText, h2]
      · have h2 := h2.1
        simp [shownText, h2]
      all_goals decide
    simp [traitText, n1, n2]
  have ot : ∀ name s, '\n' ∉ name → OkSig s → Inside (opText name s) := by
    rintro name ⟨i, o⟩ hn ⟨hi, ho⟩
    simp only [opText, List.append_assoc]
    refine sp _ ?_
    cases i <;> cases o <;> simp [hn]
    · exact (ho _ rfl).2.1
    · exact (hi _ rfl).2.1
    · exact ⟨(hi _ rfl).2.1, (ho _ rfl).2.1⟩
  have nt : ∀ e, OkName e → Inside (nameText e) := by
    rintro e ⟨h1, h2⟩
    simp only [nameText, List.append_assoc]
    refine sp _ ?_
    have n1 := identifier_not_mem h1 (c := '\n') (by decide)
    have n2 := display_not h2 (c := '\n') (by decide)
    simp [n1, n2]
  have os : ∀ (x : Str) (l : List (ShapeID × Signature)), '\n' ∉ x → (∀ o ∈ l, OkOp o) → ∀ y ∈ opSection (' ' :: x) l, Inside y := by
    intro x l hx hl y hy
    cases l with
    | nil => cases hy
    | cons o l =>
      rcases List.mem_cons.mp hy with rfl | hy
      · exact sp _ hx
      · obtain ⟨e, he, rfl⟩ := List.mem_map.mp hy
        exact ot _ _ (display_not (hl e he).1 (by decide)) (hl e he).2
  have lt : ∀ rs : List ShapeID, (∀ r ∈ rs, r.Valid) → ∀ l ∈ rs.map (linkText id), Inside l := by
    intro rs hr l hl
    obtain ⟨r, h, rfl⟩ := List.mem_map.mp hl
    simp only [linkText, List.append_assoc]
    refine sp _ ?_
    simp [nd, display_not (hr r h) (c := '\n') (by decide)]
  have nl : ∀ (ds : List Str) (n : Nat), ∀ l ∈ noteLines f id n ds, Inside l := by
    intro ds
    induction ds with
    | nil => intro n l hl; cases hl
    | cons d ds ih =>
      intro n l hl
      obtain ⟨t, ht, hn⟩ := hf.quoted d
      have hq : '\n' ∉ f.debug d := by rw [ht]; simp [hn]
      simp only [noteLines, List.mem_append, List.mem_cons] at hl
      rcases hl with hl | rfl | hl
      · split at hl
        · simp only [List.mem_cons, List.not_mem_nil, or_false] at hl
          rcases hl with rfl | rfl | rfl
          · exact sp _ (by simp [nname])
          · exact ⟨hq, _, _, ht, by decide⟩
          · exact sp _ (by decide)
        · rw [List.mem_singleton.mp hl]
          simp only [List.append_assoc]
          exact sp _ (by simp [nname, hq])
      · simp only [List.append_assoc]
        exact sp _ (by simp [nname, nd])
      · exact ih _ l hl
  intro l hl
  simp only [pictureLines, List.mem_cons, List.mem_append] at hl
  rcases hl with rfl | hl | hl | rfl | hl
  · have hw : '\n' ∉ (around fig).1 ∧ '\n' ∉ (around fig).2 := by rcases fig with _ | _ | _ | ⟨_ | _ | _ | _, _, _⟩ <;> simp [around]
    simp only [top, List.append_assoc]
    exact sp _ (by simp [nd, hw])
  · cases T with
    | nil => cases hl
    | cons e T =>
      simp only [traitLines, List.mem_cons, List.mem_append, List.mem_map, List.not_mem_nil, or_false] at hl
      rcases hl with rfl | ⟨e', he, rfl⟩ | rfl
      · exact sp _ (by simpa using tt e (hT e List.mem_cons_self))
      · have := tt e' (hT e' (List.mem_cons_of_mem _ he))
        exact ⟨this, ' ', _, by simp only [traitText, List.append_assoc]; rfl, by decide⟩
      · exact sp _ (by decide)
  · cases fig with
    | dataType => cases hl
    | service v ops ns rs =>
      obtain ⟨h1, h2, h3⟩ := hF
      rcases List.mem_cons.mp hl with rfl | hl
      · exact sp _ (by simp [h1])
      · obtain ⟨e, he, rfl⟩ := List.mem_map.mp hl
        exact ot _ _ (display_not (h2 e he).1 (by decide)) (h2 e he).2
    | resource ids life ops cs ns rs =>
      obtain ⟨h1, h2, h3, h4, h5⟩ := hF
      simp only [inner, List.mem_append] at hl
      rcases hl with hl | hl | hl | hl
      · obtain ⟨e, he, rfl⟩ := List.mem_map.mp hl
        exact nt e (h1 e he)
      · obtain ⟨e, he, rfl⟩ := List.mem_map.mp hl
        exact ot _ _ (by decide) (h2 e he)
      · exact os _ _ (by decide) h3 l hl
      · exact os _ _ (by decide) h4 l hl
    | structured k ms ns =>
      obtain ⟨e, he, rfl⟩ := List.mem_map.mp hl
      exact nt e (hF e he)
  · exact sp _ (by decide)
  · cases fig with
    | dataType d t =>
      have hF : '\n' ∉ d := hF
      rcases List.mem_cons.mp hl with rfl | hl
      · exact sp _ (by simp [hF])
      · obtain ⟨t, -, rfl⟩ := List.mem_map.mp hl
        simp only [List.append_assoc]
        refine sp _ ?_
        have : '\n' ∉ t.display := by cases t <;> decide
        simp [this, nd]
    | service v ops ns rs =>
      rcases List.mem_append.mp hl with hl | hl
      · exact nl _ _ l hl
      · exact lt rs hF.2.2 l hl
    | resource ids life ops cs ns rs =>
      rcases List.mem_append.mp hl with hl | hl
      · exact nl _ _ l hl
      · exact lt rs hF.2.2.2.2 l hl
    | structured k ms ns =>
      rcases List.mem_append.mp hl with hl | hl
      · exact nl _ _ l hl
      · cases hl

def drawingLines (f : Fmt) (ps : List Picture) : List Str := ps.flatMap fun p => pictureLines f p ++ [[]]

theorem drawings_differ {f : Fmt} (hf : PlainFormat f) : ∀ {ps qs : List Picture}, (∀ p ∈ ps, OkPicture p) → (∀ p ∈ qs, OkPicture p) →
    drawingLines f ps = drawingLines f qs → ps = qs
  | [], [], _, _, _ => rfl
  | [], q :: qs, _, _, h => by simp [drawingLines] at h
  | p :: ps, [], _, _, h => by simp [drawingLines] at h
  | p :: ps, q :: qs, hp, hq, h => by
    simp only [drawingLines, List.flatMap_cons, List.append_assoc] at h
    have quiet : ∀ p, OkPicture p → ∀ l ∈ pictureLines f p, (l == []) = false := by
      intro p hp l hl
      obtain ⟨-, c, x, rfl, -⟩ := picture_inside hf hp l hl
      rfl
    have hd : ∀ (R : List Str) (b : Str), ([[]] ++ R).head? = some b → (b == []) = true := by intro R b hb; cases hb; rfl
    obtain ⟨h1, h2⟩ := cutBefore (p := fun x => x == []) (quiet p (hp p List.mem_cons_self)) (quiet q (hq q List.mem_cons_self)) (hd _) (hd _) h
    rw [picture_differ hf (hp p List.mem_cons_self) (hq q List.mem_cons_self) h1,
      drawings_differ hf (fun x hx => hp x (List.mem_cons_of_mem _ hx)) (fun x hx => hq x (List.mem_cons_of_mem _ hx)) (List.cons.inj h2).2]

def packageLines (expand : Bool) (D : List Str) (ns : Str) : List Str :=
  (%s"package " ++ ns ++ %s" {") :: [] :: (D ++ %s"}" :: if expand then [ns ++ %s" ..> smithy.api"] else [])

def packagesLines (expand : Bool) (D : List Str) (nss : List Str) : List Str := nss.flatMap (packageLines expand D) ++ [[], %s"@enduml"]

theorem packages_differ {expand : Bool} {D D' : List Str} (hD : ∀ l ∈ D, l ≠ %s"}") (hD' : ∀ l ∈ D', l ≠ %s"}") :
    ∀ {nss nss' : List Str}, packagesLines expand D nss = packagesLines expand D' nss' → nss = nss' ∧ (nss ≠ [] → D = D')
  | [], [], _ => ⟨rfl, fun h => absurd rfl h⟩
  | [], _ :: _, h => by simp [packagesLines, packageLines] at h
  | _ :: _, [], h => by simp [packagesLines, packageLines] at h
  | ns :: nss, ns' :: nss', h => by
    simp only [packagesLines, List.flatMap_cons, packageLines, List.append_assoc, List.cons_append, List.cons.injEq] at h
    obtain ⟨h1, -, h2⟩ := h
    have h1 : ns = ns' := by simpa using h1
    have hd : ∀ (R : List Str) (b : Str), (%s"}" :: R).head? = some b → (b == %s"}") = true := by intro R b hb; cases hb; rfl
    obtain ⟨h3, h4⟩ := cutBefore (p := fun x => x == %s"}") (fun l hl => by simpa using hD l hl) (fun l hl => by simpa using hD' l hl) (hd _) (hd _) h2
    have h5 := (List.cons.inj h4).2
    rw [h1] at h5
    have h6 := packages_differ (expand := expand) hD hD' (List.append_cancel_left h5)
    exact ⟨by rw [h1, h6.1], fun _ => h3⟩

/-! ### The pictures of a model -/

theorem typeText_ok {m : Model} (hv : ValidModel m) {id : ShapeID} (h : id.Valid) : typeText m id ≠ [] ∧ '\n' ∉ typeText m id ∧ ')' ∉ typeText m id := by
  have idOk : id.display ≠ [] ∧ '\n' ∉ id.display ∧ ')' ∉ id.display :=
    ⟨fun e => (by have := display_hash id; rw [e] at this; cases this), display_not h (by decide), display_not h (by decide)⟩
  unfold typeText
  cases hs : m.shape id with
  | none => exact idOk
  | some s =>
    have hk := (hv _ _ hs).2.2
    cases hb : s.body <;> rw [hb] at hk <;> simp only [Option.map_some, hb]
    case simple b => cases b <;> decide
    case list x =>
      have h1 := identifier_not_mem hk.1.2.1 (c := '\n') (by decide)
      have h2 := identifier_not_mem hk.1.2.1 (c := ')') (by decide)
      simp [h1, h2]
    case set x =>
      have h1 := identifier_not_mem hk.1.2.1 (c := '\n') (by decide)
      have h2 := identifier_not_mem hk.1.2.1 (c := ')') (by decide)
      simp [h1, h2]
    case map k v =>
      have h1 := identifier_not_mem hk.1.1.2.1 (c := '\n') (by decide)
      have h2 := identifier_not_mem hk.1.1.2.1 (c := ')') (by decide)
      have h3 := identifier_not_mem hk.2.1.2.1 (c := '\n') (by decide)
      have h4 := identifier_not_mem hk.2.1.2.1 (c := ')') (by decide)
      simp [h1, h2, h3, h4]
    all_goals exact idOk

theorem signature_ok {m : Model} (hv : ValidModel m) (id : ShapeID) : OkSig (signature m id) := by
  unfold signature
  cases hs : m.shape id with
  | none => exact ⟨nofun, nofun⟩
  | some s =>
    have hk := (hv _ _ hs).2.2
    simp only [Option.map_some]
    split
    · rename_i o hb
      have hb : s.body = .operation o := Option.some.inj hb
      rw [hb] at hk
      constructor
      · intro x hx
        obtain ⟨i, hi, rfl⟩ := Option.map_eq_some_iff.mp hx
        exact typeText_ok hv (hk.1 i hi)
      · intro x hx
        obtain ⟨i, hi, rfl⟩ := Option.map_eq_some_iff.mp hx
        exact typeText_ok hv (hk.2.1 i hi)
    · exact ⟨nofun, nofun⟩

theorem shown_ok {f : Fmt} (hf : PlainFormat f) {t : ShapeID} (ht : t.Valid) {v : TraitValue} (h : ∀ x, v = some (.string x) → '\n' ∉ x) : OkTrait (t, shown f v) := by
  refine ⟨ht, ?_⟩
  cases v with
  | none => trivial
  | some v =>
    cases v with
    | string x => exact h x rfl
    | number n =>
      have hc : ∀ c ∈ showNumber f n, c ∈ %s"0123456789.-NaNinf" := by
        cases n with
        | float x => exact hf.float x
        | integer n =>
          intro c hc
          have hd : c.isDigit = true ∨ c = '-' := by
            cases n with
            | ofNat n => exact .inl (showNat_digits n c hc)
            | negSucc n =>
              have hc : c ∈ showInt (Int.negSucc n) := hc
              rw [showInt_neg] at hc
              rcases List.mem_cons.mp hc with rfl | hc
              · exact .inr rfl
              · exact .inl (showNat_digits _ c hc)
          rcases hd with hd | rfl
          · simp only [Char.isDigit, Bool.and_eq_true, decide_eq_true_eq] at hd
            have h1 : 48 ≤ c.toNat := hd.1
            have h2 : c.toNat ≤ 57 := hd.2
            have : c = Char.ofNat c.toNat := (Char.ofNat_toNat c).symm
            rw [this]
            generalize c.toNat = k at h1 h2
            interval_cases k <;> decide
          · decide
      refine ⟨fun h => absurd (hc _ h) (by decide), fun c h => ?_, fun h => ?_, fun h => ?_⟩
      · have := hc c (List.mem_of_mem_head? h)
        refine ⟨?_, ?_, ?_⟩ <;> rintro rfl <;> exact absurd this (by decide)
      · exact absurd (hc 't' (by rw [h]; decide)) (by decide)
      · exact absurd (hc 'l' (by rw [h]; decide)) (by decide)
    | _ => trivial

theorem pictures_ok (expand : Bool) {f : Fmt} (hf : PlainFormat f) {m : Model} (hw : WfModel m) (hv : ValidModel m) (ho : OneLineTexts m) :
    ∀ p ∈ pictures expand f m, OkPicture p := by
  intro p hp
  obtain ⟨⟨id, s⟩, he, hp⟩ := List.mem_filterMap.mp hp
  have hs : m.shape id = some s := AMap.get_of_mem hw.nodup he
  have hid := hw.key _ _ hs
  obtain ⟨v1, v2, v3⟩ := hv _ _ hs
  obtain ⟨o1, o2, o3⟩ := ho _ _ hs
  have hws := hw.shapes _ _ hs
  obtain ⟨fig, hfig, rfl⟩ := Option.map_eq_some_iff.mp hp
  refine ⟨by rw [← hid] at v1; exact v1, ?_, ?_⟩
  · intro e he
    obtain ⟨⟨t, v⟩, he2, rfl⟩ := List.mem_map.mp he
    obtain ⟨he3, hne⟩ := List.mem_filter.mp he2
    simp only [Bool.and_eq_true, Bool.not_eq_true'] at hne
    exact shown_ok hf (v2 t v (AMap.get_of_mem hws.traits.nodup he3)).1 fun x hx => o1 (t, v) he3 hne.1 hne.2 x hx
  · have ops : ∀ (l : List ShapeID), (∀ i ∈ l, i.Valid) → ∀ o ∈ l.map fun id => (id, signature m id), OkOp o := by
      intro l hl o h
      obtain ⟨i, hi, rfl⟩ := List.mem_map.mp h
      exact ⟨hl i hi, signature_ok hv i⟩
    have members : ∀ (ms : AMap Str MemberShape), AMap.Wf ms → (∀ k x, AMap.get ms k = some x → IsIdentifier k ∧ ValidMember x) →
        ∀ e ∈ ms.map (fun e : Str × MemberShape => (e.1, e.2.target)), OkName e := by
      intro ms hms h e he
      obtain ⟨⟨k, x⟩, he2, rfl⟩ := List.mem_map.mp he
      obtain ⟨h1, h2⟩ := h k x (AMap.get_of_mem hms he2)
      exact ⟨h1, h2.1⟩
    have hwb := hws.body
    unfold figure at hfig
    cases hb : s.body <;> rw [hb] at v3 hwb <;> simp only [hb] at hfig <;> cases hfig
    case simple.refl b => exact o2 _ hb
    case service.refl b => exact ⟨o3 _ hb, ops _ v3.2.1, v3.2.2.1⟩
    case resource.refl b =>
      obtain ⟨h1, h2, h3, h4, h5⟩ := v3
      refine ⟨?_, ?_, ops _ h3, ops _ h4, h5⟩
      · rintro ⟨n, i⟩ he
        exact h1 n i (AMap.get_of_mem hwb he)
      · intro sg hsg
        obtain ⟨i, -, rfl⟩ := List.mem_map.mp hsg
        exact signature_ok hv i
    case struct.refl ms => exact members _ hwb.nodup v3
    case union.refl ms => exact members _ hwb.nodup v3

theorem write_lines (expand : Bool) (f : Fmt) {m : Model} (hw : WfModel m) {t : Str} (h : write expand f m = .ok t) :
    t = start expand ++ unlines (packagesLines expand (drawingLines f (pictures expand f m)) m.namespaces) := by
  classical
  have ho := outcome_write expand f hw
  have hb : ¬ ∃ id s, m.shape id = some s ∧ ∃ o ∈ operationsOf s.body, ∀ op, ¬ IsOperation m o op := by
    intro hb; rw [ho.2 hb] at h; cases h
  have draws : ∀ s ∈ m.shapesList, drawing expand f m s = (picture expand f m s).elim [] fun p => unlines (pictureLines f p ++ [[]]) := by
    intro s hs
    obtain ⟨id, hs⟩ := (mem_shapesList hw).mp hs
    refine draws_lines (draws_ok expand f (hw.shapes _ _ hs).body fun o hop => ?_)
    by_contra hn
    exact hb ⟨id, s, hs, o, hop, fun op hop => hn ⟨op, hop⟩⟩
  have all : (m.shapesList.map (drawing expand f m)).flatten = unlines (drawingLines f (pictures expand f m)) := by
    have hp : pictures expand f m = m.shapesList.filterMap (picture expand f m) := by
      unfold pictures Model.shapesList AMap.values
      rw [List.filterMap_map]; rfl
    rw [hp]
    generalize m.shapesList = l at draws
    induction l with
    | nil => rfl
    | cons s l ih =>
      rw [List.map_cons, List.flatten_cons, ih fun x hx => draws x (List.mem_cons_of_mem _ hx), draws s List.mem_cons_self, List.filterMap_cons]
      cases picture expand f m s with
      | none => rfl
      | some p => simp only [Option.elim_some, drawingLines, List.flatMap_cons, ← unlines_append]
  rw [ho.1 hb] at h
  rw [← Except.ok.inj h, document, List.append_assoc]
  refine congrArg _ ?_
  simp only [packagesLines, unlines_append]
  refine congr (congrArg _ ?_) rfl
  generalize m.namespaces = nss
  induction nss with
  | nil => rfl
  | cons ns nss ih =>
    rw [List.map_cons, List.flatten_cons, ih, List.flatMap_cons, unlines_append]
    refine congrArg (· ++ _) ?_
    unfold package packageLines
    rw [all]
    cases expand <;> simp [unlines_cons, unlines_append, unlines_nil]

/-- **C78** What a PlantUML text tells, exactly: two models that are written (with valid ids, and without line breaks in texts that are written as they
are) have the same text if and only if they have the same namespaces and the same pictures of their shapes, in the same order. -/
theorem C78_tells (expand : Bool) (f : Fmt) (hf : PlainFormat f) (m m' : Model) (hw : WfModel m) (hw' : WfModel m') (hv : ValidModel m) (hv' : ValidModel m')
    (ho : OneLineTexts m) (ho' : OneLineTexts m') (t t' : Str) (h : write expand f m = .ok t) (h' : write expand f m' = .ok t') :
    t = t' ↔ m.namespaces = m'.namespaces ∧ pictures expand f m = pictures expand f m' := by
  have ok := pictures_ok expand hf hw hv ho
  have ok' := pictures_ok expand hf hw' hv' ho'
  have lines : ∀ {ps : List Picture}, (∀ p ∈ ps, OkPicture p) → ∀ l ∈ drawingLines f ps, '\n' ∉ l ∧ l ≠ %s"}" := by
    intro ps hps l hl
    obtain ⟨p, hp, hl⟩ := List.mem_flatMap.mp hl
    rcases List.mem_append.mp hl with hl | hl
    · obtain ⟨h1, c, x, rfl, h2⟩ := picture_inside hf (hps p hp) l hl
      refine ⟨h1, fun e => ?_⟩
      cases e
      exact h2 rfl
    · rw [List.mem_singleton.mp hl]; decide
  have packs : ∀ {m : Model} {D : List Str}, WfModel m → ValidModel m → (∀ l ∈ D, '\n' ∉ l ∧ l ≠ %s"}") →
      ∀ l ∈ packagesLines expand D m.namespaces, '\n' ∉ l := by
    intro m D hw hv hD l hl
    rcases List.mem_append.mp hl with hl | hl
    · obtain ⟨ns, hns, hl⟩ := List.mem_flatMap.mp hl
      obtain ⟨id, s, hs, rfl⟩ := (mem_namespaces hw).mp hns
      have hn := namespace_not_mem (hv _ _ hs.1).1.1 (c := '\n') (by decide) (by decide)
      simp only [packageLines, List.mem_cons, List.mem_append] at hl
      rcases hl with rfl | rfl | hl | rfl | hl
      · simp [hn]
      · simp
      · exact (hD l hl).1
      · decide
      · cases expand
        · cases hl
        · rw [List.mem_singleton.mp hl]; simp [hn]
    · simp only [List.mem_cons, List.not_mem_nil, or_false] at hl
      rcases hl with rfl | rfl <;> decide
  rw [write_lines expand f hw h, write_lines expand f hw' h']
  constructor
  · intro e
    have e := unlines_differ (packs hw hv (lines ok)) (packs hw' hv' (lines ok')) (List.append_cancel_left e)
    obtain ⟨e1, e2⟩ := packages_differ (fun l hl => (lines ok l hl).2) (fun l hl => (lines ok' l hl).2) e
    refine ⟨e1, ?_⟩
    by_cases hn : m.namespaces = []
    · have none : ∀ {m : Model}, WfModel m → m.namespaces = [] → pictures expand f m = [] := by
        intro m hw hn
        refine List.filterMap_eq_nil_iff.mpr fun e he => ?_
        have hs : m.shape e.1 = some e.2 := AMap.get_of_mem hw.nodup he
        by_cases hb : e.2.body = .unresolved
        · unfold picture figure; rw [hb]; rfl
        · have := (mem_namespaces hw).mpr ⟨e.1, e.2, ⟨hs, hb⟩, rfl⟩
          rw [hn] at this; cases this
      rw [none hw hn, none hw' (e1 ▸ hn)]
    · exact drawings_differ hf ok ok' (e2 hn)
  · rintro ⟨e1, e2⟩
    rw [e1, e2]

/-! ### An example -/

/-- A structure with a trait of this value, and an operation that takes it. -/
def exDrawn (v : TraitValue) : Model :=
  ⟨.v10, [], [(sid %s"O", ⟨sid %s"O", [], .operation ⟨some (sid %s"S"), none, []⟩⟩),
    (sid %s"S", ⟨sid %s"S", [(sid %s"t", v)], .struct []⟩),
    (sid %s"V", ⟨sid %s"V", [], .service ⟨%s"1", [sid %s"O"], [], []⟩⟩)]⟩

theorem exDrawn_ok (v : TraitValue) (hv : v = none ∨ ∃ x, v = some x ∧ x.Wf) (hx : ∀ x, v = some (.string x) → '\n' ∉ x) :
    WfModel (exDrawn v) ∧ ValidModel (exDrawn v) ∧ OneLineTexts (exDrawn v) := by
  have hk : ∀ id s, (exDrawn v).shape id = some s → (id, s) ∈ (exDrawn v).shapes := fun id s h => AMap.mem_of_get h
  have hnt : WfTraits [] := goodTraits_nil.wf
  refine ⟨⟨AMap.wf_nil, fun k v h => by simp [exDrawn] at h,
    (by show List.Nodup [sid %s"O", sid %s"S", sid %s"V"]; decide), ?_, ?_, ?_⟩, ?_, ?_⟩
  · intro id s h
    have := hk id s h
    simp [exDrawn] at this
    rcases this with ⟨rfl, rfl⟩ | ⟨rfl, rfl⟩ | ⟨rfl, rfl⟩ <;> rfl
  · intro id s h hm
    have := hk id s h
    simp [exDrawn] at this
    rcases this with ⟨rfl, rfl⟩ | ⟨rfl, rfl⟩ | ⟨rfl, rfl⟩ <;> cases hm
  · intro id s h
    have := hk id s h
    simp only [exDrawn, List.mem_cons, Prod.mk.injEq, List.not_mem_nil, or_false] at this
    rcases this with ⟨rfl, rfl⟩ | ⟨rfl, rfl⟩ | ⟨rfl, rfl⟩
    · exact ⟨hnt, trivial⟩
    · refine ⟨⟨by show List.Nodup [sid %s"t"]; decide, fun id x h => ?_⟩, ⟨AMap.wf_nil, nofun, nofun⟩⟩
      obtain ⟨_, h⟩ := get_one h
      rcases hv with rfl | ⟨y, rfl, hy⟩ <;> cases h
      exact hy
    · exact ⟨hnt, AMap.wf_nil⟩
  · intro id s h
    have := hk id s h
    simp only [exDrawn, List.mem_cons, Prod.mk.injEq, List.not_mem_nil, or_false] at this
    rcases this with ⟨rfl, rfl⟩ | ⟨rfl, rfl⟩ | ⟨rfl, rfl⟩
    · exact ⟨valid_sid rfl, nofun, fun id h => by cases h; exact valid_sid rfl, nofun, nofun⟩
    · exact ⟨valid_sid rfl, fun id x h => by obtain ⟨rfl, -⟩ := get_one h; exact ⟨valid_sid rfl, rfl⟩, nofun⟩
    · exact ⟨valid_sid rfl, nofun, nofun, fun id h => by rw [List.mem_singleton.mp h]; exact valid_sid rfl, nofun, nofun⟩
  · intro id s h
    have := hk id s h
    simp only [exDrawn, List.mem_cons, Prod.mk.injEq, List.not_mem_nil, or_false] at this
    rcases this with ⟨rfl, rfl⟩ | ⟨rfl, rfl⟩ | ⟨rfl, rfl⟩
    · exact ⟨nofun, nofun, nofun⟩
    · refine ⟨fun e he _ _ x hx' => ?_, nofun, nofun⟩
      rw [List.mem_singleton.mp he] at hx'
      exact hx x hx'
    · exact ⟨nofun, nofun, fun b h => by cases h; decide⟩

/-- **C78** Whether the value of a trait is true or false is told, but not what is in an array. -/
theorem C78_tells_example (f : Fmt) (hf : PlainFormat f) :
    (∃ t t', write false f (exDrawn (some (.boolean true))) = .ok t ∧ write false f (exDrawn (some (.boolean false))) = .ok t' ∧ t ≠ t') ∧
    (∃ t, write false f (exDrawn (some (.array []))) = .ok t ∧ write false f (exDrawn (some (.array [.boolean true]))) = .ok t) := by
  have wr : ∀ v, (v = none ∨ ∃ x, v = some x ∧ x.Wf) → (∀ x, v = some (.string x) → '\n' ∉ x) → ∃ t, write false f (exDrawn v) = .ok t := by
    intro v h1 h2
    refine (C76_panics_iff false f _ (exDrawn_ok v h1 h2).1).2 fun he => ?_
    obtain ⟨id, s, hs, o, ho, hn⟩ := (C76_panics_iff false f _ (exDrawn_ok v h1 h2).1).1.mp he
    have hm : (id, s) ∈ (exDrawn v).shapes := AMap.mem_of_get hs
    simp only [exDrawn, List.mem_cons, Prod.mk.injEq, List.not_mem_nil, or_false] at hm
    rcases hm with ⟨rfl, rfl⟩ | ⟨rfl, rfl⟩ | ⟨rfl, rfl⟩
    · cases ho
    · cases ho
    · simp only [operationsOf, List.mem_singleton] at ho
      subst ho
      exact hn ⟨some (sid %s"S"), none, []⟩ ⟨_, rfl, rfl⟩
  have b : ∀ b : Bool, ∃ x : Value, some (Value.boolean b) = some x ∧ x.Wf := fun b => ⟨_, rfl, .boolean⟩
  have a : ∀ l : List Value, (∀ v ∈ l, v.Wf) → ∃ x : Value, some (Value.array l) = some x ∧ x.Wf := fun l h => ⟨_, rfl, .array h⟩
  refine ⟨?_, ?_⟩
  · obtain ⟨t, ht⟩ := wr (some (.boolean true)) (.inr (b _)) nofun
    obtain ⟨t', ht'⟩ := wr (some (.boolean false)) (.inr (b _)) nofun
    obtain ⟨w1, w2, w3⟩ := exDrawn_ok (some (.boolean true)) (.inr (b _)) nofun
    obtain ⟨w1', w2', w3'⟩ := exDrawn_ok (some (.boolean false)) (.inr (b _)) nofun
    refine ⟨t, t', ht, ht', fun e => ?_⟩
    have h := ((C78_tells false f hf _ _ w1 w1' w2 w2' w3 w3' t t' ht ht').mp e).2
    have h2 := congrArg (fun l : List Picture => l.map fun p => p.traits.map (·.2)) h
    revert h2
    show (([[Shown.boolean true], []] : List (List Shown)) = [[Shown.boolean false], []]) → False
    intro h2
    injection h2 with h2 _
    injection h2 with h2 _
    injection h2 with h2
    cases h2
  · obtain ⟨t, ht⟩ := wr (some (.array [])) (.inr (a _ nofun)) nofun
    have hv : ∀ v ∈ [Value.boolean true], v.Wf := by intro v h; rw [List.mem_singleton.mp h]; exact .boolean
    obtain ⟨t', ht'⟩ := wr (some (.array [.boolean true])) (.inr (a _ hv)) nofun
    obtain ⟨w1, w2, w3⟩ := exDrawn_ok (some (.array [])) (.inr (a _ nofun)) nofun
    obtain ⟨w1', w2', w3'⟩ := exDrawn_ok (some (.array [.boolean true])) (.inr (a _ hv)) nofun
    have h := (C78_tells false f hf _ _ w1 w1' w2 w2' w3 w3' t t' ht ht').mpr ⟨rfl, rfl⟩
    exact ⟨t, ht, h ▸ ht'⟩

/-- Line breaks are escaped. -/
def exEscape : Str → Str
  | [] => []
  | c :: s => (if c = '\n' then %s"\\n" else if c = '\\' then %s"\\\\" else [c]) ++ exEscape s

/-- The text that was escaped. -/
def exUnescape : Str → Str
  | '\\' :: 'n' :: s => '\n' :: exUnescape s
  | '\\' :: '\\' :: s => '\\' :: exUnescape s
  | c :: s => c :: exUnescape s
  | [] => []

theorem exUnescape_escape (s : Str) : exUnescape (exEscape s) = s := by
  induction s with
  | nil => rfl
  | cons c s ih =>
    rw [exEscape]
    split
    · rename_i h; rw [h]; show '\n' :: exUnescape (exEscape s) = _; rw [ih]
    · split
      · rename_i h; rw [h]; show '\\' :: exUnescape (exEscape s) = _; rw [ih]
      · rename_i h1 h2
        show exUnescape (c :: exEscape s) = _
        rw [exUnescape, ih]
        · intro x e; exact absurd e h2
        · intro x e; exact absurd e h2

/-- The condition on formatting can be met. -/
example : PlainFormat ⟨fun _ => %s"NaN", fun s => '"' :: exEscape s⟩ := by
  refine ⟨fun x c hc => ?_, fun s => ⟨_, rfl, ?_⟩, fun s s' h => ?_⟩
  · have hc : c ∈ %s"NaN" := hc
    simp only [List.mem_cons, List.not_mem_nil, or_false] at hc
    rcases hc with rfl | rfl | rfl <;> decide
  · induction s with
    | nil => decide
    | cons c s ih =>
      rw [exEscape]
      split
      · simp [ih]
      · split
        · simp [ih]
        · rename_i h1 h2
          simp [ih]; exact fun e => h1 e.symm
  · have h : exEscape s = exEscape s' := List.cons.inj h |>.2
    rw [← exUnescape_escape s, h, exUnescape_escape]

end PlantUml
end Verif
