/-
Lemmas: the text of the GraphML writer is an XML document.
-/
import Verif.GraphMLLemmas

namespace Verif
open Spec
namespace GraphML
set_option linter.unusedSimpArgs false
open Spec.Xml
open Spec.GraphML (data nodeOf edge edgesOf definedShapes edgeCount PlainVersions)

/-! ### Characters -/

/-- Characters of shape ids. -/
def Safe (c : Char) : Prop := identChar c = true ∨ c = '.' ∨ c = '#' ∨ c = '$'

theorem safe_ok {c : Char} (h : Safe c) : IsChar c ∧ c ≠ '<' ∧ c ≠ '&' ∧ c ≠ '"' ∧ c ≠ '\r' ∧ c ≠ '\n' ∧ c ≠ '\t' ∧ c ≠ ']' := by
  have h1 : 0x20 ≤ c.toNat ∧ c.toNat ≤ 0x7f := by
    rcases h with h | rfl | rfl | rfl
    · unfold identChar at h
      simp only [Bool.or_eq_true, beq_iff_eq] at h
      rcases h with rfl | h
      · decide
      · simp only [Char.isAlphanum, Char.isAlpha, Char.isUpper, Char.isLower, Char.isDigit, Bool.or_eq_true, decide_eq_true_eq, Bool.and_eq_true, ge_iff_le, UInt32.le_iff_toNat_le] at h
        rcases h with (⟨h1, h2⟩ | ⟨h1, h2⟩) | ⟨h1, h2⟩ <;> simp at h1 h2 <;> omega
    · decide
    · decide
    · decide
  refine ⟨.inr (.inr (.inr (.inl ⟨h1.1, by omega⟩))), ?_⟩
  refine ⟨?_, ?_, ?_, ?_, ?_, ?_, ?_⟩ <;> (rintro rfl; revert h; unfold Safe; decide)

theorem no_bracket {s : Str} (h : ']' ∉ s) : ¬ %s"]]>" <:+: s := by
  rintro ⟨a, b, rfl⟩
  exact h (by simp)

theorem charData_safe {s : Str} (h : ∀ c ∈ s, Safe c) : CharData s := by
  refine ⟨fun c hc => ?_, no_bracket fun hc => ?_⟩
  · obtain ⟨h1, h2, h3, h4, h5, h6, h7, h8⟩ := safe_ok (h c hc)
    exact ⟨h1, h2, h3, h5⟩
  · exact (safe_ok (h _ hc)).2.2.2.2.2.2.2 rfl

theorem attText_safe {s : Str} (h : ∀ c ∈ s, Safe c) : AttText s ∧ attValue s = s := by
  refine ⟨fun c hc => ?_, ?_⟩
  · obtain ⟨h1, h2, h3, h4, h5, h6, h7, h8⟩ := safe_ok (h c hc)
    exact ⟨h1, h2, h3, h4, h5⟩
  · unfold attValue
    conv => rhs; rw [← List.map_id s]
    refine List.map_congr_left fun c hc => ?_
    obtain ⟨h1, h2, h3, h4, h5, h6, h7, h8⟩ := safe_ok (h c hc)
    simp [h6, h7]

theorem safe_ident {s : Str} (h : IsIdentifier s) : ∀ c ∈ s, Safe c := by
  intro c hc
  by_cases h1 : identChar c = true
  · exact .inl h1
  · exact absurd hc (identifier_not_mem h (by simpa using h1))

theorem safe_display {id : ShapeID} (h : id.Valid) : ∀ c ∈ id.display, Safe c := by
  obtain ⟨h1, h2, h3⟩ := h
  have hns : ∀ c ∈ id.ns, Safe c := by
    intro c hc
    by_cases h4 : identChar c = true
    · exact .inl h4
    · by_cases h5 : c = '.'
      · exact .inr (.inl h5)
      · exact absurd hc (namespace_not_mem h1 h5 (by simpa using h4))
  have hn := safe_ident h2
  obtain ⟨ns, n, m⟩ := id
  intro c hc
  cases m with
  | none =>
    simp only [ShapeID.display, List.mem_append, List.mem_cons] at hc
    rcases hc with (hc | rfl | hc) | hc
    · exact hns c hc
    · exact .inr (.inr (.inl rfl))
    · exact hn c hc
    · cases hc
  | some m =>
    simp only [ShapeID.display, List.mem_append, List.mem_cons] at hc
    rcases hc with (hc | rfl | hc) | rfl | hc
    · exact hns c hc
    · exact .inr (.inr (.inl rfl))
    · exact hn c hc
    · exact .inr (.inr (.inr rfl))
    · exact safe_ident (h3 m rfl) c hc

theorem safe_nat (n : Nat) : ∀ c ∈ showNat n, Safe c := by
  intro c hc
  have h1 : c ∈ Nat.toDigits 10 n := by rw [← Nat.toList_repr]; exact hc
  have := Nat.isDigit_of_mem_toDigits (b := 10) (by decide) (by decide) h1
  refine .inl ?_
  simp [identChar, Char.isAlphanum, this]

/-! ### Building blocks -/

theorem content_text {v : Str} (hv : CharData v) : Content v (Spec.GraphML.text v) := by
  cases v with
  | nil => exact .nil
  | cons c v => simpa [Spec.GraphML.text] using Content.text (by simp) hv (by simp) .nil

theorem content_data {k v t : Str} {ns : List Node} (hk : ∀ c ∈ k, Safe c) (hv : CharData v) (h : Content t ns) :
    Content (%s"<data key=\"" ++ (k ++ (%s"\">" ++ (v ++ (%s"</data>" ++ t))))) (data k v :: ns) := by
  have h1 := Content.element (name := %s"data") (t := t) (ns' := ns) ⟨⟨_, _, rfl, by decide⟩, by decide⟩
    (Attrs.cons (ws := [' ']) (name := %s"key") (v := k) (by decide) (by decide) ⟨⟨_, _, rfl, by decide⟩, by decide⟩ (attText_safe hk).1 .nil)
    (by simp) (content_text hv) h
  rw [(attText_safe hk).2] at h1
  unfold data
  simpa using h1

/-- Layout. -/
theorem content_space {s t : Str} {ns : List Node} (hs : s ≠ []) (hb : s.all (fun c => c == ' ' || c == '\n') = true)
    (hn : ∀ s', ns.head? ≠ some (.text s')) (h : Content t ns) : Content (s ++ t) (.text s :: ns) := by
  rw [List.all_eq_true] at hb
  have key : ∀ c ∈ s, c = ' ' ∨ c = '\n' := fun c hc => by simpa using hb c hc
  refine .text hs ⟨fun c hc => ?_, no_bracket fun hc => ?_⟩ hn h
  · rcases key c hc with rfl | rfl <;> decide
  · rcases key _ hc with h | h <;> cases h

/-- What is written for an item can be written in XML. -/
def Ok : Item → Prop
  | .node id type v => (∀ c ∈ id, Safe c) ∧ (∀ c ∈ type, Safe c) ∧ ∀ x, v = some x → CharData x
  | .edge e => (∀ c ∈ e.1, Safe c) ∧ (∀ c ∈ e.2.1, Safe c) ∧ (∀ c ∈ e.2.2.1, Safe c) ∧ ∀ c ∈ e.2.2.2, Safe c

/-- The version of a node, with the layout. -/
def rawVersion : Option Str → List Node
  | none => []
  | some v => [.text %s"\n            ", data %s"version" v]

/-- The element written for an item, with the layout. -/
def raw (n : Nat) : Item → Node
  | .node id type v => .element %s"node" [(%s"id", id)] ([.text %s"\n            ", data %s"type" type] ++
      rawVersion v ++ [.text %s"\n        "])
  | .edge e => .element %s"edge" [(%s"id", %s"e" ++ showNat (n % 65536)), (%s"source", e.1), (%s"target", e.2.1)]
      [.text %s"\n            ", data e.2.2.1 e.2.2.2, .text %s"\n        "]

def raws : Nat → List Item → List Node
  | _, [] => [.text %s"\n    "]
  | n, .node i t v :: l => .text %s"\n        " :: raw n (.node i t v) :: raws n l
  | n, .edge e :: l => .text %s"\n        " :: raw n (.edge e) :: raws (n + 1) l

theorem content_node {id type t : Str} {v : Option Str} {ns : List Node} {n : Nat} (hok : Ok (.node id type v)) (h : Content (%s"\n" ++ t) ns) :
    Content (%s"\n" ++ (nodeLines id type v ++ t)) (.text %s"\n        " :: raw n (.node id type v) :: ns) := by
  obtain ⟨h1, h3, h4⟩ := hok
  have hin : ∃ inner, Content inner ([.text %s"\n            ", data %s"type" type] ++
      rawVersion v ++ [.text %s"\n        "]) ∧
      nodeLines id type v = %s"        <node id=\"" ++ id ++ %s"\">" ++ inner ++ %s"</node>\n" := by
    have hend : Content (%s"\n        " ++ []) [.text %s"\n        "] := content_space (by decide) (by decide) (by simp) .nil
    cases v with
    | none =>
      have := content_data (k := %s"type") (by unfold Safe; decide) (charData_safe h3) hend
      exact ⟨_, content_space (s := %s"\n            ") (by decide) (by decide) (by simp [data]) this, by simp [nodeLines]⟩
    | some x =>
      have h6 := h4 x rfl
      have := content_data (k := %s"version") (by unfold Safe; decide) h6 hend
      have := content_data (k := %s"type") (by unfold Safe; decide) (charData_safe h3)
        (content_space (s := %s"\n            ") (by decide) (by decide) (by simp [data]) this)
      exact ⟨_, content_space (s := %s"\n            ") (by decide) (by decide) (by simp [data]) this, by simp [nodeLines]⟩
  obtain ⟨inner, h5, h6⟩ := hin
  have h7 := Content.element (name := %s"node") ⟨⟨_, _, rfl, by decide⟩, by decide⟩
    (Attrs.cons (ws := [' ']) (name := %s"id") (v := id) (by decide) (by decide) ⟨⟨_, _, rfl, by decide⟩, by decide⟩ (attText_safe h1).1 .nil)
    (by simp) h5 h
  have h8 := content_space (s := %s"\n        ") (by decide) (by decide) (by simp) h7
  rw [(attText_safe h1).2] at h8
  rw [h6]
  unfold raw
  simpa using h8

theorem content_edge {e : Str × Str × Str × Str} {t : Str} {ns : List Node} {n : Nat} (hok : Ok (.edge e)) (h : Content (%s"\n" ++ t) ns) :
    Content (%s"\n" ++ (edgeLines n e ++ t)) (.text %s"\n        " :: raw n (.edge e) :: ns) := by
  obtain ⟨h1, h2, h3, h5⟩ := hok
  have hend : Content (%s"\n        " ++ []) [.text %s"\n        "] := content_space (by decide) (by decide) (by simp) .nil
  have hd := content_data h3 (charData_safe h5) hend
  have hi := content_space (s := %s"\n            ") (by decide) (by decide) (by simp [data]) hd
  have hs : ∀ c ∈ %s"e" ++ showNat (n % 65536), Safe c := by
    intro c hc
    rcases List.mem_cons.mp hc with rfl | hc
    · exact .inl (by decide)
    · exact safe_nat _ c hc
  have h7 := Content.element (name := %s"edge") ⟨⟨_, _, rfl, by decide⟩, by decide⟩
    (Attrs.cons (ws := [' ']) (name := %s"id") (v := %s"e" ++ showNat (n % 65536)) (by decide) (by decide) ⟨⟨_, _, rfl, by decide⟩, by decide⟩ (attText_safe hs).1
      (Attrs.cons (ws := [' ']) (name := %s"source") (v := e.1) (by decide) (by decide) ⟨⟨_, _, rfl, by decide⟩, by decide⟩ (attText_safe h1).1
      (Attrs.cons (ws := [' ']) (name := %s"target") (v := e.2.1) (by decide) (by decide) ⟨⟨_, _, rfl, by decide⟩, by decide⟩ (attText_safe h2).1 .nil)))
    (by simp) hi h
  have h8 := content_space (s := %s"\n        ") (by decide) (by decide) (by simp) h7
  rw [(attText_safe h1).2, (attText_safe h2).2, (attText_safe hs).2] at h8
  unfold raw edgeLines
  simpa using h8

theorem content_items {n : Nat} {items : List Item} (h : ∀ i ∈ items, Ok i) :
    Content (%s"\n" ++ (texts n items ++ %s"    ")) (raws n items) := by
  induction items generalizing n with
  | nil => 
    have : Content (%s"\n    " ++ []) [.text %s"\n    "] := content_space (by decide) (by decide) (by simp) .nil
    exact this
  | cons i items ih =>
    have h2 := fun n => ih (n := n) fun x hx => h x (List.mem_cons_of_mem _ hx)
    cases i with
    | node id type v =>
      have := content_node (n := n) (h _ List.mem_cons_self) (h2 n)
      simpa [texts, raws] using this
    | edge e =>
      have := content_edge (n := n) (h _ List.mem_cons_self) (h2 (n + 1))
      simpa [texts, raws] using this

/-! ### The document -/

theorem content_key {id tgt name type t : Str} {ns : List Node} (h1 : AttText id ∧ attValue id = id) (h2 : AttText tgt ∧ attValue tgt = tgt)
    (h3 : AttText name ∧ attValue name = name) (h4 : AttText type ∧ attValue type = type) (h : Content t ns) :
    Content (%s"<key id=\"" ++ (id ++ (%s"\" for=\"" ++ (tgt ++ (%s"\" attr.name=\"" ++ (name ++ (%s"\" attr.type=\"" ++ (type ++ (%s"\"/>" ++ t)))))))))
      (Spec.GraphML.key id tgt name type [] :: ns) := by
  have h7 := Content.empty (name := %s"key") ⟨⟨_, _, rfl, by decide⟩, by decide⟩
    (Attrs.cons (ws := [' ']) (name := %s"id") (v := id) (by decide) (by decide) ⟨⟨_, _, rfl, by decide⟩, by decide⟩ h1.1
      (Attrs.cons (ws := [' ']) (name := %s"for") (v := tgt) (by decide) (by decide) ⟨⟨_, _, rfl, by decide⟩, by decide⟩ h2.1
      (Attrs.cons (ws := [' ']) (name := %s"attr.name") (v := name) (by decide) (by decide) ⟨⟨_, _, rfl, by decide⟩, by decide⟩ h3.1
      (Attrs.cons (ws := [' ']) (name := %s"attr.type") (v := type) (by decide) (by decide) ⟨⟨_, _, rfl, by decide⟩, by decide⟩ h4.1 .nil))))
    (by simp) h
  rw [h1.2, h2.2, h3.2, h4.2] at h7
  unfold Spec.GraphML.key
  simpa using h7

theorem attText_all {s : Str} (h : s.all (fun c => decide (IsChar c ∧ c ≠ '<' ∧ c ≠ '&' ∧ c ≠ '"' ∧ c ≠ '\r')) = true) : AttText s :=
  fun c hc => of_decide_eq_true (List.all_eq_true.mp h c hc)

theorem attText_lit {s : Str} (h : s.all (fun c => decide (IsChar c ∧ c ≠ '<' ∧ c ≠ '&' ∧ c ≠ '"' ∧ c ≠ '\r')) = true) (hv : attValue s = s) :
    AttText s ∧ attValue s = s :=
  ⟨fun c hc => of_decide_eq_true (List.all_eq_true.mp h c hc), hv⟩

theorem content_memberKey {t : Str} {ns : List Node} (h : Content t ns) :
    Content (%s"<key id=\"member\" for=\"edge\" attr.name=\"member\" attr.type=\"string\">\n        <default>member</default>\n    </key>" ++ t)
      (Spec.GraphML.key %s"member" %s"edge" %s"member" %s"string"
        [.text %s"\n        ", .element %s"default" [] [.text %s"member"], .text %s"\n    "] :: ns) := by
  have h0 : Content (%s"\n    " ++ []) [.text %s"\n    "] := content_space (by decide) (by decide) (by simp) .nil
  have h1 := Content.element (name := %s"default") ⟨⟨_, _, rfl, by decide⟩, by decide⟩ Attrs.nil (by simp)
    (Content.text (s := %s"member") (by decide) (charData_safe (by unfold Safe; decide)) (by simp) .nil) h0
  have h2 := content_space (s := %s"\n        ") (by decide) (by decide) (by simp) h1
  have h7 := Content.element (name := %s"key") ⟨⟨_, _, rfl, by decide⟩, by decide⟩
    (Attrs.cons (ws := [' ']) (name := %s"id") (v := %s"member") (by decide) (by decide) ⟨⟨_, _, rfl, by decide⟩, by decide⟩ (attText_lit (by decide) rfl).1
      (Attrs.cons (ws := [' ']) (name := %s"for") (v := %s"edge") (by decide) (by decide) ⟨⟨_, _, rfl, by decide⟩, by decide⟩ (attText_lit (by decide) rfl).1
      (Attrs.cons (ws := [' ']) (name := %s"attr.name") (v := %s"member") (by decide) (by decide) ⟨⟨_, _, rfl, by decide⟩, by decide⟩ (attText_lit (by decide) rfl).1
      (Attrs.cons (ws := [' ']) (name := %s"attr.type") (v := %s"string") (by decide) (by decide) ⟨⟨_, _, rfl, by decide⟩, by decide⟩ (attText_lit (by decide) rfl).1 .nil))))
    (by simp) h2 h
  exact h7

/-- The element written for the graph, with the layout. -/
def rawGraph (m : Model) (items : List Item) : Node :=
  .element %s"graph" [(%s"id", %s"model"), (%s"edgedefault", %s"directed")] (.text %s"\n        " :: data %s"smithy.version" m.version.display :: raws 0 items)

/-- The root element written, with the layout. -/
def rawRoot (m : Model) (items : List Item) : Node :=
  .element %s"graphml" [(%s"xmlns", %s"http://graphml.graphdrawing.org/xmlns"),
    (%s"xmlns:xsi", %s"http://www.w3.org/2001/XMLSchema-instance"),
    (%s"xsi:schemaLocation", %s"http://graphml.graphdrawing.org/xmlns         http://graphml.graphdrawing.org/xmlns/1.0/graphml.xsd")]
    [.text %s"\n    ", Spec.GraphML.key %s"smithy-version" %s"graph" %s"smithy.version" %s"string" [],
     .text %s"\n    ", Spec.GraphML.key %s"type" %s"node" %s"type" %s"string" [],
     .text %s"\n    ", Spec.GraphML.key %s"version" %s"node" %s"version" %s"string" [],
     .text %s"\n    ", Spec.GraphML.key %s"trait" %s"edge" %s"trait" %s"boolean" [],
     .text %s"\n    ", Spec.GraphML.key %s"member" %s"edge" %s"member" %s"string"
        [.text %s"\n        ", .element %s"default" [] [.text %s"member"], .text %s"\n    "],
     .text %s"\n    ", rawGraph m items, .text %s"\n"]

theorem head_graph (m : Model) (items : List Item) (ns : List Node) : ∀ s', (rawGraph m items :: ns).head? ≠ some (.text s') := by
  intro s' h; simp [rawGraph] at h

theorem head_key (a b c d : Str) (l ns : List Node) : ∀ s', (Spec.GraphML.key a b c d l :: ns).head? ≠ some (.text s') := by
  intro s' h; simp [Spec.GraphML.key] at h

theorem content_graph {m : Model} {items : List Item} (h : ∀ i ∈ items, Ok i) {t : Str} {ns : List Node} (ht : Content t ns) :
    Content (%s"<graph id=\"model\" edgedefault=\"directed\">\n        <data key=\"smithy.version\">" ++ (m.version.display ++ (%s"</data>\n" ++
      (texts 0 items ++ (%s"    </graph>" ++ t))))) (rawGraph m items :: ns) := by
  have hv : ∀ c ∈ m.version.display, Safe c := by
    cases m.version; unfold Safe; decide
  have h1 := content_data (k := %s"smithy.version") (by unfold Safe; decide) (charData_safe hv) (content_items (n := 0) h)
  have h2 := content_space (s := %s"\n        ") (by decide) (by decide) (by simp [data]) h1
  have h7 := Content.element (name := %s"graph") ⟨⟨_, _, rfl, by decide⟩, by decide⟩
    (Attrs.cons (ws := [' ']) (name := %s"id") (v := %s"model") (by decide) (by decide) ⟨⟨_, _, rfl, by decide⟩, by decide⟩ (attText_lit (by decide) rfl).1
      (Attrs.cons (ws := [' ']) (name := %s"edgedefault") (v := %s"directed") (by decide) (by decide) ⟨⟨_, _, rfl, by decide⟩, by decide⟩ (attText_lit (by decide) rfl).1 .nil))
    (by simp) h2 ht
  unfold rawGraph
  simpa [attValue] using h7

theorem document_text {m : Model} {items : List Item} (h : ∀ i ∈ items, Ok i) :
    Document (header m ++ texts 0 items ++ %s"    </graph>\n" ++ %s"</graphml>\n") (rawRoot m items) := by
  have h0 : Content (%s"\n" ++ []) [.text %s"\n"] := content_space (by decide) (by decide) (by simp) .nil
  have h1 := content_space (s := %s"\n    ") (by decide) (by decide) (head_graph _ _ _) (content_graph (m := m) h h0)
  have h2 := content_space (s := %s"\n    ") (by decide) (by decide) (head_key _ _ _ _ _ _) (content_memberKey h1)
  have h3 := content_space (s := %s"\n    ") (by decide) (by decide) (head_key _ _ _ _ _ _)
    (content_key (id := %s"trait") (tgt := %s"edge") (name := %s"trait") (type := %s"boolean") (attText_lit (by decide) rfl) (attText_lit (by decide) rfl) (attText_lit (by decide) rfl) (attText_lit (by decide) rfl) h2)
  have h4 := content_space (s := %s"\n    ") (by decide) (by decide) (head_key _ _ _ _ _ _)
    (content_key (id := %s"version") (tgt := %s"node") (name := %s"version") (type := %s"string") (attText_lit (by decide) rfl) (attText_lit (by decide) rfl) (attText_lit (by decide) rfl) (attText_lit (by decide) rfl) h3)
  have h5 := content_space (s := %s"\n    ") (by decide) (by decide) (head_key _ _ _ _ _ _)
    (content_key (id := %s"type") (tgt := %s"node") (name := %s"type") (type := %s"string") (attText_lit (by decide) rfl) (attText_lit (by decide) rfl) (attText_lit (by decide) rfl) (attText_lit (by decide) rfl) h4)
  have h6 := content_space (s := %s"\n    ") (by decide) (by decide) (head_key _ _ _ _ _ _)
    (content_key (id := %s"smithy-version") (tgt := %s"graph") (name := %s"smithy.version") (type := %s"string") (attText_lit (by decide) rfl) (attText_lit (by decide) rfl) (attText_lit (by decide) rfl) (attText_lit (by decide) rfl) h5)
  have h7 := Content.element (name := %s"graphml") ⟨⟨_, _, rfl, by decide⟩, by decide⟩
    (Attrs.cons (ws := [' ']) (name := %s"xmlns") (v := %s"http://graphml.graphdrawing.org/xmlns") (by decide) (by decide) ⟨⟨_, _, rfl, by decide⟩, by decide⟩ (attText_lit (by decide) rfl).1
      (Attrs.cons (ws := %s"\n    ") (name := %s"xmlns:xsi") (v := %s"http://www.w3.org/2001/XMLSchema-instance") (by decide) (by decide) ⟨⟨_, _, rfl, by decide⟩, by decide⟩ (attText_lit (by decide) rfl).1
      (Attrs.cons (ws := %s"\n    ") (name := %s"xsi:schemaLocation")
        (v := %s"http://graphml.graphdrawing.org/xmlns\n        http://graphml.graphdrawing.org/xmlns/1.0/graphml.xsd") (by decide) (by decide)
        ⟨⟨_, _, rfl, by decide⟩, by decide⟩ (attText_all (by decide)) .nil)))
    (by simp) h6 .nil
  refine ⟨_, ['\n'], ?_, h7, ⟨_, _, _, rfl⟩, by decide⟩
  unfold header keys
  set_option maxRecDepth 100000 in
  simp only [List.append_assoc, List.cons_append, List.nil_append]

/-! ### Without the layout -/

theorem any_text (v : Str) : (Spec.GraphML.text v).any Node.isElement = false := by
  cases v <;> rfl

theorem withoutLayout_text (v : Str) : withoutLayoutAll false (Spec.GraphML.text v) = Spec.GraphML.text v := by
  cases v <;> simp [Spec.GraphML.text, withoutLayoutAll]

/-- The element for an item. -/
def cookedOne (n : Nat) : Item → Node
  | .node id type v => .element %s"node" [(%s"id", id)] (data %s"type" type :: v.toList.map (data %s"version"))
  | .edge e => edge (%s"e" ++ showNat (n % 65536)) e

def cooked : Nat → List Item → List Node
  | _, [] => []
  | n, .node i t v :: l => cookedOne n (.node i t v) :: cooked n l
  | n, .edge e :: l => cookedOne n (.edge e) :: cooked (n + 1) l

theorem cooked_raws (n : Nat) (items : List Item) : withoutLayoutAll true (raws n items) = cooked n items := by
  induction items generalizing n with
  | nil =>
    have hb : (true && Xml.blank %s"\n    ") = true := by decide
    simp only [raws, cooked, withoutLayoutAll, hb, if_true]
  | cons i items ih =>
    cases i with
    | node id type v =>
      have hb : (true && Xml.blank %s"\n        ") = true := by decide
      have hb2 : (true && Xml.blank %s"\n            ") = true := by decide
      simp only [raws, cooked, withoutLayoutAll, raw, hb, if_true, ih, cookedOne]
      cases v with
      | none =>
        simp only [any_text, withoutLayout_text, rawVersion, List.append_nil, List.cons_append, List.nil_append, withoutLayoutAll, data, List.any_cons, Node.isElement, List.any_nil, Bool.or_true, Bool.true_or, Bool.or_false, hb, hb2, if_true, Bool.false_and, Bool.false_eq_true, if_false, Option.toList_none, List.map_nil]
      | some x =>
        simp only [any_text, withoutLayout_text, rawVersion, List.append_nil, List.cons_append, List.nil_append, withoutLayoutAll, data, List.any_cons, Node.isElement, List.any_nil, Bool.or_true, Bool.true_or, Bool.or_false, hb, hb2, if_true, Bool.false_and, Bool.false_eq_true, if_false, Option.toList_some, List.map_cons, List.map_nil]
    | edge e =>
      have hb : (true && Xml.blank %s"\n        ") = true := by decide
      have hb2 : (true && Xml.blank %s"\n            ") = true := by decide
      simp only [raws, cooked, withoutLayoutAll, raw, hb, if_true, ih, cookedOne, edge]
      simp only [any_text, withoutLayout_text, withoutLayoutAll, data, List.any_cons, Node.isElement, List.any_nil, Bool.or_true, Bool.true_or, Bool.or_false, hb, hb2, if_true, Bool.false_and, Bool.false_eq_true, if_false]

theorem withoutLayout_root (m : Model) (items : List Item) :
    withoutLayout (rawRoot m items) = Spec.GraphML.document m.version.display (cooked 0 items) := by
  rw [← cooked_raws]
  have hb : (true && Xml.blank %s"\n    ") = true := by decide
  have hb2 : (true && Xml.blank %s"\n        ") = true := by decide
  have hb3 : (true && Xml.blank %s"\n") = true := by decide
  unfold rawRoot rawGraph Spec.GraphML.document Spec.GraphML.keys
  simp only [any_text, withoutLayout_text, withoutLayout, withoutLayoutAll, data, Spec.GraphML.key, List.any_cons, Node.isElement, List.any_nil, Bool.or_true, Bool.true_or, Bool.or_false, hb, hb2, hb3, if_true, Bool.false_and, Bool.false_eq_true, if_false, List.cons_append, List.nil_append]

/-- The nodes among the items. -/
def nodeItems : List Item → List Node
  | [] => []
  | .node i t v :: l => cookedOne 0 (.node i t v) :: nodeItems l
  | .edge _ :: l => nodeItems l

/-- The edges among the items. -/
def edgeItems : List Item → List (Str × Str × Str × Str)
  | [] => []
  | .node .. :: l => edgeItems l
  | .edge e :: l => e :: edgeItems l

/-- The ids of `k` edges, from the `n`-th on. -/
def ids : Nat → Nat → List Str
  | _, 0 => []
  | n, k + 1 => (%s"e" ++ showNat (n % 65536)) :: ids (n + 1) k

theorem cooked_perm (n : Nat) (items : List Item) :
    (cooked n items).Perm (nodeItems items ++ List.zipWith edge (ids n (edges items)) (edgeItems items)) := by
  induction items generalizing n with
  | nil => exact .nil
  | cons i items ih =>
    cases i with
    | node id type v => exact (ih n).cons _
    | edge e =>
      simp only [cooked, cookedOne, nodeItems, edges, edgeItems, ids, List.zipWith_cons_cons]
      exact ((ih (n + 1)).cons _).trans List.perm_middle.symm

theorem length_ids (n k : Nat) : (ids n k).length = k := by
  induction k generalizing n with
  | zero => rfl
  | succ k ih => simp [ids, ih]

theorem length_edgeItems (items : List Item) : (edgeItems items).length = edges items := by
  induction items with
  | nil => rfl
  | cons i items ih => cases i <;> simp [edgeItems, edges, ih]

theorem nodeItems_append (a b : List Item) : nodeItems (a ++ b) = nodeItems a ++ nodeItems b := by
  induction a with
  | nil => rfl
  | cons i a ih => cases i <;> simp [nodeItems, ih]

theorem edgeItems_append (a b : List Item) : edgeItems (a ++ b) = edgeItems a ++ edgeItems b := by
  induction a with
  | nil => rfl
  | cons i a ih => cases i <;> simp [edgeItems, ih]

theorem nodeItems_edges {α : Type} (f : α → Str × Str × Str × Str) (l : List α) : nodeItems (l.map fun x => .edge (f x)) = [] := by
  induction l with
  | nil => rfl
  | cons i a ih => simp [nodeItems, ih]

theorem edgeItems_edges {α : Type} (f : α → Str × Str × Str × Str) (l : List α) : edgeItems (l.map fun x => .edge (f x)) = l.map f := by
  induction l with
  | nil => rfl
  | cons i a ih => simp [edgeItems, ih]

theorem nodeItems_shape (s : TopLevelShape) : nodeItems (itemsOf s) = if s.isUnresolved then [] else [nodeOf s] := by
  unfold itemsOf
  split
  · rfl
  · simp only [nodeItems, nodeItems_append, nodeItems_edges, List.append_nil, cookedOne, nodeOf]
    cases s.body <;> rfl

theorem members_eq {b : ShapeKind} (h : WfKind b) : members b = Spec.GraphML.membersOf b := by
  have key : ∀ {ms : AMap Str MemberShape}, WfMembers ms →
      ms.map (fun (e : Str × MemberShape) => (e.2.id, e.2.target)) = ms.map fun (e : Str × MemberShape) => (e.1, e.2.target) := by
    intro ms h
    refine List.map_congr_left fun e he => ?_
    rw [h.key e.1 e.2 (AMap.get_of_mem h.nodup he)]
  cases b with
  | struct ms => exact key h
  | union ms => exact key h
  | _ => rfl

theorem edgeItems_shape (s : TopLevelShape) (h : WfKind s.body) : edgeItems (itemsOf s) = if s.isUnresolved then [] else edgesOf s := by
  unfold itemsOf
  split
  · rfl
  · simp only [edgeItems, edgeItems_append, edgeItems_edges, edgesOf, Spec.GraphML.referencesOf, List.map_append, List.map_map, Function.comp_def, members_eq h]

theorem nodeItems_shapes (l : List TopLevelShape) :
    nodeItems (l.flatMap itemsOf) = (l.filter fun s => !s.isUnresolved).map nodeOf := by
  induction l with
  | nil => rfl
  | cons s l ih =>
    rw [List.flatMap_cons, nodeItems_append, ih, nodeItems_shape, List.filter_cons]
    cases s.isUnresolved <;> rfl

theorem edgeItems_shapes (l : List TopLevelShape) (h : ∀ s ∈ l, WfKind s.body) :
    edgeItems (l.flatMap itemsOf) = (l.filter fun s => !s.isUnresolved).flatMap edgesOf := by
  induction l with
  | nil => rfl
  | cons s l ih =>
    rw [List.flatMap_cons, edgeItems_append, ih fun x hx => h x (List.mem_cons_of_mem _ hx), edgeItems_shape s (h s List.mem_cons_self), List.filter_cons]
    cases s.isUnresolved <;> rfl

theorem mem_shapes {m : Model} (hw : WfModel m) {s : TopLevelShape} : s ∈ m.shapesList ↔ m.shape s.id = some s := by
  unfold Model.shapesList AMap.values
  rw [List.mem_map]
  constructor
  · rintro ⟨⟨id, s⟩, h, rfl⟩
    have := AMap.get_of_mem hw.nodup h
    simp only at this ⊢
    rw [hw.key id s this]; exact this
  · intro h
    exact ⟨(s.id, s), AMap.mem_of_get h, rfl⟩

theorem items_model {m : Model} (hw : WfModel m) (n : Nat) : Spec.GraphML.Items m (cooked n (m.shapesList.flatMap itemsOf)) := by
  have h1 := cooked_perm n (m.shapesList.flatMap itemsOf)
  rw [nodeItems_shapes, edgeItems_shapes] at h1
  · refine ⟨_, _, List.Perm.refl _, ?_, h1⟩
    rw [length_ids, ← length_edgeItems, edgeItems_shapes]
    · rfl
    · exact fun s hs => (hw.shapes _ s ((mem_shapes hw).mp hs)).body
  · exact fun s hs => (hw.shapes _ s ((mem_shapes hw).mp hs)).body

theorem edges_model {m : Model} (hw : WfModel m) : edges (m.shapesList.flatMap itemsOf) = edgeCount m := by
  rw [← length_edgeItems, edgeItems_shapes]
  · rfl
  · exact fun s hs => (hw.shapes _ s ((mem_shapes hw).mp hs)).body

/-! ### What is written -/

theorem write_ok {checked : Bool} {m : Model} (h : ¬ (checked = true ∧ 65535 < edges (m.shapesList.flatMap itemsOf))) :
    write checked m = .ok (header m ++ texts 0 (m.shapesList.flatMap itemsOf) ++ %s"    </graph>\n" ++ %s"</graphml>\n") := by
  have := (does_model (checked := checked) m 0 (header m) (fun _ => by decide)).1 (by rw [Nat.zero_add]; exact h)
  unfold write
  change (match Visitor.walkModel m (visitor checked) ⟨UInt16.ofNat 0, header m⟩ with | (st, .ok ()) => _ | (_, .error e) => _) = _
  rw [this]

theorem write_panic {m : Model} (h : 65535 < edges (m.shapesList.flatMap itemsOf)) : write true m = .error .panic := by
  obtain ⟨st, this⟩ := (does_model (checked := true) m 0 (header m) (fun _ => by decide)).2 ⟨rfl, by rw [Nat.zero_add]; exact h⟩
  unfold write
  change (match Visitor.walkModel m (visitor true) ⟨UInt16.ofNat 0, header m⟩ with | (st, .ok ()) => _ | (_, .error e) => _) = _
  rw [this]

end GraphML
end Verif
