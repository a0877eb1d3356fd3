/-
Faults of accepted texts: what the values are.
-/
import Verif.IdlFaults
import Mathlib.Data.List.Forall2

namespace Verif
open Peg Spec Idl Spec.Faults

theorem parts_one {r : IdlRule} {p x : Pair IdlRule} (h : p.intoInner = [x]) : parts r p = if x.asRule = r then [x] else [] := by
  unfold parts
  rw [h]
  by_cases hx : x.asRule = r <;> simp [hx]

theorem parts_all {r : IdlRule} {p : Pair IdlRule} (h : ∀ q ∈ p.intoInner, q.asRule = r) : parts r p = p.intoInner := by
  unfold parts
  exact List.filter_eq_self.mpr fun q hq => by simp [h q hq]

theorem mem_parts {r : IdlRule} {p q : Pair IdlRule} : q ∈ parts r p ↔ q ∈ p.intoInner ∧ q.asRule = r := by simp [parts]

/-- The pair is for a value, and the value is read from it. -/
structure Reads (flt : Str → Option F64) (p : Pair IdlRule) (v : Value) : Prop where
  made : Made idlGrammar p
  rule : p.asRule = .nodeValue
  value : IdlParser.nodeValueOf flt p = .ok v

/-- The same for an entry. -/
def ReadsEntry (flt : Str → Option F64) (e : Str × Pair IdlRule) (x : Str × Value) : Prop := e.1 = x.1 ∧ Reads flt e.2 x.2

namespace IdlParser
open IdlRule
variable {flt : Str → Option F64}

theorem arrayOf_reads {ps : List (Pair IdlRule)} (h : ∀ p ∈ ps, Made idlGrammar p) : ∀ vs, arrayOf flt ps = .ok vs → List.Forall₂ (Reads flt) ps vs := by
  induction ps with
  | nil => intro vs hv; unfold arrayOf at hv; cases hv; exact .nil
  | cons p ps ih =>
    intro vs hv
    unfold arrayOf at hv
    split at hv
    · next hr =>
      split at hv
      · cases hv
      · next v hv1 =>
        split at hv
        · cases hv
        · next ws hws =>
          cases hv
          exact .cons ⟨h p (by simp), hr, hv1⟩ (ih (fun q hq => h q (by simp [hq])) ws hws)
    · cases hv

theorem kvpOf_reads {p : Pair IdlRule} (h : Made idlGrammar p) (hr : Keyed p.asRule) {e : Str × Value} (he : kvpOf flt p = .ok e) :
    ∃ k v, p.intoInner = [k, v] ∧ (k.asRule = quotedText ∨ k.asRule = identifier) ∧ v.asRule = nodeValue ∧ ReadsEntry flt (k.asStr, v) e := by
  obtain ⟨k, v, hx, hk, hv, hkr, hvr⟩ := keyed_inner h hr
  refine ⟨k, v, hx, hkr, hvr, ?_⟩
  obtain ⟨r, t, ps⟩ := p
  change ps = [k, v] at hx
  subst hx
  unfold kvpOf at he
  have : kvpLoop flt none none [k, v] = kvpLoop flt (some k.asStr) none [v] := by
    rcases hkr with hkr | hkr <;> (rw [kvpLoop]; simp only [hkr])
  rw [this] at he
  unfold kvpLoop at he
  rw [hvr] at he
  dsimp only at he
  split at he
  · cases he
  · next x hx =>
    unfold kvpLoop at he
    cases he
    exact ⟨rfl, hv, hvr, hx⟩

theorem entries_one {p k v : Pair IdlRule} (hx : p.intoInner = [k, v]) (hk : k.asRule = quotedText ∨ k.asRule = identifier) (hv : v.asRule = nodeValue) :
    ((parts identifier p ++ parts quotedText p).flatMap fun k => (parts nodeValue p).map fun v => (k.asStr, v)) = [(k.asStr, v)] := by
  unfold parts
  rw [hx]
  rcases hk with hk | hk <;> simp [hk, hv]

theorem objectOf_reads {ps : List (Pair IdlRule)} (h : ∀ p ∈ ps, Made idlGrammar p) (hr : ∀ p ∈ ps, p.asRule = nodeObjectKvp) : ∀ o o', objectOf flt o ps = .ok o' →
    ∃ es, o' = es.foldl (fun m e => AMap.insert m e.1 e.2) o ∧ List.Forall₂ (ReadsEntry flt)
      (ps.flatMap fun e => (parts identifier e ++ parts quotedText e).flatMap fun k => (parts nodeValue e).map fun v => (k.asStr, v)) es := by
  induction ps with
  | nil => intro o o' ho; unfold objectOf at ho; cases ho; exact ⟨[], rfl, .nil⟩
  | cons p ps ih =>
    intro o o' ho
    unfold objectOf at ho
    rw [if_pos (hr p (by simp))] at ho
    split at ho
    · cases ho
    · next k v he =>
      obtain ⟨es, h1, h2⟩ := ih (fun q hq => h q (by simp [hq])) (fun q hq => hr q (by simp [hq])) _ _ ho
      obtain ⟨kp, vp, hx, hk, hv, hre⟩ := kvpOf_reads (h p (by simp)) (.inl (hr p (by simp))) he
      refine ⟨(k, v) :: es, h1, ?_⟩
      rw [List.flatMap_cons, entries_one hx hk hv]
      exact .cons hre h2

theorem entriesOf_reads {rule : IdlRule} (hk : Keyed rule) {ps : List (Pair IdlRule)} (h : ∀ p ∈ ps, Made idlGrammar p) (hr : ∀ p ∈ ps, p.asRule = rule) :
    ∀ o o', entriesOf flt rule o ps = .ok o' →
    ∃ es, o' = es.foldl (fun m e => AMap.insert m e.1 e.2) o ∧ List.Forall₂ (ReadsEntry flt)
      (ps.flatMap fun e => (parts identifier e ++ parts quotedText e).flatMap fun k => (parts nodeValue e).map fun v => (k.asStr, v)) es := by
  induction ps with
  | nil => intro o o' ho; unfold entriesOf at ho; cases ho; exact ⟨[], rfl, .nil⟩
  | cons p ps ih =>
    intro o o' ho
    unfold entriesOf at ho
    rw [if_pos (hr p (by simp))] at ho
    obtain ⟨⟨k, v⟩, he, ho⟩ := ok_of_bind ho
    obtain ⟨es, h1, h2⟩ := ih (fun q hq => h q (by simp [hq])) (fun q hq => hr q (by simp [hq])) _ _ ho
    obtain ⟨kp, vp, hx, hk, hv, hre⟩ := kvpOf_reads (h p (by simp)) (by rw [hr p (by simp)]; exact hk) he
    refine ⟨(k, v) :: es, h1, ?_⟩
    rw [List.flatMap_cons, entries_one hx hk hv]
    exact .cons hre h2

end IdlParser

open IdlParser IdlRule

/-- What is inside a value that is read. -/
theorem Reads.inner {flt : Str → Option F64} {p : Pair IdlRule} {v : Value} (h : Reads flt p v) :
    ∃ x, p.intoInner = [x] ∧ Made idlGrammar x ∧ x.asRule ∈ [nodeArray, nodeObject, number, kwTrue, kwFalse, kwNull, shapeId, textBlock, quotedText] ∧
      innerValue flt x = .ok v := by
  obtain ⟨x, hx, hm, hl⟩ := IdlParser.value_inner h.made h.rule
  refine ⟨x, hx, hm, hl, ?_⟩
  have hv := h.value
  obtain ⟨r, t, ps⟩ := p
  change ps = [x] at hx
  subst hx
  unfold nodeValueOf firstValue at hv
  exact hv

theorem ok_of_map {α β : Type} {x : Except Err α} {f : α → β} {b : β} (h : x.map f = .ok b) : ∃ a, x = .ok a ∧ f a = b := by
  cases x with
  | error e => cases h
  | ok a => cases h; exact ⟨a, rfl, rfl⟩

/-- What kind of value is read, and what the pair says about it. -/
inductive Kinds (flt : Str → Option F64) (p : Pair IdlRule) : Value → Prop
  | text {t} : (∀ u, IsText p u ↔ u = t) → (∀ ws, ¬ IsArray p ws) → (∀ es, ¬ IsObject p es) → Kinds flt p (.string t)
  | array {ws vs} : (∀ u, ¬ IsText p u) → IsArray p ws → (∀ ws', IsArray p ws' → ws' = ws) → (∀ es, ¬ IsObject p es) →
      List.Forall₂ (Reads flt) ws vs → Kinds flt p (.array vs)
  | object {es xs} : (∀ u, ¬ IsText p u) → (∀ ws, ¬ IsArray p ws) → IsObject p es → (∀ es', IsObject p es' → es' = es) →
      List.Forall₂ (ReadsEntry flt) es xs → Kinds flt p (.object (AMap.ofList xs))
  | other {v} : (∀ u, ¬ IsText p u) → (∀ ws, ¬ IsArray p ws) → (∀ es, ¬ IsObject p es) → (∀ t, v ≠ .string t) → (∀ vs, v ≠ .array vs) →
      (∀ o, v ≠ .object o) → Kinds flt p v

theorem Reads.kinds {flt : Str → Option F64} {p : Pair IdlRule} {v : Value} (h : Reads flt p v) : Kinds flt p v := by
  obtain ⟨x, hx, hm, hl, hv⟩ := h.inner
  obtain ⟨r, t, ps⟩ := x
  have one := fun r' => parts_one (r := r') hx
  unfold innerValue at hv
  simp only [Pair.asRule, List.mem_cons, List.not_mem_nil, or_false] at hl
  rcases hl with rfl | rfl | rfl | rfl | rfl | rfl | rfl | rfl | rfl
  · obtain ⟨vs, hvs, rfl⟩ := ok_of_map hv
    have hall : ∀ q ∈ ps, q.asRule = nodeValue := fun q hq => by simpa using made_emits (r := nodeArray) hm rfl rfl q hq
    refine .array (ws := ps) ?_ ⟨.mk nodeArray t ps, by rw [one]; simp [Pair.asRule], (parts_all (p := .mk nodeArray t ps) hall).symm⟩ ?_ ?_ (arrayOf_reads hm.inner vs hvs)
    · intro u hu; unfold IsText at hu; simp [one, Pair.asRule] at hu
    · rintro ws ⟨y, hy, rfl⟩
      rw [one] at hy
      simp [Pair.asRule] at hy
      subst hy
      exact parts_all (p := .mk nodeArray t ps) hall
    · intro u hu; unfold IsObject at hu; simp [one, Pair.asRule] at hu
  · obtain ⟨o, ho, rfl⟩ := ok_of_map hv
    have hall : ∀ q ∈ ps, q.asRule = nodeObjectKvp := fun q hq => by simpa using made_emits (r := nodeObject) hm rfl rfl q hq
    obtain ⟨es, rfl, he⟩ := objectOf_reads hm.inner hall _ _ ho
    refine .object (es := entries nodeObjectKvp (.mk nodeObject t ps)) ?_ ?_ ⟨.mk nodeObject t ps, by rw [one]; simp [Pair.asRule], rfl⟩ ?_ ?_
    · intro u hu; unfold IsText at hu; simp [one, Pair.asRule] at hu
    · intro u hu; unfold IsArray at hu; simp [one, Pair.asRule] at hu
    · rintro ws ⟨y, hy, rfl⟩
      rw [one] at hy
      simp [Pair.asRule] at hy
      subst hy
      rfl
    · unfold entries
      rw [parts_all (p := .mk nodeObject t ps) hall]
      exact he
  · obtain ⟨n, -, rfl⟩ := ok_of_map hv
    refine .other ?_ ?_ ?_ (by simp) (by simp) (by simp)
    · intro u hu; unfold IsText at hu; simp [one, Pair.asRule] at hu
    · intro u hu; unfold IsArray at hu; simp [one, Pair.asRule] at hu
    · intro u hu; unfold IsObject at hu; simp [one, Pair.asRule] at hu
  · cases hv
    refine .other ?_ ?_ ?_ (by simp) (by simp) (by simp)
    · intro u hu; unfold IsText at hu; simp [one, Pair.asRule] at hu
    · intro u hu; unfold IsArray at hu; simp [one, Pair.asRule] at hu
    · intro u hu; unfold IsObject at hu; simp [one, Pair.asRule] at hu
  · cases hv
    refine .other ?_ ?_ ?_ (by simp) (by simp) (by simp)
    · intro u hu; unfold IsText at hu; simp [one, Pair.asRule] at hu
    · intro u hu; unfold IsArray at hu; simp [one, Pair.asRule] at hu
    · intro u hu; unfold IsObject at hu; simp [one, Pair.asRule] at hu
  · cases hv
    refine .other ?_ ?_ ?_ (by simp) (by simp) (by simp)
    · intro u hu; unfold IsText at hu; simp [one, Pair.asRule] at hu
    · intro u hu; unfold IsArray at hu; simp [one, Pair.asRule] at hu
    · intro u hu; unfold IsObject at hu; simp [one, Pair.asRule] at hu
  · cases hv
    refine .text ?_ ?_ ?_
    · intro u; unfold IsText; simp [one, Pair.asRule, Pair.asStr, eq_comm]
    · intro u hu; unfold IsArray at hu; simp [one, Pair.asRule] at hu
    · intro u hu; unfold IsObject at hu; simp [one, Pair.asRule] at hu
  · obtain ⟨w, qs, rfl⟩ := block_inner hm
    cases hv
    refine .text ?_ ?_ ?_
    · intro u
      have two := fun r' => parts_one (r := r') (p := .mk textBlock t [.mk blockQuotedChars w qs]) rfl
      unfold IsText; simp [one, two, Pair.asRule, Pair.asStr, eq_comm]
    · intro u hu; unfold IsArray at hu; simp [one, Pair.asRule] at hu
    · intro u hu; unfold IsObject at hu; simp [one, Pair.asRule] at hu
  · obtain ⟨y, hy, hy'⟩ := (made_exactly (r := quotedText) hm rfl rfl).one
    change ps = [y] at hy
    subst hy
    dsimp only [textOf] at hv
    rw [if_pos (by simpa using hy')] at hv
    cases hv
    refine .text ?_ ?_ ?_
    · intro u
      have two := fun r' => parts_one (r := r') (p := .mk quotedText t [y]) rfl
      rw [show y.asRule = quotedChars by simpa using hy'] at two
      unfold IsText; simp [one, two, Pair.asRule, eq_comm]
    · intro u hu; unfold IsArray at hu; simp [one, Pair.asRule] at hu
    · intro u hu; unfold IsObject at hu; simp [one, Pair.asRule] at hu

/-- The last entry is the one that is kept. -/
theorem last_iff (es : List (Str × Pair IdlRule)) (k : Str) (v : Pair IdlRule) : Last es k v ↔ AMap.get (AMap.ofList es) k = some v := by
  rw [AMap.get_ofList]
  have key : ∀ l : List (Str × Pair IdlRule), AMap.get l k = some v ↔ ∃ a b, l = a ++ (k, v) :: b ∧ ∀ e ∈ a, e.1 ≠ k := by
    intro l
    induction l with
    | nil => simp
    | cons e l ih =>
      obtain ⟨k', v'⟩ := e
      rw [AMap.get_cons]
      by_cases hk : k' = k
      · subst hk
        simp only [if_true]
        constructor
        · rintro ⟨⟩; exact ⟨[], l, rfl, by simp⟩
        · rintro ⟨a, b, h, hn⟩
          cases a with
          | nil => cases h; rfl
          | cons x a => cases h; exact absurd rfl (hn (k', v') (by simp))
      · simp only [hk, if_false]
        rw [ih]
        constructor
        · rintro ⟨a, b, rfl, hn⟩
          exact ⟨(k', v') :: a, b, rfl, by intro e he; rcases List.mem_cons.mp he with rfl | he; exacts [hk, hn e he]⟩
        · rintro ⟨a, b, h, hn⟩
          cases a with
          | nil => cases h; exact absurd rfl hk
          | cons x a => cases h; exact ⟨a, b, rfl, fun e he => hn e (by simp [he])⟩
  rw [key]
  constructor
  · rintro ⟨a, b, rfl, hn⟩
    exact ⟨b.reverse, a.reverse, by simp, fun e he => hn e (by simpa using he)⟩
  · rintro ⟨a, b, h, hn⟩
    exact ⟨b.reverse, a.reverse, by rw [← List.reverse_reverse es, h]; simp, fun e he => hn e (by simpa using he)⟩

/-- The same entries are kept. -/
theorem last_reads {flt : Str → Option F64} {es : List (Str × Pair IdlRule)} {xs : List (Str × Value)} (h : List.Forall₂ (ReadsEntry flt) es xs) (k : Str) :
    (∀ p, Last es k p → ∃ v, AMap.get (AMap.ofList xs) k = some v ∧ Reads flt p v) ∧
    (∀ v, AMap.get (AMap.ofList xs) k = some v → ∃ p, Last es k p ∧ Reads flt p v) := by
  have key : ∀ {es : List (Str × Pair IdlRule)} {xs : List (Str × Value)}, List.Forall₂ (ReadsEntry flt) es xs →
      (∀ p, AMap.get es k = some p → ∃ v, AMap.get xs k = some v ∧ Reads flt p v) ∧ (∀ v, AMap.get xs k = some v → ∃ p, AMap.get es k = some p ∧ Reads flt p v) := by
    intro es xs h
    induction h with
    | nil => exact ⟨by simp, by simp⟩
    | @cons e x es xs he _ ih =>
      obtain ⟨k1, p1⟩ := e
      obtain ⟨k2, v2⟩ := x
      obtain ⟨h1, h2⟩ := he
      simp only at h1 h2
      subst h1
      rw [AMap.get_cons, AMap.get_cons]
      by_cases hk : k1 = k
      · simp only [hk, if_true]
        exact ⟨by rintro _ ⟨⟩; exact ⟨_, rfl, h2⟩, by rintro _ ⟨⟩; exact ⟨_, rfl, h2⟩⟩
      · simp only [hk, if_false]
        exact ih
  simp only [last_iff, AMap.get_ofList]
  exact key (List.rel_reverse h)

end Verif
