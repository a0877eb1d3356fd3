/-
Traits and documentation of the Smithy IDL: what is read is what the text says.
-/
import Verif.IdlLooseNodes
import Verif.IdlLayoutTraits

namespace Verif
open Peg Spec Spec.Idl
open IdlGrammar (r keyed)

theorem ok_of_bind {α β : Type} {x : Except Err α} {f : α → Except Err β} {b : β} (h : (x >>= f) = .ok b) : ∃ a, x = .ok a ∧ f a = .ok b := by
  cases x with
  | error e => cases h
  | ok a => exact ⟨a, rfl, h⟩

theorem ok_of_unwrap {α : Type} {x : Except Err α} {a : α} (h : unwrap x = .ok a) : x = .ok a := by
  cases x with
  | error e => cases h
  | ok b => exact h

/-! ### Things with blank text between them -/

section
variable {α : Type} {P : α → Str → Prop}
open Loose

theorem spaced_before {as : List α} {w u : Str} (hw : Blank w) (h : Spaced P as u) : Spaced P as (w ++ u) := by
  cases h with
  | nil h => exact .nil (blank_append hw h)
  | @cons w' a t as u h ha hs =>
    have := Spaced.cons (blank_append hw h) ha hs
    simpa using this

theorem spaced_append {as bs : List α} {u v : Str} (h : Spaced P as u) (h' : Spaced P bs v) : Spaced P (as ++ bs) (u ++ v) := by
  induction h with
  | nil h => exact spaced_before h h'
  | @cons w a t as u h ha _ ih =>
    have := Spaced.cons h ha ih
    simpa using this

theorem spaced_after {as : List α} {w u : Str} (h : Spaced P as u) (hw : Blank w) : Spaced P as (u ++ w) := by
  have := spaced_append h (Spaced.nil hw)
  simpa using this

theorem spaced_one {a : α} {t : Str} (h : P a t) : Spaced P [a] t := by
  have := Spaced.cons Blank.nil h (Spaced.nil Blank.nil)
  simpa using this

theorem spaced_mono {Q : α → Str → Prop} {as : List α} {u : Str} (h : Spaced P as u) (hq : ∀ a t, P a t → Q a t) : Spaced Q as u := by
  induction h with
  | nil h => exact .nil h
  | cons h ha _ ih => exact .cons h (hq _ _ ha) ih

/-- The parts of a repetition are things with blank text between them. -/
theorem spaced_parts {xs : List (Str × List (Pair IdlRule))} {Q : Pair IdlRule → Str → Prop} (h : ∀ x ∈ xs, Spaced Q x.2 x.1) :
    Spaced Q (xs.flatMap (·.2)) (xs.flatMap (·.1)) := by
  induction xs with
  | nil => exact .nil .nil
  | cons x xs ih => exact spaced_append (h x (by simp)) (ih fun y hy => h y (by simp [hy]))

/-- What `each` makes of pairs. -/
theorem spaced_each {rule : IdlRule} {f : Pair IdlRule → Except Err α} {ps : List (Pair IdlRule)} {u : Str}
    (h : Spaced (fun p t => Yields (P · t) (f p)) ps u) : Yields (fun as => Spaced P as u) (SelParser.each rule f ps) := by
  induction h with
  | nil h =>
    intro as e
    cases e
    exact .nil h
  | @cons w p t ps u hw hp _ ih =>
    intro as e
    unfold SelParser.each at e
    split at e
    · obtain ⟨a, h1, e⟩ := ok_of_bind e
      obtain ⟨as', h2, e⟩ := ok_of_bind e
      cases e
      exact .cons hw (hp a h1) (ih as' h2)
    · cases e

end

/-! ### Names -/

theorem name_says {t : Str} {n : ShapeName} (ht : AnyId t) (h : ShapeName.fromStr t = .ok n) : NameText n t := by
  rcases ht with ⟨n', hn⟩ | ⟨a, m, ha, hm, rfl⟩
  · rw [nameText_fromStr hn] at h
    cases h
    exact hn
  · exfalso
    cases n with
    | local' l =>
      have := (((C24_name_syntax (a ++ %s"$" ++ m)).2.2.1 l).mp h).2
      exact absurd (identChar_of_identifier this (c := '$') (by simp)) (by decide)
    | qualified id =>
      have hf := ((C24_name_syntax (a ++ %s"$" ++ m)).2.1 id).mp h
      have hd := (C24_name_syntax (a ++ %s"$" ++ m)).1 _ h
      have hx : '#' ∈ a ++ %s"$" ++ m := by
        rw [← hd]
        simp [ShapeName.display, ShapeID.display]
      simp only [List.mem_append, List.mem_singleton] at hx
      rcases hx with (hx | hx) | hx
      · exact absurd (identChar_of_identifier (IdlParser.ident_isIdentifier ha) hx) (by decide)
      · exact absurd hx (by decide)
      · exact absurd (identChar_of_identifier (IdlParser.ident_isIdentifier hm) hx) (by decide)

/-! ### Traits -/

theorem unquoted_smithy {k : Str} (h : SmithyIdent k) : unquoted k = k := by
  unfold unquoted
  split
  · next e =>
    exfalso
    cases h with
    | plain ha _ => simp at e; subst e; exact absurd ha (by decide)
    | underscore _ _ => simp at e
  · rfl

theorem unquoted_quoted (u : Str) : unquoted (%s"\"" ++ u ++ %s"\"") = u := by
  simp [unquoted]

/-- A value or an entry between the parentheses of a trait. -/
def TraitPart (flt : Str → Option F64) (p : Pair IdlRule) (t : Str) : Prop :=
  (p.asRule = .traitStructureKvp ∧ ∃ k b b' x kp vp, KeyedText flt %s":" t p.intoInner k b b' x kp vp) ∨ NodePair flt t p

theorem structureKvp_says {flt : Str → Option F64} {t : Str} {ps k b b' x kp vp} (h : KeyedText flt %s":" t ps k b b' x kp vp) :
    Yields (fun e => e.1 = unquoted k ∧ Loose.ValueText flt e.2 x) (IdlParser.structureKvp flt none none ps) := by
  obtain ⟨hk, -, -, ⟨h1, h2⟩, -, rfl⟩ := h
  rintro ⟨k', v⟩ hv
  have hend : ∀ i, IdlParser.structureKvp flt (some i) none [vp] = .ok (k', v) → k' = i ∧ Loose.ValueText flt v x := by
    intro i hv
    unfold IdlParser.structureKvp at hv
    rw [h1] at hv
    simp only at hv
    obtain ⟨y, hy, hv⟩ := ok_of_bind hv
    cases hv
    exact ⟨rfl, h2 _ hy⟩
  cases hk with
  | ident hi =>
    rw [unquoted_smithy hi]
    exact hend _ hv
  | quoted hu =>
    rw [unquoted_quoted]
    exact hend _ hv

theorem traitParts_says {flt : Str → Option F64} {ps : List (Pair IdlRule)} {s : Str} (h : Loose.Spaced (TraitPart flt) ps s) : ∀ id v ms,
    Yields (fun x => x.1 = id ∧ ∃ (vs : List Value) (es : List (Str × Value)), x.2.1 = vs.getLast?.or v ∧
      x.2.2 = (es.map fun e => (unquoted e.1, e.2)).foldl (fun m e => AMap.insert m e.1 e.2) ms ∧
      (es = [] → Loose.Spaced (Loose.ValueText flt) vs s) ∧ (vs = [] → Loose.Spaced (Loose.EntryText flt %s":") es s))
      (IdlParser.traitParts flt id v ms ps) := by
  induction h with
  | @nil w hw =>
    intro id v ms x hx
    cases hx
    exact ⟨rfl, [], [], by simp, rfl, fun _ => .nil hw, fun _ => .nil hw⟩
  | @cons w p t ps u hw hp _ ih =>
    intro id v ms x hx
    rcases hp with ⟨hr, k, b, b', y, kp, vp, hk⟩ | ⟨hr, hn⟩
    · unfold IdlParser.traitParts at hx
      rw [hr] at hx
      simp only at hx
      obtain ⟨⟨k', val⟩, h1, h2⟩ := ok_of_bind hx
      obtain ⟨e1, e2⟩ := structureKvp_says hk _ h1
      obtain ⟨i1, vs, es, i2, i3, i4, i5⟩ := ih _ _ _ _ h2
      refine ⟨i1, vs, (k, val) :: es, i2, ?_, fun e => absurd e (by simp), fun e => ?_⟩
      · rw [i3]
        simp only at e1
        subst e1
        rfl
      · exact .cons hw ⟨b, b', y, hk.key.text, hk.before, hk.behind, e2, hk.text⟩ (i5 e)
    · unfold IdlParser.traitParts at hx
      rw [hr] at hx
      simp only at hx
      obtain ⟨val, h1, h2⟩ := ok_of_bind hx
      obtain ⟨i1, vs, es, i2, i3, i4, i5⟩ := ih _ _ _ _ h2
      refine ⟨i1, val :: vs, es, ?_, i3, fun e => ?_, fun e => absurd e (by simp)⟩
      · rw [i2, List.getLast?_cons]
        cases vs.getLast? <;> rfl
      · exact .cons hw (hn val h1) (i4 e)

theorem insert_ne_nil {K V : Type} [DecidableEq K] (l : List (K × V)) : ∀ (m : AMap K V), l.foldl (fun m e => AMap.insert m e.1 e.2) m = [] → l = [] ∧ m = [] := by
  induction l with
  | nil => intro m h; exact ⟨rfl, h⟩
  | cons e l ih =>
    intro m h
    have h0 : AMap.insert m e.1 e.2 = [] := (ih _ h).2
    have hg : AMap.get (AMap.insert m e.1 e.2) e.1 = some e.2 := by rw [AMap.get_insert, if_pos rfl]
    rw [h0] at hg
    cases hg

theorem traitBody_parts {flt : Str → Option F64} {s t s' ps} (h : Got false (r .traitBody) s t s' ps) :
    ∃ u, t = %s"(" ++ u ++ %s")" ∧ Loose.Spaced (TraitPart flt) ps u := by
  obtain ⟨t1, _, _, _, _, h1, k1, rfl, rfl⟩ := (h.inv_silent rfl).inv_seq
  obtain ⟨w, _, _, _, _, h2, k2, rfl, rfl⟩ := k1.inv_seq
  obtain ⟨t3, _, _, t4, _, h3, h4, rfl, rfl⟩ := k2.inv_seq
  obtain ⟨rfl, rfl⟩ := h1.inv_str
  obtain ⟨hw, rfl, -⟩ := got_ws h2
  obtain ⟨rfl, rfl⟩ := h4.inv_str
  obtain ⟨⟨xs, hx, rfl, rfl⟩, -⟩ := h3.inv_rep
  refine ⟨w ++ xs.flatMap (·.1), by simp, ?_⟩
  simp only [List.nil_append, List.append_nil]
  refine spaced_before hw (spaced_parts fun x hm => ?_)
  obtain ⟨_, _, hg⟩ := hx x hm
  obtain ⟨y, _, q1, w', q2, g1, g2, e1, e2⟩ := hg.inv_seq
  obtain ⟨hw', rfl, -⟩ := got_ws g2
  rw [e1, e2, List.append_nil]
  refine spaced_after ?_ hw'
  have kvp : ∀ {s t s' ps}, Got false (r .traitStructureKvp) s t s' ps → Loose.Spaced (TraitPart flt) ps t := by
    intro s t s' ps h
    obtain ⟨qs, rfl, k⟩ := h.inv_normal rfl
    exact spaced_one (.inl ⟨rfl, keyed_says k⟩)
  rcases (g1.inv_silent rfl).inv_choice with g | ⟨-, g⟩
  · obtain ⟨z1, _, _, z2, _, f1, f2, rfl, rfl⟩ := (g.inv_silent rfl).inv_seq
    obtain ⟨⟨zs, hz, rfl, rfl⟩, -⟩ := f2.inv_rep
    refine spaced_append (kvp f1) (spaced_parts fun z hm => ?_)
    obtain ⟨_, _, hg⟩ := hz z hm
    obtain ⟨w2, _, _, z3, _, f3, f4, e3, e4⟩ := hg.inv_seq
    obtain ⟨hw2, rfl, -⟩ := got_ws f3
    rw [e3, e4]
    exact spaced_before hw2 (kvp f4)
  · obtain ⟨p, rfl, hp⟩ := node_says (flt := flt) g
    exact spaced_one (.inr hp)

theorem trait_says {flt : Str → Option F64} {s t s' ps} (h : Got false (r .aTrait) s t s' ps) :
    ∃ p, ps = [p] ∧ p.asRule = .aTrait ∧ Yields (fun tb => Loose.TraitText flt tb t) (IdlParser.traitOf flt p) := by
  obtain ⟨qs, rfl, k⟩ := h.inv_normal rfl
  refine ⟨_, rfl, rfl, ?_⟩
  obtain ⟨t1, _, _, _, _, h1, k1, rfl, rfl⟩ := k.inv_seq
  obtain ⟨x, _, _, y, _, h2, h3, rfl, rfl⟩ := k1.inv_seq
  obtain ⟨rfl, rfl⟩ := h1.inv_str
  obtain ⟨hid, rfl⟩ := got_shapeId h2
  intro tb htb
  unfold IdlParser.traitOf at htb
  obtain ⟨⟨id, value, members⟩, e1, e2⟩ := ok_of_bind htb
  change IdlParser.traitParts flt none none [] (.mk .shapeId x [] :: _) = _ at e1
  have mk : ∀ v, TraitBuilder.withValue x v = .ok tb → ∃ n, NameText n x ∧ tb = ⟨n, some v⟩ := by
    intro v hv
    obtain ⟨n, hn, hv⟩ := ok_of_bind hv
    cases hv
    exact ⟨n, name_says hid (ok_of_unwrap hn), rfl⟩
  rcases h3.inv_opt with h3 | ⟨rfl, rfl, -⟩
  · obtain ⟨u, rfl, hu⟩ := traitBody_parts (flt := flt) h3
    obtain ⟨i1, vs, es, i2, i3, i4, i5⟩ := traitParts_says hu (some x) none [] _ e1
    simp only at i1 i2 i3
    subst i1
    cases hv : value with
    | some v =>
      rw [hv] at i2 e2
      cases hm : members with
      | cons a b => rw [hm] at e2; cases e2
      | nil =>
        rw [hm] at e2 i3
        obtain ⟨n, hn, rfl⟩ := mk v e2
        have hes : es = [] := by simpa using (insert_ne_nil _ _ i3.symm).1
        cases hl : vs.getLast? with
        | none => rw [hl] at i2; cases i2
        | some z =>
          rw [hl] at i2
          cases i2
          have hvs : vs = vs.dropLast ++ [v] := by
            have hne : vs ≠ [] := by rintro rfl; cases hl
            rw [List.getLast?_eq_some_getLast hne] at hl
            injection hl with hl
            rw [← hl, List.dropLast_append_getLast]
          have := i4 hes
          rw [hvs] at this
          have := Loose.TraitText.value (flt := flt) hn this
          simpa using this
    | none =>
      rw [hv] at i2 e2
      have hvs : vs = [] := by
        cases hl : vs.getLast? with
        | some z => rw [hl] at i2; cases i2
        | none => exact List.getLast?_eq_none_iff.mp hl
      obtain ⟨n, hn, rfl⟩ := mk (.object members) e2
      rw [i3]
      have := Loose.TraitText.members (flt := flt) hn (i5 hvs)
      rw [show %s"@" ++ x ++ %s"(" ++ u ++ %s")" = %s"@" ++ (x ++ (%s"(" ++ u ++ %s")")) by simp] at this
      exact this
  · change Except.ok (some x, none, []) = _ at e1
    cases e1
    obtain ⟨n, hn, rfl⟩ := mk (.object []) e2
    rw [List.append_nil]
    exact .plain hn

theorem traits_says {flt : Str → Option F64} {s t s' ps} (h : Got false (r .traitStatements) s t s' ps) :
    ∃ p, ps = [p] ∧ p.asRule = .traitStatements ∧ Yields (fun tbs => Loose.Spaced (Loose.TraitText flt) tbs t) (IdlParser.traitsOf flt p) := by
  obtain ⟨qs, rfl, k⟩ := h.inv_normal rfl
  refine ⟨_, rfl, rfl, ?_⟩
  obtain ⟨t1, _, _, w, _, h1, h2, rfl, rfl⟩ := k.inv_seq
  obtain ⟨hw, rfl, -⟩ := got_ws h2
  obtain ⟨⟨xs, hx, rfl, rfl⟩, -⟩ := h1.inv_rep
  rw [List.append_nil]
  change Yields _ (SelParser.each .aTrait (IdlParser.traitOf flt) (xs.flatMap (·.2)))
  refine spaced_each (spaced_after (spaced_parts fun x hm => ?_) hw)
  obtain ⟨_, _, hg⟩ := hx x hm
  obtain ⟨w', _, _, y, _, g1, g2, e1, e2⟩ := hg.inv_seq
  obtain ⟨hw', rfl, -⟩ := got_ws g1
  obtain ⟨p, rfl, -, hp⟩ := trait_says (flt := flt) g2
  rw [e1, e2]
  exact spaced_before hw' (spaced_one hp)

/-! ### Documentation -/

theorem docs_says {s t s' ps} (h : Got false (.rep (r .documentationComment)) s t s' ps) :
    ∃ docs, ps = docs.map (fun l => .mk .documentationText l []) ∧ Loose.Spaced Loose.DocText docs t := by
  obtain ⟨⟨xs, hx, rfl, rfl⟩, -⟩ := h.inv_rep
  clear h
  induction xs with
  | nil => exact ⟨[], rfl, .nil .nil⟩
  | cons x xs ih =>
    obtain ⟨docs, e, hd⟩ := ih fun y hy => hx y (by simp [hy])
    obtain ⟨_, _, hg⟩ := hx x (by simp)
    obtain ⟨w, _, _, _, _, h1, k1, e1, e2⟩ := (hg.inv_silent rfl).inv_seq
    obtain ⟨t2, _, _, _, _, h2, k2, rfl, rfl⟩ := k1.inv_seq
    obtain ⟨l, _, _, le, _, h3, h4, rfl, rfl⟩ := k2.inv_seq
    obtain ⟨hw, rfl, -⟩ := got_ws h1
    obtain ⟨rfl, rfl⟩ := h2.inv_str
    obtain ⟨qs, rfl, h5⟩ := h3.inv_normal rfl
    obtain ⟨hl, rfl⟩ := got_chars h5
    obtain ⟨hle, rfl⟩ := got_newline h4
    refine ⟨l :: docs, ?_, ?_⟩
    · rw [List.flatMap_cons, e2, e]; rfl
    · rw [List.flatMap_cons, e1]
      exact .cons hw ⟨le, fun c hc => commentChar_iff (hl c hc), hle, by simp⟩ hd

theorem docTrait_says (docs : List Str) (traits : List TraitBuilder) : ∃ dt, DocTrait docs dt ∧ IdlParser.appliedTraits (docs.map trimStart) traits = dt ++ traits := by
  cases docs with
  | nil => exact ⟨[], .none, rfl⟩
  | cons d ds =>
    refine ⟨_, .some (texts := (d :: ds).map trimStart) (by simp) ?_, ?_⟩
    · rw [List.forall₂_map_right_iff]
      exact List.forall₂_same.mpr fun l _ => trimmed_trimStart l
    · rw [← joinWith_intercalate]
      rfl

end Verif
