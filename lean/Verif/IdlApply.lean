/-
C54: apply statements.
-/
import Verif.IdlImage
import Verif.IdlRoundTrip

namespace Verif
open Peg Spec

namespace Spec

/-- A pair of the rule in a pair, at any depth. -/
inductive Has (r : IdlRule) : Pair IdlRule → Prop
  | here {p} : p.asRule = r → Has r p
  | inner {p q} : q ∈ p.intoInner → Has r q → Has r p

/-- The grammar accepts the text, and finds an apply statement in it. -/
def HasApply (s : Str) : Prop := ∃ t rest ps, Parses idlGrammar false (.rule .idl) s (some (t, rest, ps)) ∧ ∃ p ∈ ps, Has .applyStatement p

end Spec

namespace IdlParser
open IdlRule

/-- The rules that may have apply statements inside. -/
def applyRules : List IdlRule := [idl, shapeSection, shapeStatements, applyStatement]

theorem emitters (r : IdlRule) : ((emits idlGrammar 32 (idlGrammar.body r)).map fun l => decide (∃ x ∈ applyRules, x ∈ l) && decide (r ∉ applyRules)) = some false := by
  cases r <;> decide

theorem has_rules {p : Pair IdlRule} (h : Has applyStatement p) (hs : Sound idlGrammar p) : p.asRule ∈ applyRules := by
  induction h with
  | here h => rw [h]; decide
  | @inner p q hq _ ih =>
    have hm := ih (hs.inner q hq)
    have he := emitters p.asRule
    cases hl : emits idlGrammar 32 (idlGrammar.body p.asRule) with
    | none => rw [hl] at he; cases he
    | some l =>
      rw [hl] at he
      have := hs.emits hl q hq
      by_contra hn
      simp only [Option.map_some, Option.some.injEq, Bool.and_eq_false_iff, decide_eq_false_iff_not] at he
      rcases he with he | he
      · exact he ⟨_, hm, this⟩
      · exact he hn

theorem no_apply {p : Pair IdlRule} (hs : Sound idlGrammar p) (h : p.asRule ∉ applyRules) : ¬ Has applyStatement p := fun hp => h (has_rules hp hs)

variable {flt : Str → Option F64}

theorem statementsLoop_noApply (ps : List (Pair IdlRule)) (hs : ∀ p ∈ ps, Sound idlGrammar p) : ∀ mb,
    Yields (fun _ => ∀ p ∈ ps, ¬ Has applyStatement p) (statementsLoop flt mb ps) := by
  induction ps with
  | nil => intro mb; exact .ok (by simp)
  | cons p ps ih =>
    intro mb
    have ih := ih fun q hq => hs q (by simp [hq])
    unfold statementsLoop
    split
    · next hr =>
      refine Yields.bind (P := fun _ => True) Yields.any fun mb' _ => (ih mb').mono fun _ h => ?_
      simp only [List.mem_cons, forall_eq_or_imp]
      exact ⟨no_apply (hs p (by simp)) (by rw [hr]; decide), h⟩
    · next hr =>
      refine (ih mb).mono fun _ h => ?_
      simp only [List.mem_cons, forall_eq_or_imp]
      exact ⟨no_apply (hs p (by simp)) (by rw [hr]; decide), h⟩
    · exact .unexpected

theorem not_has_inner {p : Pair IdlRule} (h : p.asRule ≠ applyStatement) (hi : ∀ q ∈ p.intoInner, ¬ Has applyStatement q) : ¬ Has applyStatement p := by
  intro hp
  cases hp with
  | here hr => exact h hr
  | inner hq hp => exact hi _ hq hp

theorem sectionLoop_noApply {v : Version} (ps : List (Pair IdlRule)) (hs : ∀ p ∈ ps, Sound idlGrammar p) : ∀ mb,
    Yields (fun _ => ∀ p ∈ ps, ¬ Has applyStatement p) (sectionLoop flt v mb ps) := by
  induction ps with
  | nil => intro mb; exact .ok (by simp)
  | cons p ps ih =>
    intro mb
    have ih := ih fun q hq => hs q (by simp [hq])
    have here := hs p (by simp)
    unfold sectionLoop
    split
    · next hr =>
      refine Yields.bind (P := fun _ => True) Yields.any fun mb' _ => (ih _).mono fun _ h => ?_
      simp only [List.mem_cons, forall_eq_or_imp]
      exact ⟨no_apply here (by rw [hr]; decide), h⟩
    · next hr =>
      refine Yields.bind (P := fun _ => True) Yields.any fun mb' _ => Yields.bind (P := fun _ => True) Yields.any fun mb'' _ => (ih _).mono fun _ h => ?_
      simp only [List.mem_cons, forall_eq_or_imp]
      exact ⟨no_apply here (by rw [hr]; decide), h⟩
    · next hr =>
      refine Yields.bind (P := fun _ => True) Yields.any fun mb' _ => Yields.bind (statementsLoop_noApply p.intoInner here.inner mb') fun mb'' hp => (ih _).mono fun _ h => ?_
      simp only [List.mem_cons, forall_eq_or_imp]
      exact ⟨not_has_inner (by rw [hr]; decide) hp, h⟩
    · exact .unexpected

end IdlParser

theorem idl_parts {s t rest : Str} {ps : List (Pair IdlRule)} (h : Parses idlGrammar false (.rule .idl) s (some (t, rest, ps))) :
    ∃ p1 p2 p3 : Pair IdlRule, ps = [.mk .idl t [p1, p2, p3, .mk .EOI [] []]] ∧ Sound idlGrammar (.mk .idl t [p1, p2, p3, .mk .EOI [] []]) ∧
      p1.asRule = .controlSection ∧ p2.asRule = .metadataSection ∧ p3.asRule = .shapeSection := by
  have ht := h.tree _ _ _ rfl
  have hsound := ht.sound
  obtain ⟨ps', rfl, hb⟩ := ht.normal rfl
  obtain ⟨t1, t2, q1, q2, rfl, rfl, h1, h2⟩ := parts_idl hb
  obtain ⟨t3, t4, q3, q4, rfl, rfl, h3, h4⟩ := parts_idl h2
  obtain ⟨t5, t6, q5, q6, rfl, rfl, h5, h6⟩ := parts_idl h4
  obtain ⟨t7, t8, q7, q8, rfl, rfl, h7, h8⟩ := parts_idl h6
  obtain ⟨t9, t10, q9, q10, rfl, rfl, h9, h10⟩ := parts_idl h8
  have e1 : q1 = [] := by cases h1; rfl
  have e3 : q3 = [] := by
    have := h3.emits 32 [] (by decide)
    cases q3 with
    | nil => rfl
    | cons p q => exact absurd (this p (by simp)) (by simp)
  obtain ⟨a, rfl, -⟩ := h5.normal rfl
  obtain ⟨b, rfl, -⟩ := h7.normal rfl
  obtain ⟨c, rfl, -⟩ := h9.normal rfl
  have e10 : q10 = [.mk .EOI [] []] := by cases h10; rfl
  subst e1 e3 e10
  exact ⟨_, _, _, rfl, (hsound _ (by simp)).1, rfl, rfl, rfl⟩

/-- C54 is violated by every text: whatever the trait and the shape, a text with an apply statement is rejected. -/
theorem C54_apply_rejected (flt : Str → Option F64) (enum : List ShapeID → List ShapeID) (s : Str) (h : HasApply s) :
    ∃ e, parseModel flt enum s = .error e := by
  obtain ⟨t, rest, ps, hp, p, hmem, hhas⟩ := h
  have hm : matchIdl s = some ps := (matchIdl_iff _ _).mpr ⟨_, hp, rfl⟩
  obtain ⟨p1, p2, p3, rfl, hsound, h1, h2, h3⟩ := idl_parts hp
  have hs3 : Sound idlGrammar p3 := hsound.inner p3 (by simp [Pair.intoInner])
  have hbad : ∃ q ∈ p3.intoInner, Has .applyStatement q := by
    by_contra hn
    have hn : ∀ q ∈ p3.intoInner, ¬ Has .applyStatement q := fun q hq hh => hn ⟨q, hq, hh⟩
    rcases List.mem_singleton.mp hmem with rfl
    refine IdlParser.not_has_inner (by simp [Pair.asRule]) ?_ hhas
    intro q hq
    change q ∈ [p1, p2, p3, Pair.mk IdlRule.EOI [] []] at hq
    simp only [List.mem_cons, List.not_mem_nil, or_false] at hq
    rcases hq with rfl | rfl | rfl | rfl
    · exact IdlParser.no_apply (hsound.inner _ (by simp [Pair.intoInner])) (by rw [h1]; decide)
    · exact IdlParser.no_apply (hsound.inner _ (by simp [Pair.intoInner])) (by rw [h2]; decide)
    · exact IdlParser.not_has_inner (by rw [h3]; decide) hn
    · exact IdlParser.no_apply (hsound.inner _ (by simp [Pair.intoInner])) (by decide)
  have herr : ∀ r, readBuilder flt s ≠ .ok r := by
    have : Yields (fun _ => False) (readBuilder flt s) := by
      unfold readBuilder
      rw [hm]
      change Yields _ (IdlParser.readIdl flt (.mk .idl t [p1, p2, p3, .mk .EOI [] []]))
      unfold IdlParser.readIdl
      refine IdlParser.ite_yields ?_ .unexpected
      refine Yields.bind (P := fun x => x.2 = [p2, p3, .mk .EOI [] []]) ?_ ?_
      · unfold IdlParser.nextInto
        refine Yields.bind (P := fun x => x = (p1, [p2, p3, .mk .EOI [] []])) (by rintro _ ⟨⟩; rfl) ?_
        rintro _ rfl
        exact IdlParser.ite_yields (Yields.bind (P := fun _ => True) Yields.any fun _ _ => .pure rfl) .unexpected
      · rintro ⟨c, _⟩ rfl
        dsimp only
        refine Yields.bind (P := fun _ => True) Yields.any fun v _ => ?_
        refine Yields.bind (P := fun x => x.2 = [p3, .mk .EOI [] []]) ?_ ?_
        · unfold IdlParser.nextInto
          refine Yields.bind (P := fun x => x = (p2, [p3, .mk .EOI [] []])) (by rintro _ ⟨⟩; rfl) ?_
          rintro _ rfl
          exact IdlParser.ite_yields (Yields.bind (P := fun _ => True) Yields.any fun _ _ => .pure rfl) .unexpected
        · rintro ⟨c', _⟩ rfl
          dsimp only
          refine Yields.bind (P := fun _ => False) ?_ (by rintro _ ⟨⟩)
          unfold IdlParser.nextInto
          refine Yields.bind (P := fun x => x = (p3, [.mk .EOI [] []])) (by rintro _ ⟨⟩; rfl) ?_
          rintro _ rfl
          refine IdlParser.ite_yields (Yields.bind (P := fun _ => False) ((IdlParser.sectionLoop_noApply _ hs3.inner _).mono ?_) (by rintro _ ⟨⟩)) .unexpected
          intro _ h
          obtain ⟨q, hq, hh⟩ := hbad
          exact h q hq hh
    exact fun r hr => this r hr
  unfold parseModel
  cases hr : readBuilder flt s with
  | error e => exact ⟨e, rfl⟩
  | ok r => exact absurd hr (herr r)

/-- C54: the simplest apply statement, for all names: it is one for the grammar. -/
theorem C54_apply_matches (ns n t : Str) (hns : SmithyNamespace ns) (hn : SmithyIdent n) (ht : SmithyIdent t) :
    HasApply (%s"namespace " ++ ns ++ %s"\napply " ++ n ++ %s" @" ++ t ++ %s"\n") := by
  have hnl : Eats (IdlGrammar.r .ws) %s"\n" [] (· = []) := ws_eats (w := %s"\n") (rest := []) (by unfold White; decide) solid_nil
  have htr : Eats (IdlGrammar.r .aTrait) ('@' :: t ++ %s"\n") %s"\n" (fun _ => True) := by
    refine (Eats.normal (r := .aTrait) (Q := fun _ => True) rfl ?_).mono fun _ _ => trivial
    refine Eats.seqL (Eats.str (t := %s"@")) ?_
    exact ((shapeId_eats (.name ht) (nameEnd_cons (by decide))).seq (Eats.optNone (fails 8 (by decide)))).mono fun _ _ => trivial
  have happly : Eats (IdlGrammar.r .applyStatement) (%s"apply " ++ (n ++ (%s" @" ++ (t ++ %s"\n")))) [] (fun ps => ∃ p, ps = [p] ∧ p.asRule = .applyStatement) := by
    refine (Eats.normal (r := .applyStatement) (Q := fun _ => True) rfl ?_).mono ?_
    · refine Eats.seqL (Eats.str (t := %s"apply")) ?_
      refine Eats.seqL (ws_eats (w := %s" ") white_space (solid_ident hn _)) ?_
      refine ((shapeId_eats (.name hn) (nameEnd_cons (by decide))).seq (Eats.seqL (ws_eats (w := %s" ") white_space (solid_cons (by decide))) (htr.seq hnl))).mono fun _ _ => trivial
    · rintro _ ⟨t, ps, rfl, -⟩
      exact ⟨_, rfl, rfl⟩
  have hst : Eats (IdlGrammar.r .namespaceStatement) (%s"namespace" ++ ([' '] ++ (ns ++ (%s"\n" ++ (%s"apply " ++ (n ++ (%s" @" ++ (t ++ %s"\n"))))))))
      (%s"apply " ++ (n ++ (%s" @" ++ (t ++ %s"\n")))) (fun _ => True) := by
    have hsolid : ∀ u, Solid' (ns ++ u) := by
      intro u
      obtain ⟨c, x, e, hc⟩ := namespace_head hns
      rw [e]
      have : ∀ c ∈ identHeads, c ∉ [' ', '\t', '\n', '\r', ',', '/'] := by decide
      exact solid_cons (this c hc)
    exact (Eats.normal (r := .namespaceStatement) rfl (Eats.str.seqL ((ws_eats white_space (hsolid _)).seqL
      ((namespace_eats hns (by intro c s' e; injection e with e _; subst e; decide)).seqR (ws_eats (white_nl white_nil) (solid_cons (by decide))))))).mono fun _ _ => trivial
  have hstmts : Eats (IdlGrammar.r .shapeStatements) (%s"apply " ++ (n ++ (%s" @" ++ (t ++ %s"\n")))) [] (fun ps => ∃ p ∈ ps, Has .applyStatement p) := by
    refine (Eats.normal (r := .shapeStatements) rfl ((Eats.choiceR (fails 24 (by decide)) happly).seq (Eats.repNil (fails_nil (by decide))))).mono ?_
    rintro _ ⟨t, _, rfl, p, q, rfl, ⟨p, rfl, hp⟩, -⟩
    exact ⟨_, List.mem_singleton.mpr rfl, .inner (q := p) (by simp [Pair.intoInner]) (.here hp)⟩
  have hsec : Eats (IdlGrammar.r .shapeSection) (%s"namespace" ++ ([' '] ++ (ns ++ (%s"\n" ++ (%s"apply " ++ (n ++ (%s" @" ++ (t ++ %s"\n")))))))) []
      (fun ps => ∃ p ∈ ps, Has .applyStatement p) := by
    refine (Eats.normal (r := .shapeSection) rfl (Eats.opt (hst.seq ((Eats.optNone (fails 8 (by decide))).seq (Eats.opt hstmts))))).mono ?_
    rintro _ ⟨t, _, rfl, p, q, rfl, -, p', q', rfl, -, x, hx, hh⟩
    exact ⟨_, List.mem_singleton.mpr rfl, .inner (q := x) (by simp [Pair.intoInner, hx]) hh⟩
  have heoi : Eats .eoi [] [] (fun _ => True) := ⟨[], _, .eoi, trivial⟩
  have hidl := Eats.normal (r := .idl) rfl (Eats.soi.seqL ((ws_none (solid_cons (by decide))).seqL
    ((Eats.normal (r := .controlSection) rfl (Eats.repNil (fails 8 (by decide)))).seq
    ((Eats.normal (r := .metadataSection) rfl (Eats.repNil (fails 8 (by decide)))).seq (hsec.seq heoi)))))
  obtain ⟨t', ps, h1, h2⟩ := hidl
  refine ⟨t', [], ps, ?_, ?_⟩
  · have e : %s"namespace " ++ ns ++ %s"\napply " ++ n ++ %s" @" ++ t ++ %s"\n" =
      %s"namespace" ++ ([' '] ++ (ns ++ (%s"\n" ++ (%s"apply " ++ (n ++ (%s" @" ++ (t ++ %s"\n"))))))) := by simp
    rw [e]
    exact h1
  · obtain ⟨t, _, rfl, p, q, rfl, -, p', q', rfl, -, p'', q'', rfl, ⟨x, hx, hh⟩, -⟩ := h2
    exact ⟨_, List.mem_singleton.mpr rfl, .inner (q := x) (by simp [Pair.intoInner, hx]) hh⟩

end Verif
