/-
Helper lemmas about identifiers and regular expressions.
-/
import Verif.Identity
import Verif.IdentitySpec

namespace Verif
open Spec

theorem isAlpha_ne_underscore {c : Char} (h : c.isAlpha = true) : c ≠ '_' := by
  intro e; subst e; exact absurd h (by decide)

theorem isIdent_iff (s : Str) : isIdent s = true ↔ IsIdentifier s := by
  constructor
  · intro h
    unfold isIdent at h
    cases hd : s.dropWhile (· == '_') with
    | nil => rw [hd] at h; simp at h
    | cons c cs =>
      rw [hd] at h
      simp only [Bool.and_eq_true, List.all_eq_true] at h
      have hs := List.takeWhile_append_dropWhile (p := (· == '_')) (l := s)
      rw [hd] at hs
      refine ⟨(s.takeWhile (· == '_')).length, c, cs, ?_, h.1, ?_⟩
      · rw [← List.eq_replicate_of_mem (l := s.takeWhile (· == '_')) (a := '_') ?_]
        · exact hs.symm
        · intro b hb
          have := List.all_takeWhile (p := (· == '_')) (l := s)
          rw [List.all_eq_true] at this
          simpa using this b hb
      · intro x hx
        have := h.2 x hx
        simpa [identChar] using this
  · rintro ⟨n, c, rest, rfl, hc, hr⟩
    unfold isIdent
    have hne := isAlpha_ne_underscore hc
    have : (List.replicate n '_' ++ c :: rest).dropWhile (· == '_') = c :: rest := by
      induction n with
      | zero => simp [hne]
      | succ n ih => simp only [List.replicate_succ, List.cons_append, List.dropWhile_cons]; simpa using ih
    rw [this]
    simp only [hc, Bool.true_and, List.all_eq_true]
    intro x hx
    simpa [identChar] using hr x hx

theorem matches_cls {p : Char → Bool} {s : Str} : (RE.cls p).Matches s ↔ ∃ c, s = [c] ∧ p c = true := by
  constructor
  · intro h; cases h with | cls h => exact ⟨_, rfl, h⟩
  · rintro ⟨c, rfl, h⟩; exact .cls h

theorem matches_seq {a b : RE} {s : Str} :
    (RE.seq a b).Matches s ↔ ∃ x y, s = x ++ y ∧ a.Matches x ∧ b.Matches y := by
  constructor
  · intro h; cases h with | seq h1 h2 => exact ⟨_, _, rfl, h1, h2⟩
  · rintro ⟨x, y, rfl, h1, h2⟩; exact .seq h1 h2

theorem matches_opt {a : RE} {s : Str} : (RE.opt a).Matches s ↔ s = [] ∨ a.Matches s := by
  constructor
  · intro h; cases h with
    | optNone => exact .inl rfl
    | optSome h => exact .inr h
  · rintro (rfl | h)
    · exact .optNone
    · exact .optSome h

/-- A star matches exactly the concatenations of matches. -/
theorem matches_star {a : RE} {s : Str} :
    (RE.star a).Matches s ↔ ∃ l : List Str, s = l.flatten ∧ ∀ x ∈ l, a.Matches x := by
  constructor
  · intro h
    generalize hr : RE.star a = r at h
    induction h with
    | starNil => exact ⟨[], rfl, by simp⟩
    | starCons h1 _ _ ih2 =>
      cases hr
      obtain ⟨l, rfl, hl⟩ := ih2 rfl
      refine ⟨_ :: l, rfl, ?_⟩
      intro x hx
      cases hx with
      | head => exact h1
      | tail _ hx => exact hl x hx
    | _ => cases hr
  · rintro ⟨l, rfl, hl⟩
    induction l with
    | nil => exact .starNil
    | cons x l ih =>
      exact .starCons (hl x (by simp)) (ih fun y hy => hl y (by simp [hy]))

theorem matches_star_cls {p : Char → Bool} {s : Str} :
    (RE.star (.cls p)).Matches s ↔ ∀ c ∈ s, p c = true := by
  rw [matches_star]
  constructor
  · rintro ⟨l, rfl, hl⟩ c hc
    obtain ⟨x, hx, hc⟩ := List.mem_flatten.mp hc
    obtain ⟨d, rfl, hd⟩ := matches_cls.mp (hl x hx)
    simp at hc; subst hc; exact hd
  · intro h
    refine ⟨s.map fun c => [c], ?_, ?_⟩
    · induction s with
      | nil => rfl
      | cons c s ih =>
        simp only [List.map_cons, List.flatten_cons, List.singleton_append]
        rw [← ih fun x hx => h x (by simp [hx])]
    · intro x hx
      obtain ⟨c, hc, rfl⟩ := List.mem_map.mp hx
      exact .cls (h c hc)

theorem matches_star_star_cls {p : Char → Bool} {s : Str} :
    (RE.star (.star (.cls p))).Matches s ↔ ∀ c ∈ s, p c = true := by
  rw [matches_star]
  constructor
  · rintro ⟨l, rfl, hl⟩ c hc
    obtain ⟨x, hx, hc⟩ := List.mem_flatten.mp hc
    exact matches_star_cls.mp (hl x hx) c hc
  · intro h
    exact ⟨[s], by simp, by simpa using matches_star_cls.mpr h⟩

theorem matches_star_chr {c : Char} {s : Str} : (RE.star (.chr c)).Matches s ↔ ∃ n, s = List.replicate n c := by
  rw [RE.chr, matches_star_cls]
  constructor
  · intro h
    exact ⟨s.length, List.eq_replicate_of_mem fun b hb => by simpa using h b hb⟩
  · rintro ⟨n, rfl⟩ x hx
    simp [List.eq_of_mem_replicate hx]

theorem identifier_iff_regex (s : Str) : IsIdentifier s ↔ reIdentifier.Matches s := by
  unfold reIdentifier IsIdentifier
  rw [matches_seq]
  constructor
  · rintro ⟨n, c, rest, rfl, hc, hr⟩
    refine ⟨_, _, rfl, matches_star_chr.mpr ⟨n, rfl⟩, ?_⟩
    exact .seq (s := [c]) (t := rest) (.cls hc) (matches_star_cls.mpr fun x hx => by simpa using hr x hx)
  · rintro ⟨x, y, rfl, h1, h2⟩
    obtain ⟨n, rfl⟩ := matches_star_chr.mp h1
    obtain ⟨a, b, rfl, h3, h4⟩ := matches_seq.mp h2
    obtain ⟨c, rfl, hc⟩ := matches_cls.mp h3
    exact ⟨n, c, b, rfl, hc, fun x hx => by simpa using matches_star_cls.mp h4 x hx⟩

theorem identifier_iff_regex2 (s : Str) : IsIdentifier s ↔
    (RE.seq (.star (.chr '_'))
      (.seq (.cls Char.isAlpha) (.star (.star (.cls fun c => c == '_' || c.isAlphanum))))).Matches s := by
  rw [identifier_iff_regex, reIdentifier]
  simp only [matches_seq, matches_star_cls, matches_star_star_cls]

theorem joinWith_cons_flatten (sep : Char) (p : Str) (ps : List Str) :
    joinWith [sep] (p :: ps) = p ++ (ps.map fun q => sep :: q).flatten := by
  induction ps generalizing p with
  | nil => simp [joinWith]
  | cons q qs ih => simp only [joinWith, ih, List.map_cons, List.flatten_cons]; simp

theorem matches_dotted {r : RE} {s : Str} :
    (RE.star (.seq (.chr '.') r)).Matches s ↔
      ∃ ps : List Str, s = (ps.map fun q => '.' :: q).flatten ∧ ∀ p ∈ ps, r.Matches p := by
  rw [matches_star]
  constructor
  · rintro ⟨l, rfl, hl⟩
    induction l with
    | nil => exact ⟨[], rfl, by simp⟩
    | cons x l ih =>
      obtain ⟨ps, h1, h2⟩ := ih fun y hy => hl y (by simp [hy])
      obtain ⟨a, b, rfl, h3, h4⟩ := matches_seq.mp (hl x (by simp))
      obtain ⟨c, rfl, hc⟩ := matches_cls.mp h3
      simp at hc; subst hc
      refine ⟨b :: ps, by simp [h1], ?_⟩
      intro p hp
      cases hp with
      | head => exact h4
      | tail _ hp => exact h2 p hp
  · rintro ⟨ps, rfl, hp⟩
    refine ⟨_, rfl, ?_⟩
    intro x hx
    obtain ⟨q, hq, rfl⟩ := List.mem_map.mp hx
    exact .seq (s := ['.']) (t := q) (.cls (by simp)) (hp q hq)

theorem namespace_iff_regex (s : Str) : IsNamespace s ↔ reNamespace.Matches s := by
  unfold IsNamespace reNamespace
  rw [matches_seq]
  constructor
  · rintro ⟨parts, hne, hp, rfl⟩
    cases parts with
    | nil => exact absurd rfl hne
    | cons p ps =>
      refine ⟨p, _, joinWith_cons_flatten '.' p ps, (identifier_iff_regex p).mp (hp p (by simp)), ?_⟩
      exact matches_dotted.mpr ⟨ps, rfl, fun q hq => (identifier_iff_regex q).mp (hp q (by simp [hq]))⟩
  · rintro ⟨x, y, rfl, h1, h2⟩
    obtain ⟨ps, rfl, h⟩ := matches_dotted.mp h2
    refine ⟨x :: ps, by simp, ?_, (joinWith_cons_flatten '.' x ps).symm⟩
    intro p hp
    cases hp with
    | head => exact (identifier_iff_regex _).mpr h1
    | tail _ hp => exact (identifier_iff_regex _).mpr (h p hp)

theorem namespace_iff_regex2 (s : Str) : IsNamespace s ↔ reNamespace2.Matches s := by
  rw [namespace_iff_regex, reNamespace, reNamespace2]
  rw [matches_seq, matches_seq]
  simp only [← identifier_iff_regex, ← identifier_iff_regex2]

theorem identChar_of_identifier {s : Str} (h : IsIdentifier s) {c : Char} (hc : c ∈ s) : identChar c = true := by
  obtain ⟨n, a, rest, rfl, ha, hr⟩ := h
  simp only [List.mem_append, List.mem_cons] at hc
  rcases hc with hc | rfl | hc
  · simp [List.eq_of_mem_replicate hc, identChar]
  · simp [identChar, Char.isAlphanum, ha]
  · simpa [identChar] using hr c hc

theorem identifier_not_mem {s : Str} (h : IsIdentifier s) {c : Char} (hc : identChar c = false) : c ∉ s := by
  intro hm; rw [identChar_of_identifier h hm] at hc; cases hc

theorem isNamespace_iff (s : Str) : isNamespace s = true ↔ IsNamespace s := by
  unfold isNamespace IsNamespace
  rw [List.all_eq_true]
  constructor
  · intro h
    exact ⟨splitOn '.' s, splitOn_ne_nil _ _, fun p hp => (isIdent_iff p).mp (h p hp),
      (joinWith_splitOn '.' s).symm⟩
  · rintro ⟨parts, hne, hp, rfl⟩ p hm
    rw [splitOn_joinWith hne fun q hq => identifier_not_mem (hp q hq) (by decide)] at hm
    exact (isIdent_iff p).mpr (hp p hm)

theorem mem_joinWith {sep : Char} {ps : List Str} {c : Char} (h : c ∈ joinWith [sep] ps) :
    c = sep ∨ ∃ p ∈ ps, c ∈ p := by
  induction ps with
  | nil => simp [joinWith] at h
  | cons p ps ih =>
    rw [joinWith_cons_flatten] at h
    simp only [List.mem_append, List.mem_flatten, List.mem_map] at h
    rcases h with h | ⟨l, ⟨q, hq, rfl⟩, h⟩
    · exact .inr ⟨p, by simp, h⟩
    · simp only [List.mem_cons] at h
      rcases h with h | h
      · exact .inl h
      · exact .inr ⟨q, by simp [hq], h⟩

theorem namespace_not_mem {s : Str} (h : IsNamespace s) {c : Char} (hd : c ≠ '.') (hc : identChar c = false) :
    c ∉ s := by
  obtain ⟨parts, _, hp, rfl⟩ := h
  intro hm
  rcases mem_joinWith hm with h | ⟨p, hpm, hm⟩
  · exact hd h
  · exact identifier_not_mem (hp p hpm) hc hm

/-- All components of a shape id are valid. -/
def ShapeID.Valid (id : ShapeID) : Prop :=
  IsNamespace id.ns ∧ IsIdentifier id.name ∧ ∀ m, id.member = some m → IsIdentifier m

theorem ShapeID.fromStr_display {id : ShapeID} (h : id.Valid) : ShapeID.fromStr id.display = .ok id := by
  obtain ⟨ns, n, m⟩ := id
  obtain ⟨h1, h2, h3⟩ := h
  simp only at h1 h2 h3
  have hns : '#' ∉ ns := namespace_not_mem h1 (by decide) (by decide)
  have e1 := (isNamespace_iff ns).mpr h1
  have e2 := (isIdent_iff n).mpr h2
  have hn : '$' ∉ n := identifier_not_mem h2 (by decide)
  cases m with
  | none =>
    have : splitFirst '#' (ns ++ '#' :: n) = some (ns, n) := splitFirst_eq_some.mpr ⟨rfl, hns⟩
    simp [ShapeID.display, ShapeID.fromStr, this, splitFirst_eq_none.mpr hn, e1, e2]
  | some m =>
    have e3 := (isIdent_iff m).mpr (h3 m rfl)
    have : splitFirst '#' (ns ++ '#' :: (n ++ '$' :: m)) = some (ns, n ++ '$' :: m) :=
      splitFirst_eq_some.mpr ⟨rfl, hns⟩
    have h4 : splitFirst '$' (n ++ '$' :: m) = some (n, m) := splitFirst_eq_some.mpr ⟨rfl, hn⟩
    simp [ShapeID.display, ShapeID.fromStr, this, h4, e1, e2, e3]

theorem ShapeID.of_fromStr {s : Str} {id : ShapeID} (h : ShapeID.fromStr s = .ok id) :
    id.Valid ∧ id.display = s := by
  unfold ShapeID.fromStr at h
  cases h1 : splitFirst '#' s with
  | none => rw [h1] at h; cases h
  | some p =>
    obtain ⟨ns, rest⟩ := p
    rw [h1] at h
    simp only at h
    obtain ⟨hs, _⟩ := splitFirst_eq_some.mp h1
    cases h2 : splitFirst '$' rest with
    | none =>
      rw [h2] at h
      simp only at h
      split at h
      · rename_i hv
        simp only [Bool.and_eq_true] at hv
        cases h
        exact ⟨⟨(isNamespace_iff _).mp hv.1, (isIdent_iff _).mp hv.2, by simp⟩, by simp [display, hs]⟩
      · cases h
    | some q =>
      obtain ⟨n, m⟩ := q
      rw [h2] at h
      simp only at h
      obtain ⟨hr, _⟩ := splitFirst_eq_some.mp h2
      split at h
      · rename_i hv
        simp only [Bool.and_eq_true] at hv
        cases h
        refine ⟨⟨(isNamespace_iff _).mp hv.1.1, (isIdent_iff _).mp hv.1.2, ?_⟩, by simp [display, hs, hr]⟩
        intro m' hm; cases hm; exact (isIdent_iff _).mp hv.2
      · cases h

theorem identEq_iff (a b : Str) : identEq a b = true ↔ lower a = lower b := by simp [identEq]
theorem identEq_refl (a : Str) : identEq a a = true := by simp [identEq]
theorem identEq_symm {a b : Str} (h : identEq a b = true) : identEq b a = true := by
  rw [identEq_iff] at *; exact h.symm
theorem identEq_trans {a b c : Str} (h : identEq a b = true) (h' : identEq b c = true) : identEq a c = true := by
  rw [identEq_iff] at *; exact h.trans h'

theorem ceq_iff (a b : ShapeID) : a.ceq b = true ↔
    lower a.ns = lower b.ns ∧ lower a.name = lower b.name ∧ a.member.map lower = b.member.map lower := by
  unfold ShapeID.ceq
  simp only [Bool.and_eq_true, identEq_iff]
  cases a.member <;> cases b.member <;> simp [identEq_iff, and_assoc]

theorem ceq_refl (a : ShapeID) : a.ceq a = true := by simp [ceq_iff]
theorem ceq_symm {a b : ShapeID} (h : a.ceq b = true) : b.ceq a = true := by
  rw [ceq_iff] at *; exact ⟨h.1.symm, h.2.1.symm, h.2.2.symm⟩
theorem ceq_comm (a b : ShapeID) : a.ceq b = b.ceq a := by
  rw [Bool.eq_iff_iff]; exact ⟨ceq_symm, ceq_symm⟩
theorem identEq_comm (a b : Str) : identEq a b = identEq b a := by
  rw [Bool.eq_iff_iff]; exact ⟨identEq_symm, identEq_symm⟩
theorem ceq_trans {a b c : ShapeID} (h : a.ceq b = true) (h' : b.ceq c = true) : a.ceq c = true := by
  rw [ceq_iff] at *; exact ⟨h.1.trans h'.1, h.2.1.trans h'.2.1, h.2.2.trans h'.2.2⟩

end Verif
