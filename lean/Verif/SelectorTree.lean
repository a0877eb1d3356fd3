/-
What the selector parser gives for any text: which selectors, and which errors.
-/
import Verif.PegTree
import Verif.SelectorRoundTrip
import Mathlib.Data.List.Induction

namespace Verif
open Peg Spec SelParser

/-! ### The tokens -/

theorem word_tree {t ps} (h : Tree selGrammar true SelGrammar.word t ps) :
    ∃ a r, t = a :: r ∧ a.isAlpha = true ∧ ∀ c ∈ r, c.isAlpha = true ∨ c.isDigit = true ∨ c = '_' := by
  obtain ⟨t1, t2, rfl, h1, h2⟩ := h.parts
  obtain ⟨a, rfl, ha⟩ := h1.chr_one
  refine ⟨a, t2, rfl, ha, h2.rep_all (fun t ht => ?_)⟩
  obtain ⟨c, rfl, hc⟩ := ht.chr_one
  refine ⟨c, rfl, ?_⟩
  simpa [identRest, or_assoc] using hc

theorem ident_tree {t ps} (h : Tree selGrammar true (selGrammar.body .identifier) t ps) : SmithyIdent t := by
  have := h.noPairs; subst this
  cases h with
  | choiceL h =>
    obtain ⟨a, r, rfl, ha, hr⟩ := word_tree h
    exact .plain ha hr
  | choiceR _ h =>
    obtain ⟨t1, t2, rfl, h1, h2⟩ := h.parts
    obtain ⟨rfl, -⟩ := h1.str_eq
    obtain ⟨a, r, rfl, ha, hr⟩ := word_tree h2
    exact .underscore ha hr

/-- An identifier outside of atomic rules. -/
theorem ident_pair {t ps} (h : Tree selGrammar false (.rule .identifier) t ps) : ∃ ps', ps = [.mk .identifier t ps'] ∧ SmithyIdent t := by
  obtain ⟨ps', rfl, h'⟩ := h.atomic rfl
  exact ⟨ps', rfl, ident_tree h'⟩

theorem namespace_tree {t ps} (h : Tree selGrammar true (selGrammar.body .nsName) t ps) : SmithyNamespace t := by
  have hmore : ∀ {t ps}, Tree selGrammar true (.more (.str %s"." ~> .rule .identifier)) t ps →
      ∃ qs : List Str, (∀ q ∈ qs, SmithyIdent q) ∧ t = qs.flatMap (fun q => '.' :: q) := by
    intro t ps h
    generalize he : Expr.more (Expr.str %s"." ~> Expr.rule SelRule.identifier) = e at h
    generalize hm : true = m at h
    induction h with
    | moreNone => exact ⟨[], by simp, rfl⟩
    | @moreSome _ b w t1 p1 t2 p2 hw _ ha hb _ ih =>
      injection he with he; subst he; subst hm
      rw [hw rfl]
      obtain ⟨qs, h1, h2⟩ := ih rfl rfl
      obtain ⟨u1, u2, rfl, h3, h4⟩ := ha.parts
      obtain ⟨rfl, -⟩ := h3.str_eq
      refine ⟨u2 :: qs, ?_, by simp [h2]⟩
      intro q hq
      rcases List.mem_cons.mp hq with rfl | hq
      · exact ident_tree h4.body
      · exact h1 q hq
    | _ => cases he
  have hjoin : ∀ p (ps : List Str), joinWith ['.'] (p :: ps) = p ++ ps.flatMap (fun q => '.' :: q) := by
    intro p ps
    induction ps generalizing p with
    | nil => simp [joinWith]
    | cons q qs ih => simp only [joinWith, ih q, List.flatMap_cons]; simp
  obtain ⟨t1, t2, rfl, h1, h2⟩ := h.parts
  have i1 := ident_tree h1.body
  have : ∃ qs : List Str, (∀ q ∈ qs, SmithyIdent q) ∧ t2 = qs.flatMap (fun q => '.' :: q) := by
    rcases h2.rep_cases with rfl | ⟨_, _, rfl, ha, hb⟩
    · exact ⟨[], by simp, rfl⟩
    · obtain ⟨qs, h1, hq⟩ := hmore hb
      obtain ⟨u1, u2, rfl, h3, h4⟩ := ha.parts
      obtain ⟨rfl, -⟩ := h3.str_eq
      refine ⟨u2 :: qs, ?_, by simp [hq]⟩
      intro q hq
      rcases List.mem_cons.mp hq with rfl | hq
      · exact ident_tree h4.body
      · exact h1 q hq
  obtain ⟨qs, hq, rfl⟩ := this
  refine ⟨t1 :: qs, by simp, ?_, (hjoin _ _).symm⟩
  intro q hm
  rcases List.mem_cons.mp hm with rfl | hm
  · exact i1
  · exact hq q hm

theorem digits_tree {t ps} (h : Tree selGrammar true (.plus (.chr Char.isDigit)) t ps) : Digits t :=
  h.plus_all (fun _ ht => ht.chr_one)

theorem int_tree {t ps} (h : Tree selGrammar true (selGrammar.body .int) t ps) : IntText t := by
  have := h.noPairs; subst this
  cases h with
  | choiceL h =>
    obtain ⟨rfl, -⟩ := h.body.str_eq
    exact ⟨⟨by simp, by decide⟩, fun _ => rfl⟩
  | choiceR _ h =>
    obtain ⟨t1, t2, rfl, h1, h2⟩ := h.parts
    obtain ⟨c, rfl, hc⟩ := h1.chr_one
    have hc' : 49 ≤ c.toNat ∧ c.toNat ≤ 57 := by simpa [nonzeroDigit, charRange] using hc
    have hd : c.isDigit = true := by rw [Char.isDigit_iff_toNat]; simp; omega
    refine ⟨⟨by simp, ?_⟩, ?_⟩
    · intro d hd'
      rcases List.mem_cons.mp hd' with rfl | hd'
      · exact hd
      · exact h2.rep_all (fun _ ht => ht.chr_one) d hd'
    · intro h0
      simp at h0
      subst h0
      exact absurd hc'.1 (by decide)

theorem number_tree {t ps} (h : Tree selGrammar true (selGrammar.body .number) t ps) : NumberText t := by
  obtain ⟨sign, t1, rfl, h1, h⟩ := h.parts
  obtain ⟨int, t2, rfl, h2, h⟩ := h.parts
  obtain ⟨frac, exp, rfl, h3, h4⟩ := h.parts
  refine ⟨sign, int, frac, exp, ?_, int_tree h2.body, ?_, ?_, by simp⟩
  · cases h1 with
    | optNone => exact .inl rfl
    | optSome h => exact .inr h.body.str_eq.1
  · cases h3 with
    | optNone => exact .inl rfl
    | optSome h =>
      obtain ⟨u1, u2, rfl, h5, h6⟩ := h.body.parts
      obtain ⟨rfl, -⟩ := h5.body.str_eq
      exact .inr ⟨u2, rfl, digits_tree h6⟩
  · cases h4 with
    | optNone => exact .inl rfl
    | optSome h =>
      obtain ⟨u1, u2, rfl, h5, h6⟩ := h.body.parts
      obtain ⟨u3, u4, rfl, h7, h8⟩ := h6.parts
      have he : u1 = ['e'] ∨ u1 = ['E'] := by simpa using h5.literal (n := 4) (l := [['e'], ['E']]) rfl
      have hs : u3 = [] ∨ u3 = ['-'] ∨ u3 = ['+'] := by
        cases h7 with
        | optNone => exact .inl rfl
        | optSome h => exact .inr (by simpa using h.literal (n := 4) (l := [['-'], ['+']]) rfl)
      rcases he with rfl | rfl
      · exact .inr ⟨'e', u3, u4, rfl, .inl rfl, hs, digits_tree h8⟩
      · exact .inr ⟨'E', u3, u4, rfl, .inr rfl, hs, digits_tree h8⟩

theorem char_ne_of {c : Char} {n : Nat} (d : Char) (hd : d.toNat = n) (h : c.toNat ≠ n) : c ≠ d := by
  rintro rfl; exact h hd

theorem text_tree {t ps} (h : Tree selGrammar false (.rule .text) t ps) :
    (∃ x, t = '"' :: x ++ ['"'] ∧ x ≠ [] ∧ ∀ c ∈ x, Quotable c) ∨ (∃ x, t = '\'' :: x ++ ['\''] ∧ x ≠ [] ∧ ∀ c ∈ x, SingleQuotable c) := by
  obtain ⟨ps', -, h⟩ := h.normal rfl
  cases h with
  | choiceR _ h =>
    obtain ⟨ps', -, h⟩ := h.atomic rfl
    obtain ⟨t1, t2, rfl, h1, h⟩ := h.parts
    obtain ⟨x, t3, rfl, h2, h3⟩ := h.parts
    obtain ⟨rfl, -⟩ := h1.str_eq
    obtain ⟨rfl, -⟩ := h3.str_eq
    refine .inl ⟨x, by simp, h2.plus_all (P := Quotable) (fun t ht => ?_)⟩
    have hb := ht.body
    change Tree selGrammar true (.chr (charRange 0x20 0x21) <||> .chr (charRange 0x23 0x5B) <||> .chr (charRange 0x5D 0x10FFFF)) _ _ at hb
    have key : ∃ c, t = [c] ∧ 0x20 ≤ c.toNat ∧ c.toNat ≠ 0x22 ∧ c.toNat ≠ 0x5C := by
      cases hb with
      | choiceL hb => obtain ⟨c, rfl, hc⟩ := hb.chr_one; simp [charRange] at hc; exact ⟨c, rfl, by omega, by omega, by omega⟩
      | choiceR _ hb => cases hb with
        | choiceL hb => obtain ⟨c, rfl, hc⟩ := hb.chr_one; simp [charRange] at hc; exact ⟨c, rfl, by omega, by omega, by omega⟩
        | choiceR _ hb => obtain ⟨c, rfl, hc⟩ := hb.chr_one; simp [charRange] at hc; exact ⟨c, rfl, by omega, by omega, by omega⟩
    obtain ⟨c, rfl, h1, h2, h3⟩ := key
    exact ⟨c, rfl, h1, char_ne_of '"' rfl h2, char_ne_of '\\' rfl h3⟩
  | choiceL h =>
    obtain ⟨ps', -, h⟩ := h.atomic rfl
    obtain ⟨t1, t2, rfl, h1, h⟩ := h.parts
    obtain ⟨x, t3, rfl, h2, h3⟩ := h.parts
    obtain ⟨rfl, -⟩ := h1.str_eq
    obtain ⟨rfl, -⟩ := h3.str_eq
    refine .inr ⟨x, by simp, h2.plus_all (P := SingleQuotable) (fun t ht => ?_)⟩
    have hb := ht.body
    change Tree selGrammar true (.chr (charRange 0x20 0x26) <||> .chr (charRange 0x28 0x5B) <||> .chr (charRange 0x5D 0x10FFFF)) _ _ at hb
    have key : ∃ c, t = [c] ∧ 0x20 ≤ c.toNat ∧ c.toNat ≠ 0x27 ∧ c.toNat ≠ 0x5C := by
      cases hb with
      | choiceL hb => obtain ⟨c, rfl, hc⟩ := hb.chr_one; simp [charRange] at hc; exact ⟨c, rfl, by omega, by omega, by omega⟩
      | choiceR _ hb => cases hb with
        | choiceL hb => obtain ⟨c, rfl, hc⟩ := hb.chr_one; simp [charRange] at hc; exact ⟨c, rfl, by omega, by omega, by omega⟩
        | choiceR _ hb => obtain ⟨c, rfl, hc⟩ := hb.chr_one; simp [charRange] at hc; exact ⟨c, rfl, by omega, by omega, by omega⟩
    obtain ⟨c, rfl, h1, h2, h3⟩ := key
    exact ⟨c, rfl, h1, char_ne_of '\'' rfl h2, char_ne_of '\\' rfl h3⟩

/-! ### Integers -/

theorem digitsValue_snoc (ds : Str) (c : Char) : digitsValue (ds ++ [c]) = 10 * digitsValue ds + (c.toNat - 48) := by
  simp [digitsValue, List.foldl_append]

theorem digitChar_of_digit {c : Char} (h : c.isDigit = true) : c.toNat - 48 < 10 ∧ Nat.digitChar (c.toNat - 48) = c := by
  rw [Char.isDigit_iff_toNat] at h
  simp at h
  have hlt : c.toNat - 48 < 10 := by omega
  refine ⟨hlt, Char.toNat_inj.mp ?_⟩
  rw [Nat.toNat_digitChar_of_lt_ten hlt]; omega

/-- Digits without a superfluous zero are the decimal notation of their value. -/
theorem showNat_digitsValue (ds : Str) (h : IntText ds) : showNat (digitsValue ds) = ds := by
  induction ds using List.reverseRecOn with
  | nil => exact absurd rfl h.1.1
  | append_singleton ds c ih =>
    obtain ⟨⟨hne, hd⟩, h0⟩ := h
    have hc := digitChar_of_digit (hd c (by simp))
    rw [digitsValue_snoc, showNat_eq]
    cases ds with
    | nil =>
      rw [show 10 * digitsValue [] + (c.toNat - 48) = c.toNat - 48 from by simp [digitsValue], Nat.toDigits_of_lt_base hc.1, hc.2]; rfl
    | cons a r =>
      have ha0 : a ≠ '0' := by
        intro e
        have := h0 (by simp [e])
        simp at this
      have hi : IntText (a :: r) := ⟨⟨by simp, fun d hd' => hd d (by
        rw [List.mem_append]; exact .inl hd')⟩, fun e => absurd (by simpa using e) ha0⟩
      have := ih hi
      rw [showNat_eq] at this
      have hpos : 0 < digitsValue (a :: r) := by
        rcases Nat.eq_zero_or_pos (digitsValue (a :: r)) with hz | hp
        · rw [hz] at this
          have : ['0'] = a :: r := this
          injection this with e _
          exact absurd e.symm ha0
        · exact hp
      rw [← Nat.toDigits_append_toDigits (by decide) hpos hc.1, this, Nat.toDigits_of_lt_base hc.1, hc.2]

theorem parseI64_number {t : Str} {n : Int} (ht : NumberText t) (h : parseI64 t = some n) : i64 n ∧ (showInt n = t ∨ (n = 0 ∧ t = %s"-0")) := by
  obtain ⟨sign, int, frac, exp, h1, h2, h3, h4, rfl⟩ := ht
  have nodig : ∀ r : Str, (r.all Char.isDigit) = true → (∀ c ∈ r, c.isDigit = true) := fun r h => List.all_eq_true.mp h
  have hfe : (∀ c ∈ frac ++ exp, c.isDigit = true) → frac = [] ∧ exp = [] := by
    intro hall
    constructor
    · rcases h3 with rfl | ⟨ds, rfl, _⟩
      · rfl
      · exact absurd (hall '.' (by simp)) (by decide)
    · rcases h4 with rfl | ⟨e, sg, ds, rfl, he, _⟩
      · rfl
      · rcases he with rfl | rfl
        · exact absurd (hall 'e' (by simp)) (by decide)
        · exact absurd (hall 'E' (by simp)) (by decide)
  rcases h1 with rfl | rfl
  · -- no sign
    have hhead : ∃ c r, [] ++ int ++ frac ++ exp = c :: r ∧ c.isDigit = true := by
      obtain ⟨⟨hne, hd⟩, _⟩ := h2
      cases int with
      | nil => exact absurd rfl hne
      | cons c s => exact ⟨c, _, rfl, hd c (by simp)⟩
    obtain ⟨c, r, e, hc⟩ := hhead
    rw [e] at h ⊢
    unfold parseI64 at h
    split at h
    · rename_i heq; injection heq with heq _; subst heq; exact absurd hc (by decide)
    · rename_i heq; injection heq with heq _; subst heq; exact absurd hc (by decide)
    · split at h
      · rename_i hcond
        simp only [Bool.and_eq_true, decide_eq_true_eq] at hcond
        injection h with h
        have hall := nodig _ hcond.1.2
        rw [← e] at hall
        obtain ⟨rfl, rfl⟩ := hfe (fun c hc => hall c (by
          simp only [List.nil_append, List.append_assoc, List.mem_append] at hc ⊢
          exact .inr hc))
        simp only [List.nil_append, List.append_nil] at e
        subst e
        subst h
        refine ⟨⟨by omega, by omega⟩, .inl ?_⟩
        rw [showInt_nonneg, showNat_digitsValue _ h2]
      · cases h
  · -- minus
    have e : ['-'] ++ int ++ frac ++ exp = '-' :: (int ++ (frac ++ exp)) := by simp
    rw [e] at h ⊢
    unfold parseI64 at h
    split at h
    · rename_i heq
      injection heq with _ heq
      subst heq
      split at h
      · rename_i hcond
        simp only [Bool.and_eq_true, decide_eq_true_eq] at hcond
        injection h with h
        have hall := nodig _ hcond.1.2
        obtain ⟨rfl, rfl⟩ := hfe (fun c hc => hall c (by rw [List.mem_append]; exact .inr hc))
        simp only [List.append_nil] at hcond h ⊢
        subst h
        refine ⟨⟨by omega, by omega⟩, ?_⟩
        have hs := showNat_digitsValue _ h2
        cases hv : digitsValue int with
        | zero =>
          rw [hv] at hs
          exact .inr ⟨rfl, by rw [← hs]; rfl⟩
        | succ k =>
          refine .inl ?_
          rw [show -((k + 1 : Nat) : Int) = Int.negSucc k from rfl, showInt_neg, ← hv, hs]
      · cases h
    · rename_i heq; injection heq with heq _; exact absurd heq (by decide)
    · rename_i h1 _; exact absurd rfl (h1 _)


/-! ### The readers -/

/-- A result as expected: `P`, or an error that the text explains. -/
def Fine {α : Type} (flt : Str → Option F64) (s : Str) (P : α → Prop) : Except Err α → Prop
  | .ok a => P a
  | .error e => SelectorError flt s e

theorem Fine.bind {α β : Type} {flt s} {P : α → Prop} {Q : β → Prop} {x : Except Err α} {k : α → Except Err β} (h : Fine flt s P x)
    (hk : ∀ a, P a → Fine flt s Q (k a)) : Fine flt s Q (x >>= k) := by
  cases x with
  | ok a => exact hk a h
  | error e => exact h

theorem Fine.map {α β : Type} {flt s} {P : α → Prop} {Q : β → Prop} {x : Except Err α} {k : α → β} (h : Fine flt s P x)
    (hk : ∀ a, P a → Q (k a)) : Fine flt s Q (x.map k) := by
  cases x with
  | ok a => exact hk a h
  | error e => exact h

theorem each_fine {α : Type} {flt s} {P : α → Prop} {rule : SelRule} {f : Pair SelRule → Except Err α} {ps : List (Pair SelRule)}
    (h : ∀ p ∈ ps, p.asRule = rule ∧ Fine flt s P (f p)) : Fine flt s (fun as => as.length = ps.length ∧ ∀ a ∈ as, P a) (each rule f ps) := by
  induction ps with
  | nil => exact ⟨rfl, fun a ha => by cases ha⟩
  | cons p ps ih =>
    unfold each
    rw [if_pos (h p (by simp)).1]
    refine (h p (by simp)).2.bind (fun a ha => (ih (fun q hq => h q (by simp [hq]))).bind (fun as has => ?_))
    refine ⟨by simp [has.1], ?_⟩
    intro b hb
    rcases List.mem_cons.mp hb with rfl | hb
    · exact ha
    · exact has.2 b hb

theorem all_fine {α : Type} {flt s} {P : α → Prop} {f : Pair SelRule → Except Err α} {ps : List (Pair SelRule)}
    (h : ∀ p ∈ ps, Fine flt s P (f p)) : Fine flt s (fun as => as.length = ps.length ∧ ∀ a ∈ as, P a) (all f ps) := by
  induction ps with
  | nil => exact ⟨rfl, fun a ha => by cases ha⟩
  | cons p ps ih =>
    unfold all
    refine (h p (by simp)).bind (fun a ha => (ih (fun q hq => h q (by simp [hq]))).bind (fun as has => ?_))
    refine ⟨by simp [has.1], ?_⟩
    intro b hb
    rcases List.mem_cons.mp hb with rfl | hb
    · exact ha
    · exact has.2 b hb

/-- `x ~ ("sep" ~ x)*` where each `x` is one pair. -/
theorem sepBy_tree {x : SelRule} {sep t : Str} {ps} {Q : Pair SelRule → Prop} (h : Tree selGrammar false (SelGrammar.sepBy sep (.rule x)) t ps)
    (hx : ∀ t' ps', t' <:+: t → Tree selGrammar false (.rule x) t' ps' → ∃ p, ps' = [p] ∧ Q p) : ps ≠ [] ∧ ∀ p ∈ ps, Q p := by
  obtain ⟨t1, p1, t2, p2, rfl, h1, h2, i1, i2⟩ := h.infix_seq
  obtain ⟨p, rfl, hp⟩ := hx _ _ i1 h1
  refine ⟨by simp, ?_⟩
  obtain ⟨xs, rfl, hxs⟩ := h2.rep_parts
  intro q hq
  rcases List.mem_cons.mp hq with rfl | hq
  · exact hp
  · obtain ⟨y, hy, hq⟩ := List.mem_flatMap.mp hq
    obtain ⟨hy1, hy2⟩ := hxs y hy
    obtain ⟨t3, p3, t4, p4, e, h3, h4, i3, i4⟩ := hy1.infix_seq
    rw [h3.str_eq.2, List.nil_append] at e
    obtain ⟨p', rfl, hp'⟩ := hx _ _ (i4.trans (hy2.trans i2)) h4
    rw [e, List.mem_singleton] at hq
    rw [hq]; exact hp'

variable {flt : Str → Option F64} {s : Str}

theorem numberOf_fine {t : Str} (ht : NumberText t) (hi : t <:+: s) : Fine flt s (fun n => ValueIn flt s (.number n)) (numberOf flt t) := by
  unfold numberOf
  split
  · rename_i hdot
    have hdot : '.' ∈ t := by simpa using hdot
    split
    · rename_i x hx; exact .float ht hi hdot hx
    · rename_i hx; exact .inl ⟨rfl, t, hi, ht, .inl ⟨hdot, hx⟩⟩
  · rename_i hdot
    have hdot : '.' ∉ t := by simpa using hdot
    split
    · rename_i n hn
      obtain ⟨h1, h2⟩ := parseI64_number ht hn
      exact .integer ht hi hdot h1 h2
    · rename_i hn
      refine .inl ⟨rfl, t, hi, ht, .inr ⟨hdot, ?_⟩⟩
      rintro n h1 (h2 | ⟨-, h2⟩)
      · rw [← h2, parseI64_showInt n h1] at hn; cases hn
      · rw [h2] at hn; cases hn

theorem value_tree {t ps} (h : Tree selGrammar false (.rule .value) t ps) (hi : t <:+: s) :
    ∃ p, ps = [p] ∧ p.asRule = .value ∧ Fine flt s (ValueIn flt s) (SelParser.value flt p) := by
  obtain ⟨ps', rfl, h'⟩ := h.normal rfl
  refine ⟨_, rfl, rfl, ?_⟩
  clear h
  cases h' with
  | choiceL h =>
    have ht := text_tree h
    obtain ⟨ps'', rfl, -⟩ := h.normal rfl
    change ValueIn flt s (.text (t.drop 1).dropLast)
    rcases ht with ⟨x, rfl, h1, h2⟩ | ⟨x, rfl, h1, h2⟩
    · rw [show (List.drop 1 ('"' :: x ++ ['"'])).dropLast = x from by simp]; exact .double h1 h2 hi
    · rw [show (List.drop 1 ('\'' :: x ++ ['\''])).dropLast = x from by simp]; exact .single h1 h2 hi
  | choiceR _ h => cases h with
    | choiceL h =>
      obtain ⟨ps'', rfl, h'⟩ := h.atomic rfl
      change Fine flt s _ (numberOf flt t >>= fun n => .ok (SelValue.number n))
      exact (numberOf_fine (number_tree h') hi).bind (fun n hn => hn)
    | choiceR _ h =>
      obtain ⟨ps'', rfl, h'⟩ := h.normal rfl
      clear h
      cases h' with
      | choiceL h =>
        obtain ⟨ps3, rfl, h'⟩ := h.atomic rfl
        obtain ⟨t1, t2, rfl, h1, h2⟩ := h'.parts
        obtain ⟨t3, t4, rfl, h3, h4⟩ := h2.parts
        obtain ⟨rfl, -⟩ := h3.str_eq
        have hns := namespace_tree h1.body
        have hn := ident_tree h4.body
        have hval : ShapeID.Valid ⟨t1, t4, none⟩ := ⟨namespace_valid hns, (isIdent_iff t4).mp (isIdent_of_smithy hn), by simp⟩
        have hfs := ShapeID.fromStr_display hval
        have hdisp : ShapeID.display ⟨t1, t4, none⟩ = t1 ++ (['#'] ++ t4) := by simp [ShapeID.display]
        rw [hdisp] at hfs
        change Fine flt s _ (unwrap (ShapeID.fromStr (t1 ++ (['#'] ++ t4))) >>= fun i => .ok (SelValue.absoluteRootShapeId i))
        rw [hfs]
        exact .absolute hns hn hi
      | choiceR _ h =>
        obtain ⟨ps3, rfl, hn⟩ := ident_pair h
        change Fine flt s _ (unwrap (Identifier.fromStr t) >>= fun i => .ok (SelValue.rootShapeId i))
        rw [fromStr_smithy hn]
        exact .root hn hi

theorem segment_tree {t ps} (h : Tree selGrammar false (.rule .pathSegment) t ps) (hi : t <:+: s) :
    ∃ p, ps = [p] ∧ Fine flt s (SegmentOver (ValueIn flt s)) (pathSegmentOf flt p) := by
  obtain ⟨ps', rfl, h'⟩ := h.normal rfl
  refine ⟨_, rfl, ?_⟩
  clear h
  cases h' with
  | choiceL h =>
    obtain ⟨p, rfl, h1, h2⟩ := value_tree (flt := flt) h hi
    obtain ⟨r, t', ps''⟩ := p
    cases h1
    change Fine flt s _ (SelParser.value flt _ >>= fun v => .ok (KeyPathSegment.value v))
    exact h2.bind (fun v hv => .value hv)
  | choiceR _ h =>
    obtain ⟨ps'', rfl, h'⟩ := h.normal rfl
    obtain ⟨t1, p1, t2, p2, rfl, h1, h2, i1, i2⟩ := h'.infix_seq
    obtain ⟨t3, p3, t4, p4, rfl, h3, h4, i3, i4⟩ := h2.infix_seq
    obtain ⟨rfl, rfl⟩ := h1.str_eq
    obtain ⟨rfl, rfl⟩ := h4.str_eq
    obtain ⟨ps3, rfl, hn⟩ := ident_pair h3
    change Fine flt s _ (unwrap (Identifier.fromStr t3) >>= fun i => .ok (KeyPathSegment.functionProperty i))
    rw [fromStr_smithy hn]
    exact .property hn

theorem path_tree {t ps} (h : Tree selGrammar false (.rule .path) t ps) (hi : t <:+: s) :
    ∃ p, ps = [p] ∧ Fine flt s (fun path => path ≠ [] ∧ ∀ x ∈ path, SegmentOver (ValueIn flt s) x) (pathOf flt [p]) := by
  obtain ⟨ps', rfl, h'⟩ := h.normal rfl
  refine ⟨_, rfl, ?_⟩
  obtain ⟨h1, h2⟩ := sepBy_tree h' (fun t' ps' hi' ht' => segment_tree (s := s) (flt := flt) ht' (hi'.trans hi))
  have := all_fine h2
  change Fine flt s _ ((all (pathSegmentOf flt) ps' >>= fun a => Except.ok [a]) >>= fun segs => .ok segs.flatten)
  refine Fine.bind (P := fun segs => segs.flatten ≠ [] ∧ ∀ x ∈ segs.flatten, SegmentOver (ValueIn flt s) x) (Fine.bind this ?_)
    (fun a (ha : a.flatten ≠ [] ∧ ∀ x ∈ a.flatten, SegmentOver (ValueIn flt s) x) => ha)
  rintro a ⟨hl, ha⟩
  change [a].flatten ≠ [] ∧ ∀ x ∈ [a].flatten, _
  simp only [List.flatten_cons, List.flatten_nil, List.append_nil]
  refine ⟨?_, ha⟩
  rintro rfl
  exact h1 (List.length_eq_zero_iff.mp hl.symm)

theorem key_tree {t ps} (h : Tree selGrammar false (.rule .key) t ps) (hi : t <:+: s) :
    ∃ p, ps = [p] ∧ p.asRule = .key ∧ Fine flt s (KeyOver (ValueIn flt s)) (keyOf flt p) := by
  obtain ⟨ps', rfl, h'⟩ := h.normal rfl
  refine ⟨_, rfl, rfl, ?_⟩
  clear h
  obtain ⟨t1, p1, t2, p2, rfl, h1, h2, i1, i2⟩ := h'.infix_seq
  obtain ⟨ps3, rfl, hn⟩ := ident_pair h1
  change Fine flt s _ (unwrap (Identifier.fromStr t1) >>= fun id => pathOf flt p2 >>= fun p => Except.ok (⟨id, p⟩ : SelKey))
  rw [fromStr_smithy hn]
  change Fine flt s _ (pathOf flt p2 >>= fun p => Except.ok (⟨t1, p⟩ : SelKey))
  cases h2 with
  | optNone => exact ⟨hn, fun x hx => by cases hx⟩
  | optSome h2 =>
    obtain ⟨t3, p3, t4, p4, rfl, h3, h4, i3, i4⟩ := h2.infix_seq
    obtain ⟨rfl, rfl⟩ := h3.str_eq
    obtain ⟨q, rfl, hq⟩ := path_tree (flt := flt) h4 (i4.trans (i2.trans hi))
    exact hq.bind (fun p hp => ⟨hn, hp.2⟩)


theorem comparator_tree {t ps} (h : Tree selGrammar false (.rule .comparator) t ps) :
    ∃ p, ps = [p] ∧ p.asRule = .comparator ∧ Fine flt s ReadableComparator (comparatorOf p) := by
  have hl := h.literal (n := 20) (l := [%s"=", %s"!=", %s"^=", %s"$=", %s"*=", %s"?=", %s">", %s"<", %s"{=}", %s"{!=}", %s"{<}", %s"{<<}"]) rfl
  obtain ⟨ps', rfl, -⟩ := h.normal rfl
  refine ⟨_, rfl, rfl, ?_⟩
  have key : ∀ t ∈ [%s"=", %s"!=", %s"^=", %s"$=", %s"*=", %s"?=", %s">", %s"<", %s"{=}", %s"{!=}", %s"{<}", %s"{<<}"],
      ∃ c, ReadableComparator c ∧ Comparator.fromStr t = .ok c := by
    intro t ht
    simp only [List.mem_cons, List.not_mem_nil, or_false] at ht
    rcases ht with rfl | rfl | rfl | rfl | rfl | rfl | rfl | rfl | rfl | rfl | rfl | rfl <;> exact ⟨_, ⟨by decide, by decide⟩, rfl⟩
  obtain ⟨c, h1, h2⟩ := key t hl
  change Fine flt s _ (unwrap (Comparator.fromStr t))
  rw [h2]
  exact h1

/-- The values and the suffix. -/
theorem values_tree {α : Type} {one many : SelRule} {P : α → Prop} {rd : Pair SelRule → Except Err α} {t ps}
    (hk : selGrammar.kind many = .normal) (hbody : selGrammar.body many = SelGrammar.sepBy %s"," (.rule one)) (hs : many ≠ .caseSuffix)
    (hone : ∀ t' ps', t' <:+: s → Tree selGrammar false (.rule one) t' ps' → ∃ p, ps' = [p] ∧ p.asRule = one ∧ Fine flt s P (rd p))
    (h : Tree selGrammar false (.rule many ~> .opt (.rule .caseSuffix)) t ps) (hi : t <:+: s) :
    Fine flt s (fun x : List α × Bool => x.1 ≠ [] ∧ ∀ a ∈ x.1, P a) (valuesAndCase many one rd ps) := by
  obtain ⟨t1, p1, t2, p2, rfl, h1, h2, i1, i2⟩ := h.infix_seq
  obtain ⟨ps', rfl, h'⟩ := h1.normal hk
  rw [hbody] at h'
  obtain ⟨hne, hall⟩ := sepBy_tree h' (fun t' ps' hi' ht' => hone t' ps' (hi'.trans (i1.trans hi)) ht')
  have he := each_fine hall
  have hsuf : ∃ b, valuesAndCase many one rd p2 = .ok ([], b) := by
    cases h2 with
    | optNone => exact ⟨false, rfl⟩
    | optSome h2 =>
      obtain ⟨ps2, rfl, -⟩ := h2.normal rfl
      refine ⟨true, ?_⟩
      unfold valuesAndCase
      rw [if_neg (fun e => hs e.symm), if_pos (show (Pair.mk SelRule.caseSuffix t2 ps2).asRule = SelRule.caseSuffix from rfl)]
      rfl
  obtain ⟨b, hb⟩ := hsuf
  change Fine flt s _ (valuesAndCase many one rd (.mk many t1 ps' :: p2))
  unfold valuesAndCase
  rw [if_pos (show (Pair.mk many t1 ps').asRule = many from rfl), hb]
  refine he.bind (fun as has => ?_)
  change (as ++ []) ≠ [] ∧ ∀ a ∈ as ++ [], P a
  rw [List.append_nil]
  refine ⟨?_, has.2⟩
  rintro rfl
  exact hne (List.length_eq_zero_iff.mp has.1.symm)

theorem comparison_tree {t ps} (h : Tree selGrammar false (.rule .attrComparison) t ps) (hi : t <:+: s) :
    ∃ p, ps = [p] ∧ p.asRule = .attrComparison ∧ Fine flt s (ComparisonOver (ValueIn flt s)) (attrComparisonOf flt p) := by
  obtain ⟨ps', rfl, h'⟩ := h.normal rfl
  refine ⟨_, rfl, rfl, ?_⟩
  obtain ⟨t1, p1, t2, p2, rfl, h1, h2, i1, i2⟩ := h'.infix_seq
  obtain ⟨p, rfl, hp1, hp2⟩ := comparator_tree (flt := flt) (s := s) h1
  have hv := values_tree (rd := SelParser.value flt) (P := ValueIn flt s) (flt := flt) (one := .value) (many := .attrValues) rfl rfl (by decide)
    (fun t' ps' hi' ht' => value_tree ht' hi') h2 (i2.trans hi)
  change Fine flt s _ (comparatorOf p >>= fun c => valuesAndCase SelRule.attrValues SelRule.value (SelParser.value flt) p2 >>= fun x =>
    Except.ok (if x.2 then AttributeComparison.newCaseInsensitive c x.1 else .new c x.1))
  refine hp2.bind (fun c hc => hv.bind (fun x hx => ?_))
  obtain ⟨vs, b⟩ := x
  cases b <;> exact ⟨hc, hx.1, hx.2⟩

theorem attr_tree {t ps} (h : Tree selGrammar false (.rule .attr) t ps) (hi : t <:+: s) :
    ∃ p, ps = [p] ∧ p.asRule = .attr ∧ Fine flt s (fun a => ExpressionOver (ValueIn flt s) (.attributeSelector a)) (attrOf flt p) := by
  obtain ⟨ps', rfl, h'⟩ := h.normal rfl
  refine ⟨_, rfl, rfl, ?_⟩
  clear h
  obtain ⟨t1, p1, t2, p2, rfl, h1, h2, i1, i2⟩ := h'.infix_seq
  obtain ⟨t3, p3, t4, p4, rfl, h3, h4, i3, i4⟩ := h2.infix_seq
  obtain ⟨t5, p5, t6, p6, rfl, h5, h6, i5, i6⟩ := h4.infix_seq
  obtain ⟨rfl, rfl⟩ := h1.str_eq
  obtain ⟨rfl, rfl⟩ := h6.str_eq
  obtain ⟨k, rfl, hk1, hk2⟩ := key_tree (flt := flt) h3 (i3.trans (i2.trans hi))
  obtain ⟨r, tk, pk⟩ := k
  cases hk1
  cases h5 with
  | optNone =>
    change Fine flt s _ (keyOf flt (.mk .key tk pk) >>= fun key => Except.ok (⟨key, none⟩ : AttributeSelector))
    exact hk2.bind (fun k hk => .attr hk (fun c e => by cases e))
  | optSome h5 =>
    obtain ⟨c, rfl, hc1, hc2⟩ := comparison_tree (flt := flt) h5 (i5.trans (i4.trans (i2.trans hi)))
    obtain ⟨r, tc, pc⟩ := c
    cases hc1
    change Fine flt s _ (keyOf flt (.mk .key tk pk) >>= fun key =>
      attrComparisonOf flt (.mk .attrComparison tc pc) >>= fun c => Except.ok (⟨key, some c⟩ : AttributeSelector))
    refine hk2.bind (fun k hk => ?_)
    exact hc2.bind (fun c hc => .attr hk (fun c' e => by injection e with e; rw [← e]; exact hc))

theorem scoped_tree {t ps} (h : Tree selGrammar false (.rule .scopedValue) t ps) (hi : t <:+: s) :
    ∃ p, ps = [p] ∧ p.asRule = .scopedValue ∧ Fine flt s (ScopedOver (ValueIn flt s)) (scopedValueOf flt p) := by
  obtain ⟨ps', rfl, h'⟩ := h.normal rfl
  refine ⟨_, rfl, rfl, ?_⟩
  clear h
  cases h' with
  | choiceL h =>
    obtain ⟨p, rfl, h1, h2⟩ := value_tree (flt := flt) h hi
    obtain ⟨r, t', ps''⟩ := p
    cases h1
    change Fine flt s _ (SelParser.value flt _ >>= fun v => .ok (ScopedValue.value v))
    exact h2.bind (fun v hv => .value hv)
  | choiceR _ h =>
    obtain ⟨ps'', rfl, h'⟩ := h.normal rfl
    obtain ⟨t1, p1, t2, p2, rfl, h1, h2, i1, i2⟩ := h'.infix_seq
    obtain ⟨t3, p3, t4, p4, rfl, h3, h4, i3, i4⟩ := h2.infix_seq
    obtain ⟨rfl, rfl⟩ := h1.str_eq
    obtain ⟨rfl, rfl⟩ := h4.str_eq
    obtain ⟨q, rfl, hq⟩ := path_tree (flt := flt) h3 (i3.trans (i2.trans hi))
    change Fine flt s _ (pathOf flt [q] >>= fun p => .ok (ScopedValue.contextValue p))
    exact hq.bind (fun v hv => .context hv.1 hv.2)

theorem assertion_tree {t ps} (h : Tree selGrammar false (.rule .scopedAssertion) t ps) (hi : t <:+: s) :
    ∃ p, ps = [p] ∧ p.asRule = .scopedAssertion ∧ Fine flt s (AssertionOver (ValueIn flt s)) (scopedAssertionOf flt p) := by
  obtain ⟨ps', rfl, h'⟩ := h.normal rfl
  refine ⟨_, rfl, rfl, ?_⟩
  obtain ⟨t1, p1, t2, p2, rfl, h1, h2, i1, i2⟩ := h'.infix_seq
  obtain ⟨t3, p3, t4, p4, rfl, h3, h4, i3, i4⟩ := h2.infix_seq
  obtain ⟨v, rfl, hv1, hv2⟩ := scoped_tree (flt := flt) h1 (i1.trans hi)
  obtain ⟨p, rfl, hp1, hp2⟩ := comparator_tree (flt := flt) (s := s) h3
  have hv := values_tree (rd := scopedValueOf flt) (P := ScopedOver (ValueIn flt s)) (flt := flt) (one := .scopedValue) (many := .scopedValues) rfl rfl (by decide)
    (fun t' ps' hi' ht' => scoped_tree ht' hi') h4 (i4.trans (i2.trans hi))
  obtain ⟨r, tv, pv⟩ := v
  cases hv1
  change Fine flt s _ (scopedValueOf flt (.mk .scopedValue tv pv) >>= fun v =>
    comparatorOf p >>= fun c => valuesAndCase SelRule.scopedValues SelRule.scopedValue (scopedValueOf flt) p4 >>= fun x =>
    Except.ok (⟨v, c, x.1, x.2⟩ : ScopedAttributeAssertion))
  exact hv2.bind (fun v hv' => hp2.bind (fun c hc => hv.bind (fun x hx => ⟨hv', hc, hx.1, hx.2⟩)))

theorem assertions_tree {t ps} (h : Tree selGrammar false (.rule .scopedAssertions) t ps) (hi : t <:+: s) :
    ∃ p, ps = [p] ∧ p.asRule = .scopedAssertions ∧
      Fine flt s (fun as => as ≠ [] ∧ ∀ a ∈ as, AssertionOver (ValueIn flt s) a) (each SelRule.scopedAssertion (scopedAssertionOf flt) p.intoInner) := by
  obtain ⟨ps', rfl, h'⟩ := h.normal rfl
  refine ⟨_, rfl, rfl, ?_⟩
  obtain ⟨hne, hall⟩ := sepBy_tree h' (fun t' ps' hi' ht' => assertion_tree (s := s) (flt := flt) ht' (hi'.trans hi))
  have := each_fine hall
  change Fine flt s _ (each SelRule.scopedAssertion (scopedAssertionOf flt) ps')
  cases hx : each SelRule.scopedAssertion (scopedAssertionOf flt) ps' with
  | error e => rw [hx] at this; exact this
  | ok as =>
    rw [hx] at this
    obtain ⟨hl, ha⟩ := this
    refine ⟨?_, ha⟩
    rintro rfl
    exact hne (List.length_eq_zero_iff.mp hl.symm)

theorem newScoped_fine {k as} (hk : ∀ k', k = some k' → KeyOver (ValueIn flt s) k') (h1 : as ≠ []) (h2 : ∀ a ∈ as, AssertionOver (ValueIn flt s) a) :
    Fine flt s (fun a => ExpressionOver (ValueIn flt s) (.scopedAttributeSelector a)) (ScopedAttributeSelector.new k as) := by
  have hempty : as.isEmpty = false := by cases as with | nil => exact absurd rfl h1 | cons => rfl
  unfold ScopedAttributeSelector.new
  rw [hempty]
  exact .scopedAttr hk h1 h2

theorem scopedAttr_tree {t ps} (h : Tree selGrammar false (.rule .scopedAttr) t ps) (hi : t <:+: s) :
    ∃ p, ps = [p] ∧ p.asRule = .scopedAttr ∧ Fine flt s (fun a => ExpressionOver (ValueIn flt s) (.scopedAttributeSelector a)) (scopedAttrOf flt p) := by
  obtain ⟨ps', rfl, h'⟩ := h.normal rfl
  refine ⟨_, rfl, rfl, ?_⟩
  clear h
  obtain ⟨t1, p1, t2, p2, rfl, h1, h2, i1, i2⟩ := h'.infix_seq
  obtain ⟨t3, p3, t4, p4, rfl, h3, h4, i3, i4⟩ := h2.infix_seq
  obtain ⟨t5, p5, t6, p6, rfl, h5, h6, i5, i6⟩ := h4.infix_seq
  obtain ⟨t7, p7, t8, p8, rfl, h7, h8, i7, i8⟩ := h6.infix_seq
  obtain ⟨rfl, rfl⟩ := h1.str_eq
  obtain ⟨rfl, rfl⟩ := h5.str_eq
  obtain ⟨rfl, rfl⟩ := h8.str_eq
  obtain ⟨q, rfl, hq1, hq2⟩ := assertions_tree (flt := flt) h7 (i7.trans (i6.trans (i4.trans (i2.trans hi))))
  obtain ⟨r, t', qs⟩ := q
  cases hq1
  cases h3 with
  | optNone =>
    change Fine flt s _ (each SelRule.scopedAssertion (scopedAssertionOf flt) qs >>= fun as => ScopedAttributeSelector.new none as)
    exact Fine.bind hq2 (fun as has => newScoped_fine (fun k e => by cases e) has.1 has.2)
  | optSome h3 =>
    obtain ⟨k, rfl, hk1, hk2⟩ := key_tree (flt := flt) h3 (i3.trans (i2.trans hi))
    obtain ⟨r', t'', ks⟩ := k
    cases hk1
    change Fine flt s _ (do
      let (k, second) ← (do
        let k ← keyOf flt (.mk .key t'' ks)
        return (some k, Pair.mk .scopedAssertions t' qs) : Except Err (Option SelKey × Pair SelRule))
      let as ← if second.asRule = SelRule.scopedAssertions then each SelRule.scopedAssertion (scopedAssertionOf flt) second.intoInner else unexpected
      ScopedAttributeSelector.new k as : Except Err ScopedAttributeSelector)
    cases hx : keyOf flt (.mk .key t'' ks) with
    | error e => rw [hx] at hk2; exact hk2
    | ok k =>
      rw [hx] at hk2
      change Fine flt s _ (each SelRule.scopedAssertion (scopedAssertionOf flt) qs >>= fun as => ScopedAttributeSelector.new (some k) as)
      exact Fine.bind hq2 (fun as has => newScoped_fine (fun k' e => by injection e with e; rw [← e]; exact hk2) has.1 has.2)

theorem names_tree {t ps} (h : Tree selGrammar false (.rule .directedRelationships) t ps) :
    ∃ p, ps = [p] ∧ p.asRule = .directedRelationships ∧
      Fine flt s NamesOver (each SelRule.identifier (fun p => Identifier.fromStr p.asStr) p.intoInner) := by
  obtain ⟨ps', rfl, h'⟩ := h.normal rfl
  refine ⟨_, rfl, rfl, ?_⟩
  obtain ⟨hne, hall⟩ := sepBy_tree (Q := fun p => p.asRule = .identifier ∧ Fine flt s SmithyIdent (Identifier.fromStr p.asStr)) h'
    (fun t' ps' hi' ht' => by
      obtain ⟨ps3, rfl, hn⟩ := ident_pair ht'
      refine ⟨_, rfl, rfl, ?_⟩
      change Fine flt s _ (Identifier.fromStr t')
      rw [fromStr_smithy hn]; exact hn)
  have := each_fine hall
  change Fine flt s _ (each SelRule.identifier (fun p => Identifier.fromStr p.asStr) ps')
  cases hx : each SelRule.identifier (fun p => Identifier.fromStr p.asStr) ps' with
  | error e => rw [hx] at this; exact this
  | ok as =>
    rw [hx] at this
    obtain ⟨hl, ha⟩ := this
    refine ⟨?_, ha⟩
    rintro rfl
    exact hne (List.length_eq_zero_iff.mp hl.symm)

theorem directed_tree {o c : Str} {t ps} (h : Tree selGrammar false (.str o ~> .rule .directedRelationships ~> .str c) t ps) (r : SelRule) (t' : Str) :
    Fine flt s NamesOver (directedOf (.mk r t' ps)) := by
  obtain ⟨t1, p1, t2, p2, rfl, h1, h2, i1, i2⟩ := h.infix_seq
  obtain ⟨t3, p3, t4, p4, rfl, h3, h4, i3, i4⟩ := h2.infix_seq
  obtain ⟨rfl, rfl⟩ := h1.str_eq
  obtain ⟨rfl, rfl⟩ := h4.str_eq
  obtain ⟨q, rfl, hq1, hq2⟩ := names_tree (flt := flt) (s := s) h3
  change Fine flt s _ (if q.asRule = SelRule.directedRelationships then each SelRule.identifier (fun p => Identifier.fromStr p.asStr) q.intoInner else unexpected)
  rw [if_pos hq1]
  exact hq2

theorem shapeTypes_tree {t ps} (h : Tree selGrammar false (.rule .shapeTypes) t ps) (hi : t <:+: s) :
    ∃ p, ps = [p] ∧ p.asRule = .shapeTypes ∧ Fine flt s (fun _ => True) (shapeTypesOf p) := by
  obtain ⟨ps', rfl, h'⟩ := h.normal rfl
  refine ⟨_, rfl, rfl, ?_⟩
  clear h
  cases h' with
  | choiceL h =>
    obtain ⟨rfl, rfl⟩ := h.str_eq
    trivial
  | choiceR _ h =>
    obtain ⟨ps3, rfl, hn⟩ := ident_pair h
    change Fine flt s _ (ShapeType.fromStr t)
    cases hx : ShapeType.fromStr t with
    | ok k => trivial
    | error e =>
      have hno : ∀ k : ShapeType, k.display ≠ t := by
        intro k hk
        have := (C08_shapeType).1 k
        rw [hk, hx] at this; cases this
      refine .inr ⟨t, hi, hn, hno, ?_⟩
      have := (C08_shapeType).2.2 t (fun v e => hno v e.symm)
      rw [hx] at this
      injection this

theorem plus_tree {x : SelRule} {t : Str} {ps} {Q : Pair SelRule → Prop} (h : Tree selGrammar false (.plus (.rule x)) t ps)
    (hx : ∀ t' ps', t' <:+: t → Tree selGrammar false (.rule x) t' ps' → ∃ p, ps' = [p] ∧ Q p) : ps ≠ [] ∧ ∀ p ∈ ps, Q p := by
  obtain ⟨t1, p1, t2, p2, rfl, h1, h2, i1, i2⟩ := h.infix_seq
  obtain ⟨p, rfl, hp⟩ := hx _ _ i1 h1
  refine ⟨by simp, ?_⟩
  obtain ⟨xs, rfl, hxs⟩ := h2.rep_parts
  intro q hq
  rcases List.mem_cons.mp hq with rfl | hq
  · exact hp
  · obtain ⟨y, hy, hq⟩ := List.mem_flatMap.mp hq
    obtain ⟨hy1, hy2⟩ := hxs y hy
    obtain ⟨p, hp1, hp2⟩ := hx _ _ (hy2.trans i2) hy1
    rw [hp1, List.mem_singleton] at hq
    rw [hq]; exact hp2

theorem expressionsOf_fine {ps : List (Pair SelRule)}
    (h : ∀ p ∈ ps, p.asRule = .expression ∧ Fine flt s (ExpressionOver (ValueIn flt s)) (expressionOf flt p)) :
    Fine flt s (fun as => as.length = ps.length ∧ ∀ a ∈ as, ExpressionOver (ValueIn flt s) a) (expressionsOf flt ps) := by
  induction ps with
  | nil => exact ⟨rfl, fun a ha => by cases ha⟩
  | cons p ps ih =>
    have hp := (h p (by simp)).2
    have ih := ih (fun q hq => h q (by simp [hq]))
    unfold expressionsOf
    rw [if_pos (h p (by simp)).1]
    cases h1 : expressionOf flt p with
    | error e => rw [h1] at hp; exact hp
    | ok a =>
      rw [h1] at hp
      cases h2 : expressionsOf flt ps with
      | error e => rw [h2] at ih; exact ih
      | ok as =>
        rw [h2] at ih
        refine ⟨by simp [ih.1], ?_⟩
        intro b hb
        rcases List.mem_cons.mp hb with rfl | hb
        · exact hp
        · exact ih.2 b hb

theorem argumentList_fine {ps : List (Pair SelRule)}
    (h : ∀ p ∈ ps, Fine flt s (SelectorOver (ValueIn flt s)) (selectorOf flt p)) :
    Fine flt s (fun as => as.length = ps.length ∧ ∀ a ∈ as, SelectorOver (ValueIn flt s) a) (argumentList flt ps) := by
  induction ps with
  | nil => exact ⟨rfl, fun a ha => by cases ha⟩
  | cons p ps ih =>
    have hp := h p (by simp)
    have ih := ih (fun q hq => h q (by simp [hq]))
    unfold argumentList
    cases h1 : selectorOf flt p with
    | error e => rw [h1] at hp; exact hp
    | ok a =>
      rw [h1] at hp
      cases h2 : argumentList flt ps with
      | error e => rw [h2] at ih; exact ih
      | ok as =>
        rw [h2] at ih
        refine ⟨by simp [ih.1], ?_⟩
        intro b hb
        rcases List.mem_cons.mp hb with rfl | hb
        · exact hp
        · exact ih.2 b hb

/-- A selector, if its expressions are as expected. -/
theorem selector_tree_of {t ps} (h : Tree selGrammar false (.rule .selector) t ps)
    (he : ∀ t' ps', t' <:+: t → Tree selGrammar false (.rule .expression) t' ps' →
      ∃ p, ps' = [p] ∧ p.asRule = .expression ∧ Fine flt s (ExpressionOver (ValueIn flt s)) (expressionOf flt p)) :
    ∃ p, ps = [p] ∧ p.asRule = .selector ∧ Fine flt s (SelectorOver (ValueIn flt s)) (selectorOf flt p) := by
  obtain ⟨ps', rfl, h'⟩ := h.normal rfl
  refine ⟨_, rfl, rfl, ?_⟩
  obtain ⟨hne, hall⟩ := plus_tree h' he
  have := expressionsOf_fine hall
  change Fine flt s _ (expressionsOf flt ps')
  cases hx : expressionsOf flt ps' with
  | error e => rw [hx] at this; exact this
  | ok as =>
    rw [hx] at this
    obtain ⟨hl, ha⟩ := this
    refine .mk ?_ ha
    rintro rfl
    exact hne (List.length_eq_zero_iff.mp hl.symm)

theorem seq_shorter {u : Str} {b : Expr SelRule} {t ps} (hu : u ≠ []) (h : Tree selGrammar false (.str u ~> b) t ps) :
    ∃ t2, t2 <:+: t ∧ t2.length < t.length ∧ Tree selGrammar false b t2 ps := by
  cases h with
  | @seq _ _ _ t1 p1 w t2 p2 ha _ _ hb =>
    obtain ⟨rfl, rfl⟩ := ha.str_eq
    refine ⟨t2, ⟨t1 ++ w, [], by simp⟩, ?_, hb⟩
    have : 0 < t1.length := List.length_pos_iff.mpr hu
    simp; omega

theorem nameOf_tree {t ps} (h : Tree selGrammar false (.rule .identifier) t ps) : ∃ p, ps = [p] ∧ nameOf p = .ok t ∧ SmithyIdent t := by
  obtain ⟨ps', rfl, hn⟩ := ident_pair h
  exact ⟨_, rfl, fromStr_smithy hn, hn⟩

theorem expression_tree (n : Nat) : ∀ {t ps}, t.length < n → Tree selGrammar false (.rule .expression) t ps → t <:+: s →
    ∃ p, ps = [p] ∧ p.asRule = .expression ∧ Fine flt s (ExpressionOver (ValueIn flt s)) (expressionOf flt p) := by
  induction n with
  | zero => intro t ps h; exact absurd h (Nat.not_lt_zero _)
  | succ n ih =>
    intro t ps hn h hi
    obtain ⟨ps', rfl, h'⟩ := h.normal rfl
    refine ⟨_, rfl, rfl, ?_⟩
    clear h
    have one : ∀ {p}, ps' = [p] → Fine flt s (ExpressionOver (ValueIn flt s)) (innerOf flt p) →
        Fine flt s (ExpressionOver (ValueIn flt s)) (expressionOf flt (.mk .expression t ps')) := by
      rintro p rfl h; exact h
    have sel : ∀ {t' ps}, t'.length < t.length → t' <:+: t → Tree selGrammar false (.rule .selector) t' ps →
        ∃ p, ps = [p] ∧ p.asRule = .selector ∧ Fine flt s (SelectorOver (ValueIn flt s)) (selectorOf flt p) := by
      intro t' ps hl hi' hs
      refine selector_tree_of hs (fun t'' ps'' hi'' he => ih ?_ he (hi''.trans (hi'.trans hi)))
      have := hi''.length_le
      omega
    cases h' with
    | choiceL h =>
      obtain ⟨p, rfl, h1, h2⟩ := shapeTypes_tree (flt := flt) h hi
      obtain ⟨r, tp, pp⟩ := p
      cases h1
      exact one rfl (Fine.map h2 (fun a _ => .shapeType))
    | choiceR _ h => cases h with
    | choiceL h =>
      obtain ⟨p, rfl, h1, h2⟩ := attr_tree (flt := flt) h hi
      obtain ⟨r, tp, pp⟩ := p
      cases h1
      exact one rfl (Fine.map h2 (fun a h => h))
    | choiceR _ h => cases h with
    | choiceL h =>
      obtain ⟨p, rfl, h1, h2⟩ := scopedAttr_tree (flt := flt) h hi
      obtain ⟨r, tp, pp⟩ := p
      cases h1
      exact one rfl (Fine.map h2 (fun a h => h))
    | choiceR _ h => cases h with
    | choiceL h =>
      obtain ⟨ps2, rfl, hb⟩ := h.normal rfl
      refine one rfl ?_
      obtain ⟨t1, i1, l1, h⟩ := seq_shorter (by decide) hb
      obtain ⟨t2, p2, t3, p3, rfl, h2, h3, i2, i3⟩ := h.infix_seq
      obtain ⟨p, rfl, hname, hid⟩ := nameOf_tree h2
      obtain ⟨t4, i4, l4, h4⟩ := seq_shorter (by decide) h3
      obtain ⟨t5, p5, t6, p6, rfl, h5, h6, i5, i6⟩ := h4.infix_seq
      obtain ⟨rfl, rfl⟩ := h6.str_eq
      obtain ⟨ps3, rfl, h7⟩ := h5.normal rfl
      obtain ⟨hne, hall⟩ := sepBy_tree (Q := fun p => Fine flt s (SelectorOver (ValueIn flt s)) (selectorOf flt p)) h7
        (fun t' ps' hi' ht' => by
          have e1 := hi'.length_le
          have e2 := i5.length_le
          have e3 := i3.length_le
          obtain ⟨q, e, _, hq⟩ := sel (by omega) (hi'.trans (i5.trans (i4.trans (i3.trans i1)))) ht'
          exact ⟨q, e, hq⟩)
      have := argumentList_fine hall
      change Fine flt s _ (match nameOf p with
        | .error e => .error e
        | .ok name => match argumentList flt ps3 with
          | .error e => .error e
          | .ok args => SelectorExpression.newFunction name args)
      rw [hname]
      cases hx : argumentList flt ps3 with
      | error e => rw [hx] at this; exact this
      | ok as =>
        rw [hx] at this
        obtain ⟨hl, ha⟩ := this
        have has : as ≠ [] := by
          rintro rfl
          exact hne (List.length_eq_zero_iff.mp hl.symm)
        change Fine flt s _ (SelectorExpression.newFunction t2 as)
        unfold SelectorExpression.newFunction
        cases as with
        | nil => exact absurd rfl has
        | cons a as => exact .function hid has ha
    | choiceR _ h => cases h with
    | choiceL h =>
      obtain ⟨ps2, rfl, hb⟩ := h.normal rfl
      exact one rfl (Fine.map (directed_tree (flt := flt) (s := s) hb _ _) (fun a h => .forwardDirected h))
    | choiceR _ h => cases h with
    | choiceL h =>
      obtain ⟨ps2, rfl, hb⟩ := h.normal rfl
      exact one rfl (Fine.map (directed_tree (flt := flt) (s := s) hb _ _) (fun a h => .reverseDirected h))
    | choiceR _ h => cases h with
    | choiceL h =>
      obtain ⟨ps2, rfl, hb⟩ := h.normal rfl
      exact one rfl (ExpressionOver.forward (V := ValueIn flt s))
    | choiceR _ h => cases h with
    | choiceL h =>
      obtain ⟨ps2, rfl, hb⟩ := h.normal rfl
      exact one rfl (ExpressionOver.reverse (V := ValueIn flt s))
    | choiceR _ h => cases h with
    | choiceL h =>
      obtain ⟨ps2, rfl, hb⟩ := h.normal rfl
      exact one rfl (ExpressionOver.recursive (V := ValueIn flt s))
    | choiceR _ h => cases h with
    | choiceL h =>
      obtain ⟨ps2, rfl, hb⟩ := h.normal rfl
      refine one rfl ?_
      obtain ⟨t1, i1, l1, h⟩ := seq_shorter (by decide) hb
      obtain ⟨t2, p2, t3, p3, rfl, h2, h3, i2, i3⟩ := h.infix_seq
      obtain ⟨p, rfl, hname, hid⟩ := nameOf_tree h2
      obtain ⟨t4, i4, l4, h4⟩ := seq_shorter (by decide) h3
      obtain ⟨t5, p5, t6, p6, rfl, h5, h6, i5, i6⟩ := h4.infix_seq
      obtain ⟨rfl, rfl⟩ := h6.str_eq
      have e2 := i5.length_le
      have e3 := i3.length_le
      obtain ⟨q, rfl, _, hq⟩ := sel (by omega) (i5.trans (i4.trans (i3.trans i1))) h5
      change Fine flt s _ (match nameOf p with
        | .error e => .error e
        | .ok name => match selectorOf flt q with
          | .error e => .error e
          | .ok x => .ok (SelectorExpression.variableDefinition name x))
      rw [hname]
      cases hx : selectorOf flt q with
      | error e => rw [hx] at hq; exact hq
      | ok x => rw [hx] at hq; exact .define hid hq
    | choiceR _ h =>
      obtain ⟨ps2, rfl, hb⟩ := h.normal rfl
      refine one rfl ?_
      obtain ⟨t1, i1, l1, h⟩ := seq_shorter (by decide) hb
      obtain ⟨t2, p2, t3, p3, rfl, h2, h3, i2, i3⟩ := h.infix_seq
      obtain ⟨p, rfl, hname, hid⟩ := nameOf_tree h2
      change Fine flt s _ (nameOf p >>= fun n => .ok (SelectorExpression.variableReference n))
      rw [hname]
      exact .refer hid

/-- The result of reading a matched text. -/
theorem selector_tree {t ps} (h : Tree selGrammar false (.rule .selector) t ps) (hi : t <:+: s) :
    ∃ p, ps = [p] ∧ p.asRule = .selector ∧ Fine flt s (SelectorOver (ValueIn flt s)) (selectorOf flt p) :=
  selector_tree_of h (fun t' ps' hi' he => expression_tree (t'.length + 1) (Nat.lt_succ_self _) he (hi'.trans hi))

end Verif
