/-
Which selectors are read back from their text: C49, exactly.
-/
import Verif.SelectorValues
import Verif.SelectorProps
import Mathlib.Data.List.Forall2

namespace Verif.SelExact
open Peg Spec SelParser

/-! ### Values of selectors of the grammar -/

section
variable {V W : SelValue → Prop}

theorem segment_on {a} (h : SegmentOver V a) (hv : ∀ v ∈ segmentValues a, V v → W v) : SegmentOver W a := by
  cases h with
  | value h => exact .value (hv _ (by simp [segmentValues]) h)
  | property h => exact .property h

theorem key_on {k} (h : KeyOver V k) (hv : ∀ v ∈ keyValues k, V v → W v) : KeyOver W k :=
  ⟨h.1, fun s hs => segment_on (h.2 s hs) fun v hm => hv v (List.mem_flatMap.mpr ⟨s, hs, hm⟩)⟩

theorem scoped_on {a} (h : ScopedOver V a) (hv : ∀ v ∈ scopedValues a, V v → W v) : ScopedOver W a := by
  cases h with
  | value h => exact .value (hv _ (by simp [scopedValues]) h)
  | context h1 h2 => exact .context h1 (fun s hs => segment_on (h2 s hs) fun v hm => hv v (List.mem_flatMap.mpr ⟨s, hs, hm⟩))

theorem assertion_on {k} (h : AssertionOver V k) (hv : ∀ v ∈ assertionValues k, V v → W v) : AssertionOver W k :=
  ⟨scoped_on h.1 fun v hm => hv v (List.mem_append_left _ hm), h.2.1, h.2.2.1,
    fun x hx => scoped_on (h.2.2.2 x hx) fun v hm => hv v (List.mem_append_right _ (List.mem_flatMap.mpr ⟨x, hx, hm⟩))⟩

mutual
  theorem expression_on : ∀ {e}, ExpressionOver V e → (∀ v ∈ expressionValues e, V v → W v) → ExpressionOver W e
    | _, .shapeType, _ => .shapeType
    | _, .attr (a := a) hk hc, hv => .attr (key_on hk fun v hm => hv v (by
        simp only [expressionValues, attributeValues, List.mem_append]; exact .inl hm)) (fun c e => by
        have := hc c e
        refine ⟨this.1, this.2.1, fun v hx => hv v ?_ (this.2.2 v hx)⟩
        simp only [expressionValues, attributeValues, List.mem_append, e]; exact .inr hx)
    | _, .scopedAttr (a := a) hk hn ha, hv => .scopedAttr (fun k e => key_on (hk k e) fun v hm => hv v (by
        simp only [expressionValues, scopedAttributeValues, List.mem_append, e]; exact .inl hm)) hn (fun x h => assertion_on (ha x h) fun v hm => hv v (by
        simp only [expressionValues, scopedAttributeValues, List.mem_append]; exact .inr (List.mem_flatMap.mpr ⟨x, h, hm⟩)))
    | _, .forward, _ => .forward
    | _, .reverse, _ => .reverse
    | _, .recursive, _ => .recursive
    | _, .forwardDirected h, _ => .forwardDirected h
    | _, .reverseDirected h, _ => .reverseDirected h
    | _, .function h1 h2 h3, hv => .function h1 h2 (fun s hs => selector_on (h3 s hs) fun v hm => hv v (by
        rw [expressionValues, argumentValues_eq]; exact List.mem_flatMap.mpr ⟨s, hs, hm⟩))
    | _, .define h1 h2, hv => .define h1 (selector_on h2 fun v hm => hv v hm)
    | _, .refer h, _ => .refer h
  theorem selector_on : ∀ {s}, SelectorOver V s → (∀ v ∈ selectorValues s, V v → W v) → SelectorOver W s
    | _, .mk h1 h2, hv => .mk h1 (fun e he => expression_on (h2 e he) fun v hm => hv v (by
        rw [selectorValues_eq]; exact List.mem_flatMap.mpr ⟨e, he, hm⟩))
end
end

/-! ### Counting characters of a text: outside of values there are no quotes and dots -/

/-- Quotes and dots. -/
def mark (c : Char) : Bool := c == '"' || c == '.'

variable {p : Char → Bool}

theorem ident_count (hp : ∀ c, p c = true → mark c = true) {t : Str} (h : SmithyIdent t) : t.countP p = 0 := by
  have key : ∀ c : Char, c.isAlpha = true ∨ c.isDigit = true ∨ c = '_' → ¬ p c = true := by
    intro c hc hpc
    have := hp c hpc
    simp only [mark, Bool.or_eq_true, beq_iff_eq] at this
    rcases this with rfl | rfl <;> revert hc <;> decide
  rw [List.countP_eq_zero]
  cases h with
  | plain ha hr =>
    intro c hc
    rcases List.mem_cons.mp hc with rfl | hc
    · exact key _ (.inl ha)
    · exact key _ (hr c hc)
  | underscore ha hr =>
    intro c hc
    rcases List.mem_cons.mp hc with rfl | hc
    · exact key _ (by decide)
    · rcases List.mem_cons.mp hc with rfl | hc
      · exact key _ (.inl ha)
      · exact key _ (hr c hc)

mutual
  /-- The texts of the values in a pair. -/
  def tokensOf : Pair SelRule → List Str
    | .mk r t ps => if r = .value then [t] else tokens ps
  termination_by structural x => x
  /-- The texts of the values in pairs. -/
  def tokens : List (Pair SelRule) → List Str
    | [] => []
    | q :: ps => tokensOf q ++ tokens ps
  termination_by structural x => x
end

theorem tokens_append (a b : List (Pair SelRule)) : tokens (a ++ b) = tokens a ++ tokens b := by
  induction a with
  | nil => rfl
  | cons q a ih => simp [tokens, ih]

/-- Literals without quotes and dots, and rules. -/
def plain (inside : SelRule → Bool) : Expr SelRule → Bool
  | .str u => u.all fun c => !mark c
  | .chr _ => false
  | .seq a b => plain inside a && plain inside b
  | .choice a b => plain inside a && plain inside b
  | .opt a => plain inside a
  | .rep a => plain inside a
  | .more a => plain inside a
  | .not _ => true
  | .rule r => !inside r
  | .soi => true
  | .eoi => true

/-- The rules that are only used in values and identifiers. -/
def inside : SelRule → Bool
  | .text | .number | .rootShapeId | .singleQuotedText | .doubleQuotedText | .singleQuotedChar | .doubleQuotedChar | .nsName
  | .absoluteRootShapeId | .decimalPoint | .expLetter | .exp | .fraction | .int | .minus | .plus | .zero => true
  | _ => false

theorem outside_plain (r : SelRule) (h : inside r = false) (h1 : r ≠ .value) (h2 : r ≠ .identifier) :
    selGrammar.kind r = .normal ∧ plain inside (selGrammar.body r) = true := by
  revert h h1 h2
  cases r <;> decide

theorem literal_count (hp : ∀ c, p c = true → mark c = true) {u : Str} (h : (u.all fun c => !mark c) = true) : u.countP p = 0 := by
  rw [List.countP_eq_zero]
  intro c hc hpc
  have := List.all_eq_true.mp h c hc
  rw [hp c hpc] at this; cases this

theorem white_count (hp : ∀ c, p c = true → mark c = true) {w : Str} (h : ∀ c ∈ w, selGrammar.ws c = true) : w.countP p = 0 := by
  rw [List.countP_eq_zero]
  intro c hc hpc
  have h1 := hp c hpc
  have h2 := h c hc
  change selWhite c = true at h2
  simp only [mark, selWhite, Bool.or_eq_true, beq_iff_eq] at h1 h2
  rcases h1 with rfl | rfl <;> revert h2 <;> decide

/-- All quotes and dots are in the values. -/
theorem tree_count (hp : ∀ c, p c = true → mark c = true) {m e t ps} (h : Tree selGrammar m e t ps) : m = false → plain inside e = true →
    t.countP p = ((tokens ps).map (·.countP p)).sum := by
  induction h with
  | str => intro _ hk; rw [literal_count hp hk]; rfl
  | chr => intro _ hk; cases hk
  | seq _ _ hw _ ia ib =>
    intro hm hk
    simp only [plain, Bool.and_eq_true] at hk
    simp [tokens_append, ia hm hk.1, ib hm hk.2, white_count hp hw]
  | choiceL _ ia => intro hm hk; simp only [plain, Bool.and_eq_true] at hk; exact ia hm hk.1
  | choiceR _ _ ib => intro hm hk; simp only [plain, Bool.and_eq_true] at hk; exact ib hm hk.2
  | optSome _ ia => intro hm hk; exact ia hm hk
  | optNone | repNone | moreNone | not | soi => intro _ _; rfl
  | repSome _ _ ia ib => intro hm hk; simp [tokens_append, ia hm hk, ib hm hk]
  | moreSome _ hw _ _ ia ib => intro hm hk; simp [tokens_append, ia hm hk, ib hm hk, white_count hp hw]
  | @rule m r t ps h ih =>
    rintro rfl hk
    by_cases hv : r = .value
    · subst hv
      simp [Grammar.pairs, selGrammar, SelGrammar.kind, tokens, tokensOf]
    by_cases hi : r = .identifier
    · subst hi
      have hps := Tree.noPairs h
      subst hps
      rw [ident_count hp (ident_tree h)]
      simp [Grammar.pairs, selGrammar, SelGrammar.kind, tokens, tokensOf]
    simp only [plain, Bool.not_eq_true'] at hk
    obtain ⟨h1, h2⟩ := outside_plain r hk hv hi
    have hm : selGrammar.mode false r = false := by simp [Grammar.mode, h1]
    rw [ih hm h2]
    simp [Grammar.pairs, h1, tokens, tokensOf, hv]
  | @eoi m => rintro rfl _; rfl

/-! ### Which values are read from which texts -/

/-- The value that is read from a text. -/
inductive Tok (flt : Str → Option F64) : Str → SelValue → Prop
  | double {x} : x ≠ [] → (∀ c ∈ x, Quotable c) → Tok flt ('"' :: x ++ ['"']) (.text x)
  | single {x} : x ≠ [] → (∀ c ∈ x, SingleQuotable c) → Tok flt ('\'' :: x ++ ['\'']) (.text x)
  | integer {n t} : NumberText t → '.' ∉ t → Tok flt t (.number (.integer n))
  | float {x t} : NumberText t → '.' ∈ t → Tok flt t (.number (.float x))
  | root {t} : SmithyIdent t → Tok flt t (.rootShapeId t)
  | absolute {ns n} : SmithyIdent n → Tok flt (ns ++ '#' :: n) (.absoluteRootShapeId ⟨ns, n, none⟩)

/-- If there is a result, its values are read from these texts. -/
def Gives {α : Type} (flt : Str → Option F64) (ts : List Str) (vals : α → List SelValue) (x : Except Err α) : Prop :=
  ∀ a, x = .ok a → List.Forall₂ (Tok flt) ts (vals a)

theorem bound {α β : Type} {x : Except Err α} {k : α → Except Err β} {b : β} (h : (x >>= k) = .ok b) : ∃ a, x = .ok a ∧ k a = .ok b := by
  cases x with
  | ok a => exact ⟨a, rfl, h⟩
  | error e => cases h

theorem mapped {α β : Type} {x : Except Err α} {k : α → β} {b : β} (h : x.map k = .ok b) : ∃ a, x = .ok a ∧ k a = b := by
  cases x with
  | ok a => cases h; exact ⟨a, rfl, rfl⟩
  | error e => cases h

theorem both {flt : Str → Option F64} {a b : List Str} {v w : List SelValue} (h : List.Forall₂ (Tok flt) a v) (h' : List.Forall₂ (Tok flt) b w) :
    List.Forall₂ (Tok flt) (a ++ b) (v ++ w) := List.rel_append h h'

variable {flt : Str → Option F64}

theorem each_gives {α : Type} {vals : α → List SelValue} {rule : SelRule} {f : Pair SelRule → Except Err α} {ps : List (Pair SelRule)}
    (h : ∀ q ∈ ps, Gives flt (tokensOf q) vals (f q)) : Gives flt (tokens ps) (fun as => as.flatMap vals) (each rule f ps) := by
  induction ps with
  | nil => intro a ha; cases ha; exact .nil
  | cons q ps ih =>
    intro b hb
    unfold each at hb
    split at hb
    · obtain ⟨a, ha, hb⟩ := bound hb
      obtain ⟨as, has, hb⟩ := bound hb
      cases hb
      exact both (h q (by simp) a ha) (ih (fun x hx => h x (by simp [hx])) as has)
    · cases hb

theorem all_gives {α : Type} {vals : α → List SelValue} {f : Pair SelRule → Except Err α} {ps : List (Pair SelRule)}
    (h : ∀ q ∈ ps, Gives flt (tokensOf q) vals (f q)) : Gives flt (tokens ps) (fun as => as.flatMap vals) (all f ps) := by
  induction ps with
  | nil => intro a ha; cases ha; exact .nil
  | cons q ps ih =>
    intro b hb
    unfold all at hb
    obtain ⟨a, ha, hb⟩ := bound hb
    obtain ⟨as, has, hb⟩ := bound hb
    cases hb
    exact both (h q (by simp) a ha) (ih (fun x hx => h x (by simp [hx])) as has)

/-! ### No values -/

/-- No value in these expressions. -/
def bare : Nat → Expr SelRule → Bool
  | 0, _ => false
  | n + 1, e =>
    match e with
    | .seq a b | .choice a b => bare n a && bare n b
    | .opt a | .rep a | .more a => bare n a
    | .rule r => decide (r ≠ .value) && bare n (selGrammar.body r)
    | _ => true

theorem bare_tokens {m e t ps} (h : Tree selGrammar m e t ps) : ∀ n, bare n e = true → tokens ps = [] := by
  induction h with
  | str | chr | optNone | repNone | moreNone | not | soi => intros; rfl
  | eoi => intro _ _; split <;> rfl
  | seq _ _ _ _ ia ib =>
    intro n hn
    cases n with
    | zero => cases hn
    | succ n => simp only [bare, Bool.and_eq_true] at hn; rw [tokens_append, ia n hn.1, ib n hn.2]; rfl
  | choiceL _ ia =>
    intro n hn
    cases n with
    | zero => cases hn
    | succ n => simp only [bare, Bool.and_eq_true] at hn; exact ia n hn.1
  | choiceR _ _ ib =>
    intro n hn
    cases n with
    | zero => cases hn
    | succ n => simp only [bare, Bool.and_eq_true] at hn; exact ib n hn.2
  | optSome _ ia =>
    intro n hn
    cases n with
    | zero => cases hn
    | succ n => exact ia n hn
  | repSome _ _ ia ib =>
    intro n hn
    cases n with
    | zero => cases hn
    | succ n => rw [tokens_append, ia n hn, ib (n + 1) hn]; rfl
  | moreSome _ _ _ _ ia ib =>
    intro n hn
    cases n with
    | zero => cases hn
    | succ n => rw [tokens_append, ia n hn, ib (n + 1) hn]; rfl
  | @rule m r t ps h ih =>
    intro n hn
    cases n with
    | zero => cases hn
    | succ n =>
      simp only [bare, Bool.and_eq_true, decide_eq_true_eq] at hn
      have := ih n hn.2
      unfold Grammar.pairs
      split
      · rfl
      · cases selGrammar.kind r <;> simp [tokens, tokensOf, hn.1, this]

/-! ### The readers -/

theorem sepBy_all {x : SelRule} {sep t : Str} {ps} {Q : Pair SelRule → Prop} (h : Tree selGrammar false (SelGrammar.sepBy sep (.rule x)) t ps)
    (hx : ∀ t' ps', t' <:+: t → Tree selGrammar false (.rule x) t' ps' → ∃ p, ps' = [p] ∧ Q p) : ∀ p ∈ ps, Q p := (sepBy_tree h hx).2

theorem value_gives {t ps} (h : Tree selGrammar false (.rule .value) t ps) :
    ∃ q, ps = [q] ∧ q.asRule = .value ∧ Gives flt (tokensOf q) (fun v => [v]) (SelParser.value flt q) := by
  obtain ⟨ps', rfl, h'⟩ := h.normal rfl
  refine ⟨_, rfl, rfl, ?_⟩
  clear h
  intro v hv
  rw [show tokensOf (.mk SelRule.value t ps') = [t] from rfl]
  refine .cons ?_ .nil
  cases h' with
  | choiceL h =>
    have ht := text_tree h
    obtain ⟨ps'', rfl, -⟩ := h.normal rfl
    change Except.ok (SelValue.text (t.drop 1).dropLast) = .ok v at hv
    cases hv
    rcases ht with ⟨x, rfl, h1, h2⟩ | ⟨x, rfl, h1, h2⟩
    · rw [show (List.drop 1 ('"' :: x ++ ['"'])).dropLast = x from by simp]; exact .double h1 h2
    · rw [show (List.drop 1 ('\'' :: x ++ ['\''])).dropLast = x from by simp]; exact .single h1 h2
  | choiceR _ h => cases h with
    | choiceL h =>
      obtain ⟨ps'', rfl, h'⟩ := h.atomic rfl
      change (numberOf flt t >>= fun n => .ok (SelValue.number n)) = .ok v at hv
      obtain ⟨n, hn, hv⟩ := bound hv
      cases hv
      unfold numberOf at hn
      split at hn
      · rename_i hdot
        split at hn
        · cases hn; exact .float (number_tree h') (by simpa using hdot)
        · cases hn
      · rename_i hdot
        split at hn
        · cases hn; exact .integer (number_tree h') (by simpa using hdot)
        · cases hn
    | choiceR _ h =>
      obtain ⟨ps'', rfl, h'⟩ := h.normal rfl
      clear h
      cases h' with
      | choiceL h =>
        obtain ⟨ps3, rfl, h'⟩ := h.atomic rfl
        obtain ⟨t1, t2, rfl, h1, h2⟩ := h'.parts
        obtain ⟨t3, t4, rfl, h3, h4⟩ := h2.parts
        obtain ⟨rfl, -⟩ := h3.str_eq
        have hns := namespace_tree h1.body
        have hn := ident_tree h4.body
        have hval : ShapeID.Valid ⟨t1, t4, none⟩ := ⟨namespace_valid hns, (isIdent_iff t4).mp (isIdent_of_smithy hn), by simp⟩
        have hfs := ShapeID.fromStr_display hval
        have hdisp : ShapeID.display ⟨t1, t4, none⟩ = t1 ++ (['#'] ++ t4) := by simp [ShapeID.display]
        rw [hdisp] at hfs
        change (unwrap (ShapeID.fromStr (t1 ++ (['#'] ++ t4))) >>= fun i => .ok (SelValue.absoluteRootShapeId i)) = .ok v at hv
        rw [hfs] at hv
        cases hv
        exact .absolute hn
      | choiceR _ h =>
        obtain ⟨ps3, rfl, hn⟩ := ident_pair h
        change (unwrap (Identifier.fromStr t) >>= fun i => .ok (SelValue.rootShapeId i)) = .ok v at hv
        rw [fromStr_smithy hn] at hv
        cases hv
        exact .root hn

theorem segment_gives {t ps} (h : Tree selGrammar false (.rule .pathSegment) t ps) :
    ∃ q, ps = [q] ∧ Gives flt (tokensOf q) segmentValues (pathSegmentOf flt q) := by
  obtain ⟨ps', rfl, h'⟩ := h.normal rfl
  refine ⟨_, rfl, ?_⟩
  clear h
  intro a ha
  cases h' with
  | choiceL h =>
    obtain ⟨q, rfl, h1, h2⟩ := value_gives (flt := flt) h
    obtain ⟨r, t', ps''⟩ := q
    cases h1
    obtain ⟨v, hv, ha⟩ := bound (show (SelParser.value flt (.mk .value t' ps'') >>= fun v => .ok (KeyPathSegment.value v)) = .ok a from ha)
    cases ha
    exact h2 v hv
  | choiceR _ h =>
    have hb := bare_tokens h 20 rfl
    obtain ⟨ps'', rfl, h'⟩ := h.normal rfl
    change List.Forall₂ _ (tokens [_]) _
    rw [hb]
    obtain ⟨t1, p1, t2, p2, rfl, h1, h2, i1, i2⟩ := h'.infix_seq
    obtain ⟨t3, p3, t4, p4, rfl, h3, h4, i3, i4⟩ := h2.infix_seq
    obtain ⟨rfl, rfl⟩ := h1.str_eq
    obtain ⟨rfl, rfl⟩ := h4.str_eq
    obtain ⟨ps3, rfl, hn⟩ := ident_pair h3
    obtain ⟨v, hv, ha⟩ := bound (show (unwrap (Identifier.fromStr t3) >>= fun i => .ok (KeyPathSegment.functionProperty i)) = .ok a from ha)
    cases ha
    exact .nil

theorem path_gives {t ps} (h : Tree selGrammar false (.rule .path) t ps) :
    Gives flt (tokens ps) (fun path : List KeyPathSegment => path.flatMap segmentValues) (pathOf flt ps) := by
  obtain ⟨ps', rfl, h'⟩ := h.normal rfl
  have h2 := all_gives (sepBy_all h' (fun t' ps' _ ht' => segment_gives (flt := flt) ht'))
  intro a ha
  obtain ⟨segs, hs, ha⟩ := bound (show ((all (pathSegmentOf flt) ps' >>= fun a => Except.ok [a]) >>= fun segs => .ok segs.flatten) = .ok a from ha)
  obtain ⟨l, hl, hs⟩ := bound hs
  cases hs
  cases ha
  have := h2 l hl
  simpa [tokens, tokensOf] using this

theorem key_gives {t ps} (h : Tree selGrammar false (.rule .key) t ps) :
    ∃ q, ps = [q] ∧ q.asRule = .key ∧ Gives flt (tokensOf q) keyValues (keyOf flt q) := by
  obtain ⟨ps', rfl, h'⟩ := h.normal rfl
  refine ⟨_, rfl, rfl, ?_⟩
  clear h
  intro a ha
  obtain ⟨t1, p1, t2, p2, rfl, h1, h2, i1, i2⟩ := h'.infix_seq
  have hb := bare_tokens h1 20 rfl
  obtain ⟨ps3, rfl, hn⟩ := ident_pair h1
  obtain ⟨i, hi, ha⟩ := bound (show (unwrap (Identifier.fromStr t1) >>= fun id => pathOf flt p2 >>= fun p => Except.ok (⟨id, p⟩ : SelKey)) = .ok a from ha)
  obtain ⟨path, hp, ha⟩ := bound ha
  cases ha
  rw [show tokensOf (.mk SelRule.key t ([Pair.mk SelRule.identifier t1 ps3] ++ p2)) = tokens ([Pair.mk SelRule.identifier t1 ps3] ++ p2) from rfl,
    tokens_append, hb]
  cases h2 with
  | optNone => cases hp; exact .nil
  | optSome h2 =>
    obtain ⟨t3, p3, t4, p4, rfl, h3, h4, i3, i4⟩ := h2.infix_seq
    obtain ⟨rfl, rfl⟩ := h3.str_eq
    exact path_gives h4 _ hp

theorem values_gives {α : Type} {one many : SelRule} {vals : α → List SelValue} {rd : Pair SelRule → Except Err α} {t ps}
    (hk : selGrammar.kind many = .normal) (hbody : selGrammar.body many = SelGrammar.sepBy %s"," (.rule one)) (hs : many ≠ .caseSuffix) (hv : many ≠ .value)
    (hone : ∀ t' ps', Tree selGrammar false (.rule one) t' ps' → ∃ q, ps' = [q] ∧ Gives flt (tokensOf q) vals (rd q))
    (h : Tree selGrammar false (.rule many ~> .opt (.rule .caseSuffix)) t ps) :
    Gives flt (tokens ps) (fun x : List α × Bool => x.1.flatMap vals) (valuesAndCase many one rd ps) := by
  obtain ⟨t1, p1, t2, p2, rfl, h1, h2, i1, i2⟩ := h.infix_seq
  obtain ⟨ps', rfl, h'⟩ := h1.normal hk
  rw [hbody] at h'
  have he := each_gives (flt := flt) (rule := one) (sepBy_all h' (fun t' ps' _ ht' => hone t' ps' ht'))
  have hsuf : (∃ b, valuesAndCase many one rd p2 = .ok ([], b)) ∧ tokens p2 = [] := by
    cases h2 with
    | optNone => exact ⟨⟨false, rfl⟩, rfl⟩
    | optSome h2 =>
      have hb := bare_tokens h2 20 rfl
      obtain ⟨ps2, rfl, -⟩ := h2.normal rfl
      refine ⟨⟨true, ?_⟩, hb⟩
      unfold valuesAndCase
      rw [if_neg (fun e => hs e.symm), if_pos (show (Pair.mk SelRule.caseSuffix t2 ps2).asRule = SelRule.caseSuffix from rfl)]
      rfl
  obtain ⟨⟨b, hb⟩, hb'⟩ := hsuf
  intro a ha
  rw [tokens_append, hb']
  change valuesAndCase many one rd (.mk many t1 ps' :: p2) = _ at ha
  unfold valuesAndCase at ha
  rw [if_pos (show (Pair.mk many t1 ps').asRule = many from rfl), hb] at ha
  obtain ⟨vs, h3, ha⟩ := bound ha
  cases ha
  have := he vs h3
  simpa [tokens, tokensOf, hv] using this

theorem comparison_gives {t ps} (h : Tree selGrammar false (.rule .attrComparison) t ps) :
    ∃ q, ps = [q] ∧ q.asRule = .attrComparison ∧ Gives flt (tokensOf q) AttributeComparison.rhsValues (attrComparisonOf flt q) := by
  obtain ⟨ps', rfl, h'⟩ := h.normal rfl
  refine ⟨_, rfl, rfl, ?_⟩
  clear h
  obtain ⟨t1, p1, t2, p2, rfl, h1, h2, i1, i2⟩ := h'.infix_seq
  have hb := bare_tokens h1 20 rfl
  obtain ⟨ps3, rfl, -⟩ := h1.normal rfl
  have hv := values_gives (rd := SelParser.value flt) (vals := fun v => [v]) (flt := flt) (one := .value) (many := .attrValues) rfl rfl (by decide) (by decide)
    (fun t' ps' ht' => by obtain ⟨q, e, _, hq⟩ := value_gives (flt := flt) ht'; exact ⟨q, e, hq⟩) h2
  intro a ha
  obtain ⟨c, hc, ha⟩ := bound (show (comparatorOf (.mk SelRule.comparator t1 ps3) >>= fun c =>
    valuesAndCase SelRule.attrValues SelRule.value (SelParser.value flt) p2 >>= fun x =>
    Except.ok (if x.2 then AttributeComparison.newCaseInsensitive c x.1 else .new c x.1)) = .ok a from ha)
  obtain ⟨x, hx, ha⟩ := bound ha
  have := hv x hx
  rw [show tokensOf (.mk SelRule.attrComparison t ([Pair.mk SelRule.comparator t1 ps3] ++ p2)) = tokens ([Pair.mk SelRule.comparator t1 ps3] ++ p2) from rfl,
    tokens_append, hb]
  have ev : x.1.flatMap (fun v => [v]) = a.rhsValues := by
    obtain ⟨vs, b⟩ := x
    cases b <;> cases ha <;> simp [AttributeComparison.new, AttributeComparison.newCaseInsensitive]
  rw [← ev]; exact this

theorem attr_gives {t ps} (h : Tree selGrammar false (.rule .attr) t ps) :
    ∃ q, ps = [q] ∧ q.asRule = .attr ∧ Gives flt (tokensOf q) attributeValues (attrOf flt q) := by
  obtain ⟨ps', rfl, h'⟩ := h.normal rfl
  refine ⟨_, rfl, rfl, ?_⟩
  clear h
  obtain ⟨t1, p1, t2, p2, rfl, h1, h2, i1, i2⟩ := h'.infix_seq
  obtain ⟨t3, p3, t4, p4, rfl, h3, h4, i3, i4⟩ := h2.infix_seq
  obtain ⟨t5, p5, t6, p6, rfl, h5, h6, i5, i6⟩ := h4.infix_seq
  obtain ⟨rfl, rfl⟩ := h1.str_eq
  obtain ⟨rfl, rfl⟩ := h6.str_eq
  obtain ⟨k, rfl, hk1, hk2⟩ := key_gives (flt := flt) h3
  obtain ⟨r, tk, pk⟩ := k
  cases hk1
  intro a ha
  cases h5 with
  | optNone =>
    obtain ⟨k, hk, ha⟩ := bound (show (keyOf flt (.mk .key tk pk) >>= fun key => Except.ok (⟨key, none⟩ : AttributeSelector)) = .ok a from ha)
    cases ha
    exact both (hk2 k hk) .nil
  | optSome h5 =>
    obtain ⟨c, rfl, hc1, hc2⟩ := comparison_gives (flt := flt) h5
    obtain ⟨r, tc, pc⟩ := c
    cases hc1
    obtain ⟨k, hk, ha⟩ := bound (show (keyOf flt (.mk .key tk pk) >>= fun key =>
      attrComparisonOf flt (.mk .attrComparison tc pc) >>= fun c => Except.ok (⟨key, some c⟩ : AttributeSelector)) = .ok a from ha)
    obtain ⟨c, hc, ha⟩ := bound ha
    cases ha
    have := both (hk2 k hk) (hc2 c hc)
    simpa [tokens, tokensOf, attributeValues] using this

theorem scoped_gives {t ps} (h : Tree selGrammar false (.rule .scopedValue) t ps) :
    ∃ q, ps = [q] ∧ q.asRule = .scopedValue ∧ Gives flt (tokensOf q) scopedValues (scopedValueOf flt q) := by
  obtain ⟨ps', rfl, h'⟩ := h.normal rfl
  refine ⟨_, rfl, rfl, ?_⟩
  clear h
  intro a ha
  cases h' with
  | choiceL h =>
    obtain ⟨q, rfl, h1, h2⟩ := value_gives (flt := flt) h
    obtain ⟨r, t', ps''⟩ := q
    cases h1
    obtain ⟨v, hv, ha⟩ := bound (show (SelParser.value flt (.mk .value t' ps'') >>= fun v => .ok (ScopedValue.value v)) = .ok a from ha)
    cases ha
    exact h2 v hv
  | choiceR _ h =>
    obtain ⟨ps'', rfl, h'⟩ := h.normal rfl
    obtain ⟨t1, p1, t2, p2, rfl, h1, h2, i1, i2⟩ := h'.infix_seq
    obtain ⟨t3, p3, t4, p4, rfl, h3, h4, i3, i4⟩ := h2.infix_seq
    obtain ⟨rfl, rfl⟩ := h1.str_eq
    obtain ⟨rfl, rfl⟩ := h4.str_eq
    have hq := path_gives (flt := flt) h3
    obtain ⟨p, hp, ha⟩ := bound (show (pathOf flt ([] ++ (p3 ++ [])) >>= fun p => .ok (ScopedValue.contextValue p)) = .ok a from ha)
    cases ha
    have e : ([] ++ (p3 ++ []) : List (Pair SelRule)) = p3 := by simp
    rw [e] at hp
    have := hq p hp
    simpa [tokens, tokensOf, scopedValues] using this

theorem assertion_gives {t ps} (h : Tree selGrammar false (.rule .scopedAssertion) t ps) :
    ∃ q, ps = [q] ∧ q.asRule = .scopedAssertion ∧ Gives flt (tokensOf q) assertionValues (scopedAssertionOf flt q) := by
  obtain ⟨ps', rfl, h'⟩ := h.normal rfl
  refine ⟨_, rfl, rfl, ?_⟩
  clear h
  obtain ⟨t1, p1, t2, p2, rfl, h1, h2, i1, i2⟩ := h'.infix_seq
  obtain ⟨t3, p3, t4, p4, rfl, h3, h4, i3, i4⟩ := h2.infix_seq
  obtain ⟨v, rfl, hv1, hv2⟩ := scoped_gives (flt := flt) h1
  have hb := bare_tokens h3 20 rfl
  obtain ⟨pc, rfl, -⟩ := h3.normal rfl
  have hv := values_gives (rd := scopedValueOf flt) (vals := scopedValues) (flt := flt) (one := .scopedValue) (many := .scopedValues) rfl rfl (by decide) (by decide)
    (fun t' ps' ht' => by obtain ⟨q, e, _, hq⟩ := scoped_gives (flt := flt) ht'; exact ⟨q, e, hq⟩) h4
  obtain ⟨r, tv, pv⟩ := v
  cases hv1
  intro a ha
  obtain ⟨v, hv', ha⟩ := bound (show (scopedValueOf flt (.mk .scopedValue tv pv) >>= fun v =>
    comparatorOf (.mk SelRule.comparator t3 pc) >>= fun c => valuesAndCase SelRule.scopedValues SelRule.scopedValue (scopedValueOf flt) p4 >>= fun x =>
    Except.ok (⟨v, c, x.1, x.2⟩ : ScopedAttributeAssertion)) = .ok a from ha)
  obtain ⟨c, hc, ha⟩ := bound ha
  obtain ⟨x, hx, ha⟩ := bound ha
  cases ha
  have := both (hv2 v hv') (hv x hx)
  rw [show tokensOf (.mk SelRule.scopedAssertion t ([Pair.mk SelRule.scopedValue tv pv] ++ ([Pair.mk SelRule.comparator t3 pc] ++ p4))) =
    tokens ([Pair.mk SelRule.scopedValue tv pv] ++ ([Pair.mk SelRule.comparator t3 pc] ++ p4)) from rfl, tokens_append, tokens_append, hb]
  simpa [tokens, assertionValues] using this

theorem assertions_gives {t ps} (h : Tree selGrammar false (.rule .scopedAssertions) t ps) :
    ∃ q, ps = [q] ∧ q.asRule = .scopedAssertions ∧
      Gives flt (tokensOf q) (fun as => as.flatMap assertionValues) (each SelRule.scopedAssertion (scopedAssertionOf flt) q.intoInner) := by
  obtain ⟨ps', rfl, h'⟩ := h.normal rfl
  refine ⟨_, rfl, rfl, ?_⟩
  exact each_gives (sepBy_all h' (fun t' ps' _ ht' => by obtain ⟨q, e, _, hq⟩ := assertion_gives (flt := flt) ht'; exact ⟨q, e, hq⟩))

theorem newScoped {k as a} (h : ScopedAttributeSelector.new k as = .ok a) : a = ⟨k, as⟩ := by
  unfold ScopedAttributeSelector.new at h
  split at h
  · cases h
  · cases h; rfl

theorem scopedAttr_gives {t ps} (h : Tree selGrammar false (.rule .scopedAttr) t ps) :
    ∃ q, ps = [q] ∧ q.asRule = .scopedAttr ∧ Gives flt (tokensOf q) scopedAttributeValues (scopedAttrOf flt q) := by
  obtain ⟨ps', rfl, h'⟩ := h.normal rfl
  refine ⟨_, rfl, rfl, ?_⟩
  clear h
  obtain ⟨t1, p1, t2, p2, rfl, h1, h2, i1, i2⟩ := h'.infix_seq
  obtain ⟨t3, p3, t4, p4, rfl, h3, h4, i3, i4⟩ := h2.infix_seq
  obtain ⟨t5, p5, t6, p6, rfl, h5, h6, i5, i6⟩ := h4.infix_seq
  obtain ⟨t7, p7, t8, p8, rfl, h7, h8, i7, i8⟩ := h6.infix_seq
  obtain ⟨rfl, rfl⟩ := h1.str_eq
  obtain ⟨rfl, rfl⟩ := h5.str_eq
  obtain ⟨rfl, rfl⟩ := h8.str_eq
  obtain ⟨q, rfl, hq1, hq2⟩ := assertions_gives (flt := flt) h7
  obtain ⟨r, t', qs⟩ := q
  cases hq1
  intro a ha
  cases h3 with
  | optNone =>
    obtain ⟨as, has, ha⟩ := bound (show (each SelRule.scopedAssertion (scopedAssertionOf flt) qs >>= fun as => ScopedAttributeSelector.new none as) = .ok a from ha)
    rw [newScoped ha]
    have := hq2 as has
    simpa [tokens, tokensOf, scopedAttributeValues] using this
  | optSome h3 =>
    obtain ⟨k, rfl, hk1, hk2⟩ := key_gives (flt := flt) h3
    obtain ⟨r', t'', ks⟩ := k
    cases hk1
    obtain ⟨⟨k, second⟩, hx, ha⟩ := bound (show (do
      let (k, second) ← (do
        let k ← keyOf flt (.mk .key t'' ks)
        return (some k, Pair.mk .scopedAssertions t' qs) : Except Err (Option SelKey × Pair SelRule))
      let as ← if second.asRule = SelRule.scopedAssertions then each SelRule.scopedAssertion (scopedAssertionOf flt) second.intoInner else unexpected
      ScopedAttributeSelector.new k as : Except Err ScopedAttributeSelector) = .ok a from ha)
    obtain ⟨k', hk, hx⟩ := bound hx
    cases hx
    obtain ⟨as, has, ha⟩ := bound (show (each SelRule.scopedAssertion (scopedAssertionOf flt) qs >>= fun as => ScopedAttributeSelector.new (some k') as) = .ok a from ha)
    rw [newScoped ha]
    have := both (hk2 k' hk) (hq2 as has)
    simpa [tokens, tokensOf, scopedAttributeValues] using this

theorem expressionsOf_gives {ps : List (Pair SelRule)} (h : ∀ q ∈ ps, Gives flt (tokensOf q) expressionValues (expressionOf flt q)) :
    Gives flt (tokens ps) selectorValues (expressionsOf flt ps) := by
  induction ps with
  | nil => intro a ha; cases ha; exact .nil
  | cons q ps ih =>
    intro a ha
    unfold expressionsOf at ha
    split at ha
    · cases h1 : expressionOf flt q with
      | error e => rw [h1] at ha; cases ha
      | ok b =>
        rw [h1] at ha
        cases h2 : expressionsOf flt ps with
        | error e => rw [h2] at ha; cases ha
        | ok bs =>
          rw [h2] at ha
          cases ha
          exact both (h q (by simp) b h1) (ih (fun x hx => h x (by simp [hx])) bs h2)
    · cases ha

theorem argumentList_gives {ps : List (Pair SelRule)} (h : ∀ q ∈ ps, Gives flt (tokensOf q) selectorValues (selectorOf flt q)) :
    Gives flt (tokens ps) argumentValues (argumentList flt ps) := by
  induction ps with
  | nil => intro a ha; cases ha; exact .nil
  | cons q ps ih =>
    intro a ha
    unfold argumentList at ha
    cases h1 : selectorOf flt q with
    | error e => rw [h1] at ha; cases ha
    | ok b =>
      rw [h1] at ha
      cases h2 : argumentList flt ps with
      | error e => rw [h2] at ha; cases ha
      | ok bs =>
        rw [h2] at ha
        cases ha
        exact both (h q (by simp) b h1) (ih (fun x hx => h x (by simp [hx])) bs h2)

theorem selector_gives_of {t ps} (h : Tree selGrammar false (.rule .selector) t ps)
    (he : ∀ t' ps', t' <:+: t → Tree selGrammar false (.rule .expression) t' ps' →
      ∃ q, ps' = [q] ∧ Gives flt (tokensOf q) expressionValues (expressionOf flt q)) :
    ∃ q, ps = [q] ∧ q.asRule = .selector ∧ Gives flt (tokensOf q) selectorValues (selectorOf flt q) := by
  obtain ⟨ps', rfl, h'⟩ := h.normal rfl
  refine ⟨_, rfl, rfl, ?_⟩
  exact expressionsOf_gives (plus_tree h' he).2

theorem expression_gives (n : Nat) : ∀ {t ps}, t.length < n → Tree selGrammar false (.rule .expression) t ps →
    ∃ q, ps = [q] ∧ Gives flt (tokensOf q) expressionValues (expressionOf flt q) := by
  induction n with
  | zero => intro t ps h; exact absurd h (Nat.not_lt_zero _)
  | succ n ih =>
    intro t ps hn h
    obtain ⟨ps', rfl, h'⟩ := h.normal rfl
    refine ⟨_, rfl, ?_⟩
    clear h
    have one : ∀ {q}, ps' = [q] → Gives flt (tokensOf q) expressionValues (innerOf flt q) →
        Gives flt (tokensOf (.mk .expression t ps')) expressionValues (expressionOf flt (.mk .expression t ps')) := by
      rintro q rfl h
      rw [show tokensOf (.mk SelRule.expression t [q]) = tokensOf q ++ [] from rfl, List.append_nil]
      exact h
    have empty : ∀ {q : Pair SelRule} {e}, ps' = [q] → innerOf flt q = .ok e → expressionValues e = [] → tokensOf q = [] →
        Gives flt (tokensOf (.mk .expression t ps')) expressionValues (expressionOf flt (.mk .expression t ps')) := by
      intro q e hq he hv ht
      refine one hq ?_
      intro a ha
      rw [he] at ha; cases ha
      rw [hv, ht]; exact .nil
    have sel : ∀ {t' ps}, t'.length < t.length → Tree selGrammar false (.rule .selector) t' ps →
        ∃ q, ps = [q] ∧ q.asRule = .selector ∧ Gives flt (tokensOf q) selectorValues (selectorOf flt q) := by
      intro t' ps hl hs
      refine selector_gives_of hs (fun t'' ps'' hi'' he => ih ?_ he)
      have := hi''.length_le
      omega
    have single : ∀ {q : Pair SelRule}, tokens [q] = [] → tokensOf q = [] := by
      intro q h; simpa [tokens] using h
    cases h' with
    | choiceL h =>
      have hb := bare_tokens h 20 rfl
      obtain ⟨ps2, rfl, -⟩ := h.normal rfl
      refine one rfl ?_
      intro a ha
      obtain ⟨b, hb', ha⟩ := mapped (show (shapeTypesOf (.mk SelRule.shapeTypes t ps2)).map SelectorExpression.shapeType = .ok a from ha)
      cases ha
      rw [single hb]; exact .nil
    | choiceR _ h => cases h with
    | choiceL h =>
      obtain ⟨p, rfl, h1, h2⟩ := attr_gives (flt := flt) h
      obtain ⟨r, tp, pp⟩ := p
      cases h1
      refine one rfl ?_
      intro a ha
      obtain ⟨b, hb', ha⟩ := mapped (show (attrOf flt (.mk SelRule.attr tp pp)).map SelectorExpression.attributeSelector = .ok a from ha)
      cases ha
      exact h2 b hb'
    | choiceR _ h => cases h with
    | choiceL h =>
      obtain ⟨p, rfl, h1, h2⟩ := scopedAttr_gives (flt := flt) h
      obtain ⟨r, tp, pp⟩ := p
      cases h1
      refine one rfl ?_
      intro a ha
      obtain ⟨b, hb', ha⟩ := mapped (show (scopedAttrOf flt (.mk SelRule.scopedAttr tp pp)).map SelectorExpression.scopedAttributeSelector = .ok a from ha)
      cases ha
      exact h2 b hb'
    | choiceR _ h => cases h with
    | choiceL h =>
      obtain ⟨ps2, rfl, hb⟩ := h.normal rfl
      refine one rfl ?_
      obtain ⟨t1, i1, l1, h⟩ := seq_shorter (by decide) hb
      obtain ⟨t2, p2, t3, p3, rfl, h2, h3, i2, i3⟩ := h.infix_seq
      have hbare := bare_tokens h2 20 rfl
      obtain ⟨p, rfl, hname, hid⟩ := nameOf_tree h2
      obtain ⟨t4, i4, l4, h4⟩ := seq_shorter (by decide) h3
      obtain ⟨t5, p5, t6, p6, rfl, h5, h6, i5, i6⟩ := h4.infix_seq
      obtain ⟨rfl, rfl⟩ := h6.str_eq
      obtain ⟨ps3, rfl, h7⟩ := h5.normal rfl
      have hall := sepBy_all (Q := fun q => Gives flt (tokensOf q) selectorValues (selectorOf flt q)) h7
        (fun t' ps' hi' ht' => by
          have e1 := hi'.length_le
          have e2 := i5.length_le
          have e3 := i3.length_le
          obtain ⟨q, e, _, hq⟩ := sel (by omega) ht'
          exact ⟨q, e, hq⟩)
      have hargs := argumentList_gives hall
      intro a ha
      change (match nameOf p with
        | .error e => Except.error e
        | .ok name => match argumentList flt ps3 with
          | .error e => Except.error e
          | .ok args => SelectorExpression.newFunction name args) = .ok a at ha
      rw [hname] at ha
      cases hx : argumentList flt ps3 with
      | error e => rw [hx] at ha; cases ha
      | ok as =>
        rw [hx] at ha
        change SelectorExpression.newFunction t2 as = .ok a at ha
        unfold SelectorExpression.newFunction at ha
        split at ha
        · cases ha
        · cases ha
          have := hargs as hx
          have hp := single hbare
          simpa [tokens, tokensOf, expressionValues, hp] using this
    | choiceR _ h => cases h with
    | choiceL h =>
      have hb := bare_tokens h 20 rfl
      obtain ⟨ps2, rfl, -⟩ := h.normal rfl
      refine one rfl ?_
      intro a ha
      obtain ⟨b, hb', ha⟩ := mapped (show (directedOf (.mk SelRule.forwardDirected t ps2)).map (fun ns => SelectorExpression.neighborSelector (.forwardDirected ns)) = .ok a from ha)
      cases ha
      rw [single hb]; exact .nil
    | choiceR _ h => cases h with
    | choiceL h =>
      have hb := bare_tokens h 20 rfl
      obtain ⟨ps2, rfl, -⟩ := h.normal rfl
      refine one rfl ?_
      intro a ha
      obtain ⟨b, hb', ha⟩ := mapped (show (directedOf (.mk SelRule.reverseDirected t ps2)).map (fun ns => SelectorExpression.neighborSelector (.reverseDirected ns)) = .ok a from ha)
      cases ha
      rw [single hb]; exact .nil
    | choiceR _ h => cases h with
    | choiceL h =>
      have hb := bare_tokens h 20 rfl
      obtain ⟨ps2, rfl, -⟩ := h.normal rfl
      exact empty (e := .neighborSelector .forwardUndirected) rfl rfl rfl (single hb)
    | choiceR _ h => cases h with
    | choiceL h =>
      have hb := bare_tokens h 20 rfl
      obtain ⟨ps2, rfl, -⟩ := h.normal rfl
      exact empty (e := .neighborSelector .reverseUndirected) rfl rfl rfl (single hb)
    | choiceR _ h => cases h with
    | choiceL h =>
      have hb := bare_tokens h 20 rfl
      obtain ⟨ps2, rfl, -⟩ := h.normal rfl
      exact empty (e := .neighborSelector .forwardRecursiveDirected) rfl rfl rfl (single hb)
    | choiceR _ h => cases h with
    | choiceL h =>
      obtain ⟨ps2, rfl, hb⟩ := h.normal rfl
      refine one rfl ?_
      obtain ⟨t1, i1, l1, h⟩ := seq_shorter (by decide) hb
      obtain ⟨t2, p2, t3, p3, rfl, h2, h3, i2, i3⟩ := h.infix_seq
      have hbare := bare_tokens h2 20 rfl
      obtain ⟨p, rfl, hname, hid⟩ := nameOf_tree h2
      obtain ⟨t4, i4, l4, h4⟩ := seq_shorter (by decide) h3
      obtain ⟨t5, p5, t6, p6, rfl, h5, h6, i5, i6⟩ := h4.infix_seq
      obtain ⟨rfl, rfl⟩ := h6.str_eq
      have e2 := i5.length_le
      have e3 := i3.length_le
      obtain ⟨q, rfl, _, hq⟩ := sel (by omega) h5
      intro a ha
      change (match nameOf p with
        | .error e => Except.error e
        | .ok name => match selectorOf flt q with
          | .error e => Except.error e
          | .ok x => Except.ok (SelectorExpression.variableDefinition name x)) = .ok a at ha
      rw [hname] at ha
      cases hx : selectorOf flt q with
      | error e => rw [hx] at ha; cases ha
      | ok x =>
        rw [hx] at ha
        cases ha
        have := hq x hx
        have hp := single hbare
        simpa [tokens, tokensOf, expressionValues, hp] using this
    | choiceR _ h =>
      have hb := bare_tokens h 20 rfl
      obtain ⟨ps2, rfl, -⟩ := h.normal rfl
      refine one rfl ?_
      intro a ha
      obtain ⟨b, hb', ha⟩ := bound (show (next ps2 >>= fun x => nameOf x.1 >>= fun n => .ok (SelectorExpression.variableReference n)) = .ok a from ha)
      obtain ⟨b', hb', ha⟩ := bound ha
      cases ha
      rw [single hb]; exact .nil

theorem selector_gives {t ps} (h : Tree selGrammar false (.rule .selector) t ps) :
    ∃ q, ps = [q] ∧ q.asRule = .selector ∧ Gives flt (tokensOf q) selectorValues (selectorOf flt q) :=
  selector_gives_of h (fun t' _ _ he => expression_gives (t'.length + 1) (Nat.lt_succ_self _) he)

theorem eoi_end {m s t s' ps} (h : Parses selGrammar m .eoi s (some (t, s', ps))) : s' = [] := by cases h; rfl

/-- The values of a selector that is read stand in the text as tokens, which hold all of its quotes and dots. -/
theorem read_gives {x : Str} {s : Selector} (h : parseSelector flt x = .ok s) : ∃ ts, List.Forall₂ (Tok flt) ts (selectorValues s) ∧
    ∀ p : Char → Bool, (∀ c, p c = true → mark c = true) → x.countP p = (ts.map (·.countP p)).sum := by
  unfold parseSelector at h
  cases hm : matchSelector x with
  | none => rw [hm] at h; cases h
  | some ps =>
    rw [hm] at h
    obtain ⟨r, hr, e⟩ := (matchSelector_iff _ _).mp hm
    cases r with
    | none => cases e
    | some y =>
      obtain ⟨t, s', qs⟩ := y
      injection e with e
      simp only at e
      subst e
      have hsplit := hr.split _ _ _ rfl
      have ht := hr.tree _ _ _ rfl
      have hrest : s' = [] := by
        cases hr with
        | rule hb => cases hb with
          | seq _ hb => cases hb with
            | seq _ hc => exact eoi_end hc
      subst hrest
      rw [List.append_nil] at hsplit
      subst hsplit
      obtain ⟨ps', rfl, h'⟩ := ht.normal rfl
      have hcount := fun p hp => tree_count (p := p) hp h' rfl (by decide)
      obtain ⟨t1, p1, t2, p2, e1, h1, h2, i1, i2⟩ := h'.infix_seq
      obtain ⟨t3, p3, t4, p4, e2, h3, h4, i3, i4⟩ := h2.infix_seq
      have hb1 := bare_tokens h1 20 rfl
      have hb4 := bare_tokens h4 20 rfl
      obtain ⟨q, rfl, hq1, hq2⟩ := selector_gives (flt := flt) h3
      obtain ⟨r, tp, pp⟩ := q
      cases hq1
      have hp1 : p1 = [] := by cases h1; rfl
      subst hp1
      subst e2
      subst e1
      have hs : selectorOf flt (.mk .selector tp pp) = .ok s := h
      refine ⟨tokensOf (.mk .selector tp pp), hq2 s hs, ?_⟩
      intro p hp
      rw [hcount p hp]
      simp [tokens, hb4]

/-! ### Counting characters of the text of a selector -/

variable {V : SelValue → Prop}

/-- The characters `p` in the texts of values. -/
def weight (f : Fmt) (p : Char → Bool) (vs : List SelValue) : Nat := (vs.map (fun v => (v.display f).countP p)).sum

theorem weight_append (f : Fmt) (a b : List SelValue) : weight f p (a ++ b) = weight f p a + weight f p b := by simp [weight]

theorem weight_flatMap {α : Type} (f : Fmt) (l : List α) (vals : α → List SelValue) : weight f p (l.flatMap vals) = (l.map (fun a => weight f p (vals a))).sum := by
  induction l with
  | nil => rfl
  | cons a l ih => simp [weight_append, ih]

theorem join_count {sep : Str} (hs : sep.countP p = 0) (l : List Str) : (joinWith sep l).countP p = (l.map (·.countP p)).sum := by
  match l with
  | [] => rfl
  | [a] => simp [joinWith]
  | a :: b :: l =>
    rw [joinWith, List.countP_append, List.countP_append, hs, join_count hs (b :: l)]
    simp

theorem sum_congr {α : Type} (l : List α) (g h : α → Nat) (e : ∀ a ∈ l, g a = h a) : (l.map g).sum = (l.map h).sum := by
  rw [List.map_congr_left e]

theorem joined_count {α : Type} {sep : Str} (hs : sep.countP p = 0) (f : Fmt) (l : List α) (d : α → Str) (vals : α → List SelValue)
    (h : ∀ a ∈ l, (d a).countP p = weight f p (vals a)) : (joinWith sep (l.map d)).countP p = weight f p (l.flatMap vals) := by
  rw [join_count hs, weight_flatMap, List.map_map]
  exact sum_congr _ _ _ h

theorem lit (hp : ∀ c, p c = true → mark c = true) (u : Str) (h : (u.all fun c => !mark c) = true := by decide) : u.countP p = 0 := literal_count hp h

theorem names_count (hp : ∀ c, p c = true → mark c = true) {ns : List Str} (h : ∀ n ∈ ns, SmithyIdent n) : (joinWith %s", " ns).countP p = 0 := by
  rw [join_count (lit hp _), sum_congr ns _ (fun _ => 0) (fun n hn => ident_count hp (h n hn))]
  simp

section
variable (hp : ∀ c, p c = true → mark c = true) (f : Fmt)
include hp

theorem segment_count {a} (h : SegmentOver V a) : (a.display f).countP p = weight f p (segmentValues a) := by
  cases h with
  | value h => simp [KeyPathSegment.display, segmentValues, weight]
  | @property s h =>
    have h1 := ident_count hp h
    have h2 := lit hp ['(']
    have h3 := lit hp [')']
    rw [KeyPathSegment.display, show '(' :: s ++ [')'] = ['('] ++ s ++ [')'] from rfl, List.countP_append, List.countP_append, h1, h2, h3]; rfl

theorem key_count {k} (h : KeyOver V k) : (k.display f).countP p = weight f p (keyValues k) := by
  have h1 := ident_count hp h.1
  have h2 := lit hp ['|']
  rw [SelKey.display, keyValues, List.countP_append, h1]
  have := joined_count h2 f k.path (·.display f) segmentValues (fun a ha => segment_count hp f (h.2 a ha))
  split
  · rename_i he
    rw [List.isEmpty_iff.mp he]; rfl
  · rw [show '|' :: joinWith ['|'] (k.path.map (·.display f)) = ['|'] ++ joinWith ['|'] (k.path.map (·.display f)) from rfl, List.countP_append, h2, this]; simp

theorem comparator_count (c : Comparator) : c.display.countP p = 0 := by cases c <;> exact lit hp _

theorem case_count (b : Bool) : (caseSuffix b).countP p = 0 := by cases b <;> exact lit hp _

theorem comparison_count (c : AttributeComparison) : (c.display f).countP p = weight f p c.rhsValues := by
  have := joined_count (lit hp %s", ") f c.rhsValues (·.display f) (fun v => [v]) (fun v _ => by simp [weight])
  rw [AttributeComparison.display, show ' ' :: c.comparator.display = [' '] ++ c.comparator.display from rfl]
  simp only [List.countP_append, this, comparator_count hp, case_count hp, lit hp [' ']]
  simp

theorem attr_count {a : AttributeSelector} (hk : KeyOver V a.key) : (a.display f).countP p = weight f p (attributeValues a) := by
  rw [AttributeSelector.display, attributeValues, weight_append, ← key_count hp f hk, show '[' :: a.key.display f = ['['] ++ a.key.display f from rfl]
  cases a.comparison with
  | none =>
    simp only [List.countP_append, lit hp ['['], lit hp [']']]
    simp [weight]
  | some c =>
    simp only [List.countP_append, lit hp ['['], lit hp [']'], comparison_count hp f c]
    simp

theorem scoped_count {a} (h : ScopedOver V a) : (a.display f).countP p = weight f p (scopedValues a) := by
  cases h with
  | value h => simp [ScopedValue.display, scopedValues, weight]
  | @context q h1 h2 =>
    have := joined_count (lit hp ['|']) f q (·.display f) segmentValues (fun a ha => segment_count hp f (h2 a ha))
    rw [ScopedValue.display, scopedValues]
    simp only [List.countP_append, this, lit hp %s"@{", lit hp ['}']]
    simp

theorem assertion_count {a} (h : AssertionOver V a) : (a.display f).countP p = weight f p (assertionValues a) := by
  have := joined_count (lit hp %s", ") f a.rhsValues (·.display f) scopedValues (fun v hv => scoped_count hp f (h.2.2.2 v hv))
  rw [ScopedAttributeAssertion.display, assertionValues, weight_append, ← scoped_count hp f h.1]
  simp only [List.countP_append, this, comparator_count hp, case_count hp, lit hp [' ']]
  simp

theorem scopedAttr_count {a : ScopedAttributeSelector} (hk : ∀ k, a.key = some k → KeyOver V k) (ha : ∀ x ∈ a.assertions, AssertionOver V x) :
    (a.display f).countP p = weight f p (scopedAttributeValues a) := by
  have := joined_count (lit hp %s" && ") f a.assertions (·.display f) assertionValues (fun v hv => assertion_count hp f (ha v hv))
  rw [ScopedAttributeSelector.display, scopedAttributeValues, weight_append]
  simp only [List.countP_append, this, lit hp %s"[@", lit hp %s": ", lit hp [']']]
  cases hk' : a.key with
  | none => simp [weight]
  | some k => simp [key_count hp f (hk k hk')]

mutual
  theorem expression_count : ∀ {e}, ExpressionOver V e → (e.display f).countP p = weight f p (expressionValues e)
    | _, .shapeType (t := t) => by
        rw [SelectorExpression.display, show weight f p (expressionValues (.shapeType t)) = 0 from rfl]
        cases t <;> exact lit hp _
    | _, .attr hk _ => attr_count hp f hk
    | _, .scopedAttr hk _ ha => scopedAttr_count hp f hk ha
    | _, .forward => lit hp %s">"
    | _, .reverse => lit hp %s"<"
    | _, .recursive => lit hp %s"~>"
    | _, .forwardDirected h => by
        rw [SelectorExpression.display, NeighborSelector.display, List.countP_append, List.countP_append, lit hp %s"-[", lit hp %s"]->", names_count hp h.2]; rfl
    | _, .reverseDirected h => by
        rw [SelectorExpression.display, NeighborSelector.display, List.countP_append, List.countP_append, lit hp %s"<-[", lit hp %s"]-", names_count hp h.2]; rfl
    | _, .function (n := n) (args := args) h1 h2 h3 => by
        have := joined_count (lit hp %s", ") f args (fun s => Selector.display f s) selectorValues (fun s hs => selector_count (h3 s hs))
        rw [SelectorExpression.display, displayArguments_eq, expressionValues, argumentValues_eq, ← this, show ':' :: n = [':'] ++ n from rfl]
        simp only [List.countP_append, lit hp [':'], lit hp ['('], lit hp [')'], ident_count hp h1]
        simp
    | _, .define (n := n) (s := s) h1 h2 => by
        have := selector_count h2
        rw [SelectorExpression.display, expressionValues, ← this, Selector.display, show '$' :: n = ['$'] ++ n from rfl]
        simp only [List.countP_append, lit hp ['$'], lit hp ['('], lit hp [')'], ident_count hp h1]
        simp
    | _, .refer (n := n) h => by
        rw [SelectorExpression.display, List.countP_append, List.countP_append, lit hp %s"${", lit hp ['}'], ident_count hp h]; rfl
  theorem selector_count : ∀ {s}, SelectorOver V s → (Selector.display f s).countP p = weight f p (selectorValues s)
    | _, .mk (s := s) _ h2 => by
        rw [Selector.display, displayExpressions_eq, selectorValues_eq]
        exact joined_count (lit hp [' ']) f s (fun e => SelectorExpression.display f e) expressionValues (fun e he => expression_count (h2 e he))
end
end

/-! ### Sums that agree -/

theorem sums_agree {α β : Type} {R : α → β → Prop} {g : α → Nat} {h : β → Nat} {as bs} (hr : List.Forall₂ R as bs) (hle : ∀ a b, R a b → g a ≤ h b) :
    (as.map g).sum ≤ (bs.map h).sum ∧ ((as.map g).sum = (bs.map h).sum → List.Forall₂ (fun a b => R a b ∧ g a = h b) as bs) := by
  induction hr with
  | nil => exact ⟨Nat.le_refl _, fun _ => .nil⟩
  | @cons a b as bs h1 _ ih =>
    have := hle _ _ h1
    simp only [List.map_cons, List.sum_cons]
    refine ⟨by omega, fun e => .cons ⟨h1, by omega⟩ (ih.2 (by omega))⟩

theorem right_mem {α β : Type} {R : α → β → Prop} {as bs} (h : List.Forall₂ R as bs) : ∀ b ∈ bs, ∃ a, R a b := by
  induction h with
  | nil => intro b hb; cases hb
  | @cons a b as bs h1 _ ih =>
    intro c hc
    rcases List.mem_cons.mp hc with rfl | hc
    · exact ⟨_, h1⟩
    · exact ih c hc

/-- A number with a fraction has one dot and no quotes. -/
theorem digits_count {t : Str} (h : Digits t) : t.countP (· == '.') = 0 ∧ t.countP (· == '"') = 0 := by
  rw [List.countP_eq_zero, List.countP_eq_zero]
  constructor <;> (intro c hc e; have := h.2 c hc; simp only [beq_iff_eq] at e; subst e; revert this; decide)

theorem fraction_count {t : Str} (h : FractionText t) : t.countP (· == '.') = 1 ∧ t.countP (· == '"') = 0 := by
  obtain ⟨sign, int, frac, hs, hi, hf, rfl⟩ := h
  have h1 := digits_count hi.1
  have h2 := digits_count hf
  rcases hs with rfl | rfl <;> simp [h1.1, h1.2, h2.1, h2.2]

theorem float_count {t : Str} (h : NumberText t) (hd : '.' ∈ t) : t.countP (· == '.') = 1 := by
  obtain ⟨sign, int, frac, exp, hs, hi, hf, he, rfl⟩ := h
  have h1 := digits_count hi.1
  have h4 : exp.countP (· == '.') = 0 := by
    rcases he with rfl | ⟨e, sg, ds, rfl, he, hsg, hds⟩
    · rfl
    · have h3 := digits_count hds
      rcases he with rfl | rfl <;> rcases hsg with rfl | rfl | rfl <;> simp [h3.1]
  have h3 : frac.countP (· == '.') = 1 ∨ frac = [] := by
    rcases hf with rfl | ⟨ds, rfl, hds⟩
    · exact .inr rfl
    · have h3 := digits_count hds
      exact .inl (by simp [h3.1])
  have h0 : sign.countP (· == '.') = 0 := by rcases hs with rfl | rfl <;> rfl
  rcases h3 with h3 | rfl
  · simp [h0, h1.1, h3, h4]
  · have : 0 < (sign ++ int ++ [] ++ exp).countP (· == '.') := List.countP_pos_iff.mpr ⟨'.', hd, by simp⟩
    simp [h0, h1.1, h4] at this

theorem number_quotes {t : Str} (h : NumberText t) : t.countP (· == '"') = 0 := by
  obtain ⟨sign, int, frac, exp, hs, hi, hf, he, rfl⟩ := h
  have h1 := digits_count hi.1
  have h4 : exp.countP (· == '"') = 0 := by
    rcases he with rfl | ⟨e, sg, ds, rfl, he, hsg, hds⟩
    · rfl
    · have h3 := digits_count hds
      rcases he with rfl | rfl <;> rcases hsg with rfl | rfl | rfl <;> simp [h3.2]
  have h3 : frac.countP (· == '"') = 0 := by
    rcases hf with rfl | ⟨ds, rfl, hds⟩
    · rfl
    · have h3 := digits_count hds
      simp [h3.2]
  have h0 : sign.countP (· == '"') = 0 := by rcases hs with rfl | rfl <;> rfl
  simp [h0, h1.2, h3, h4]

theorem integer_count (n : Int) : (showInt n).countP (· == '.') = 0 ∧ (showInt n).countP (· == '"') = 0 := by
  have key : ∀ k : Nat, (showNat k).countP (· == '.') = 0 ∧ (showNat k).countP (· == '"') = 0 := fun k => digits_count ⟨showNat_ne_nil k, showNat_digits k⟩
  cases n with
  | ofNat k =>
    rw [show Int.ofNat k = (k : Int) from rfl, showInt_nonneg]; exact key k
  | negSucc k =>
    rw [showInt_neg]
    have := key (k + 1)
    constructor <;> simp [this.1, this.2]

/-- Quotes: a token has at most as many as the text that is written for its value. -/
theorem quotes_le {f : Fmt} {t v} (h : Tok flt t v) : t.countP (· == '"') ≤ (v.display f).countP (· == '"') := by
  cases h with
  | double h1 h2 => exact Nat.le_refl _
  | @single x h1 h2 => simp [SelValue.display]; omega
  | integer h1 h2 => rw [number_quotes h1]; exact Nat.zero_le _
  | float h1 h2 => rw [number_quotes h1]; exact Nat.zero_le _
  | root h => exact Nat.le_refl _
  | absolute h => simp [SelValue.display, ShapeID.display]

/-- Dots: the text that is written for a value has at most as many as its token. -/
theorem dots_le {f : Fmt} (hlaw : FloatsPrint f flt) {t v} (h : Tok flt t v) : (v.display f).countP (· == '.') ≤ t.countP (· == '.') := by
  cases h with
  | double h1 h2 => exact Nat.le_refl _
  | @single x h1 h2 => simp [SelValue.display]
  | @integer n t h1 h2 => rw [show SelValue.display f (.number (.integer n)) = showInt n from rfl, (integer_count n).1]; exact Nat.zero_le _
  | @float x t h1 h2 =>
    rw [float_count h1 h2, show SelValue.display f (.number (.float x)) = f.float x from rfl]
    rcases hlaw x with ⟨h, -⟩ | ⟨h, -⟩
    · exact Nat.le_of_eq (fraction_count h).1
    · rw [List.countP_eq_zero.mpr (by rintro c hc e; rw [beq_iff_eq] at e; subst e; exact h hc)]; exact Nat.zero_le _
  | root h => exact Nat.le_refl _
  | absolute h => simp [SelValue.display, ShapeID.display]

theorem swap {α β : Type} {R : α → β → Prop} {as bs} (h : List.Forall₂ R as bs) : List.Forall₂ (fun b a => R a b) bs as := by
  induction h with
  | nil => exact .nil
  | cons h1 _ ih => exact .cons h1 ih

/-- If a text is what is written for the selector that is read from it, its values can be written. -/
theorem written_values {f : Fmt} (hlaw : FloatsPrint f flt) {s : Selector} (h : parseSelector flt (Selector.display f s) = .ok s)
    (hs : SelectorOver (ValueIn flt (Selector.display f s)) s) :
    ∀ v ∈ selectorValues s, ValueIn flt (Selector.display f s) v → PrintableValue f flt v := by
  obtain ⟨ts, hts, hc⟩ := read_gives h
  have hq := hc (· == '"') (by intro c e; rw [beq_iff_eq] at e; subst e; decide)
  have hd := hc (· == '.') (by intro c e; rw [beq_iff_eq] at e; subst e; decide)
  have wq := selector_count (p := (· == '"')) (by intro c e; rw [beq_iff_eq] at e; subst e; decide) f hs
  have wd := selector_count (p := (· == '.')) (by intro c e; rw [beq_iff_eq] at e; subst e; decide) f hs
  have pq := (sums_agree (g := fun t : Str => t.countP (· == '"')) (h := fun v : SelValue => (v.display f).countP (· == '"')) hts (fun t v => quotes_le)).2
    (hq.symm.trans wq)
  have pd := (sums_agree (g := fun v : SelValue => (v.display f).countP (· == '.')) (h := fun t : Str => t.countP (· == '.')) (swap hts) (fun v t => dots_le hlaw)).2
    (wd.symm.trans hd)
  intro v hv hin
  obtain ⟨t, ht, eq⟩ := right_mem pq v hv
  obtain ⟨t', ht', ed⟩ := right_mem (swap pd) v hv
  cases hin with
  | double h1 h2 _ => exact .text h1 h2
  | @single x h1 h2 _ =>
    cases ht with
    | double h1 h2 => exact .text h1 h2
    | single => simp [SelValue.display] at eq; omega
  | integer _ _ _ h _ => exact .integer h
  | @float x t _ _ _ _ =>
    cases ht' with
    | float h1 h2 =>
      rw [float_count h1 h2, show SelValue.display f (.number (.float x)) = f.float x from rfl] at ed
      rcases hlaw x with ⟨h, h'⟩ | ⟨h, -⟩
      · exact .float h h'
      · rw [List.countP_eq_zero.mpr (by rintro c hc e; rw [beq_iff_eq] at e; subst e; exact h hc)] at ed; cases ed
  | root h _ => exact .root h
  | absolute h1 h2 _ => exact .absolute h1 h2

end Verif.SelExact

namespace Verif
open Peg Spec SelParser

/-- **C49, exactly.** A selector is read back from its text as itself exactly if it can be written: the grammar has it, its quoted
texts are not empty and without control characters, quotes and backslashes, its integers are in range, and its floats are written
with a fraction. -/
theorem C49_exact (f : Fmt) (flt : Str → Option F64) (hlaw : FloatsPrint f flt) (s : Selector) :
    parseSelector flt (Selector.display f s) = .ok s ↔ PrintableSelector f flt s := by
  refine ⟨fun h => ?_, C49_selector_roundTrip f flt s⟩
  rcases C50_selector_outcome flt (Selector.display f s) with ⟨_, h'⟩ | ⟨s', h', hs⟩ | ⟨e, h', _⟩
  · rw [h] at h'; cases h'
  · rw [h] at h'; cases h'
    exact SelExact.selector_on hs (SelExact.written_values hlaw h hs)
  · rw [h] at h'; cases h'

/-- A half is written with a fraction, all other floats as zero. -/
def exHalf : Fmt := ⟨fun x => if x.bits = 0x3fe0000000000000 then %s"0.5" else %s"0", fun s => s⟩

/-- The law is met: a half is read back, zero is not. -/
example : FloatsPrint exHalf (fun _ => some ⟨0x3fe0000000000000⟩) := by
  rintro ⟨b⟩
  by_cases h : b = 0x3fe0000000000000
  · subst h
    exact .inl ⟨⟨[], %s"0", %s"5", .inl rfl, ⟨⟨by decide, by decide⟩, fun _ => rfl⟩, ⟨by decide, by decide⟩, rfl⟩, rfl⟩
  · right
    change '.' ∉ (if b = _ then _ else _) ∧ '"' ∉ (if b = _ then _ else _)
    rw [if_neg h]
    decide

example : parseSelector (fun _ => some ⟨0x3fe0000000000000⟩) (Selector.display exHalf (oneComparison (.numberGreater (.float ⟨0x3fe0000000000000⟩)))) =
    .ok (oneComparison (.numberGreater (.float ⟨0x3fe0000000000000⟩))) := by rfl

example : parseSelector (fun _ => some ⟨0x3fe0000000000000⟩) (Selector.display exHalf (oneComparison (.numberGreater (.float ⟨0⟩)))) =
    .ok (oneComparison (.numberGreater (.integer 0))) := by rfl

end Verif
