/-
Parsing expression grammars as run by the crate `pest` (not part of the repository), for the grammars
atelier-smithy/src/{selector,smithy}.pest.
-/
import Verif.Chars

namespace Verif.Peg

/-- The expressions of a `pest` grammar; `R` are the names of its rules. Literals, character ranges and built-in classes
(`chr`), `~`, `|`, `?`, `*`, `!`, names of rules, `SOI` and `EOI`. `e+` is `e ~ e*` (`plus`). `more e` is not written in
grammars: it is what is left of `e*` after the first `e`, that is, repetitions of implicit whitespace and `e`. -/
inductive Expr (R : Type) where
  | str (t : Str)
  | chr (p : Char → Bool)
  | seq (a b : Expr R)
  | choice (a b : Expr R)
  | opt (a : Expr R)
  | rep (a : Expr R)
  | more (a : Expr R)
  | not (a : Expr R)
  | rule (r : R)
  | soi
  | eoi

@[inherit_doc] infixr:67 " ~> " => Expr.seq
@[inherit_doc] infixr:66 " <||> " => Expr.choice

/-- `e+`: `pest` rewrites it to `e ~ e*`. -/
def Expr.plus {R : Type} (e : Expr R) : Expr R := e ~> .rep e

/-- `pest::iterators::Pair`: the rule, the text it matched and the pairs inside. -/
inductive Pair (R : Type) where
  | mk (rule : R) (text : Str) (inner : List (Pair R))

namespace Pair
variable {R : Type}
/-- `Pair::as_rule`. -/
def asRule : Pair R → R | .mk r _ _ => r
/-- `Pair::as_str`. -/
def asStr : Pair R → Str | .mk _ t _ => t
/-- `Pair::into_inner`. -/
def intoInner : Pair R → List (Pair R) | .mk _ _ ps => ps
end Pair

/-- The modifiers of rules: none, `_` (silent: gives no pair of its own) and `@` (atomic: no implicit whitespace and no
pairs inside, also not in the rules it calls). -/
inductive Kind where
  | normal | silent | atomic
  deriving DecidableEq

/-- A grammar: kind and body of each rule, the characters that are implicit `WHITESPACE`, and the name of the pair that
`EOI` gives. -/
structure Grammar (R : Type) where
  kind : R → Kind
  body : R → Expr R
  ws : Char → Bool
  eoi : R

/-- The result of matching: failure, or the text matched, the text left and the pairs. -/
abbrev Res (R : Type) := Option (Str × Str × List (Pair R))

variable {R : Type}

/-- The text after a given prefix. -/
def stripPrefix : Str → Str → Option Str
  | [], s => some s
  | _ :: _, [] => none
  | a :: t, b :: s => if a = b then stripPrefix t s else none

/-- The implicit whitespace between the parts of a sequence or repetition: what is skipped and what is left. In atomic
mode nothing is skipped. -/
def Grammar.skip (g : Grammar R) (atomic : Bool) (s : Str) : Str × Str :=
  if atomic then ([], s) else (s.takeWhile g.ws, s.dropWhile g.ws)

/-- The pairs given for a rule that matched `t` with pairs `ps` inside. -/
def Grammar.pairs (g : Grammar R) (atomic : Bool) (r : R) (t : Str) (ps : List (Pair R)) : List (Pair R) :=
  if atomic then [] else
  match g.kind r with
  | .normal => [.mk r t ps]
  | .silent => ps
  | .atomic => [.mk r t ps]

/-- Whether the body of a rule is matched in atomic mode. -/
def Grammar.mode (g : Grammar R) (atomic : Bool) (r : R) : Bool := atomic || decide (g.kind r = .atomic)

/-- Matching an expression at the start of a text, with a bound on the depth of the recursion; `none` if the bound is
too small (see `run_total`). `SOI` is used only at the very start and always matches there. -/
def run (g : Grammar R) : Nat → Bool → Expr R → Str → Option (Res R)
  | 0, _, _, _ => none
  | n + 1, atomic, e, s =>
    match e with
    | .str t =>
      match stripPrefix t s with
      | some s' => some (some (t, s', []))
      | none => some none
    | .chr p =>
      match s with
      | [] => some none
      | c :: s' => if p c then some (some ([c], s', [])) else some none
    | .seq a b =>
      match run g n atomic a s with
      | none => none
      | some none => some none
      | some (some (t1, s1, p1)) =>
        match run g n atomic b (g.skip atomic s1).2 with
        | none => none
        | some none => some none
        | some (some (t2, s2, p2)) => some (some (t1 ++ ((g.skip atomic s1).1 ++ t2), s2, p1 ++ p2))
    | .choice a b =>
      match run g n atomic a s with
      | none => none
      | some none => run g n atomic b s
      | some (some x) => some (some x)
    | .opt a =>
      match run g n atomic a s with
      | none => none
      | some none => some (some ([], s, []))
      | some (some x) => some (some x)
    | .rep a =>
      match run g n atomic a s with
      | none => none
      | some none => some (some ([], s, []))
      | some (some (t1, s1, p1)) =>
        match run g n atomic (.more a) s1 with
        | some (some (t2, s2, p2)) => some (some (t1 ++ t2, s2, p1 ++ p2))
        | _ => none
    | .more a =>
      match run g n atomic a (g.skip atomic s).2 with
      | none => none
      | some none => some (some ([], s, []))
      | some (some (t1, s1, p1)) =>
        match run g n atomic (.more a) s1 with
        | some (some (t2, s2, p2)) => some (some ((g.skip atomic s).1 ++ (t1 ++ t2), s2, p1 ++ p2))
        | _ => none
    | .not a =>
      match run g n atomic a s with
      | none => none
      | some none => some (some ([], s, []))
      | some (some _) => some none
    | .rule r =>
      match run g n (g.mode atomic r) (g.body r) s with
      | none => none
      | some none => some none
      | some (some (t, s', ps)) => some (some (t, s', g.pairs atomic r t ps))
    | .soi => some (some ([], s, []))
    | .eoi =>
      match s with
      | [] => some (some ([], [], if atomic then [] else [.mk g.eoi [] []]))
      | _ :: _ => some none

/-! ### The same as a relation -/

/-- `Parses g atomic e s r`: matching `e` at the start of `s` gives `r`. -/
inductive Parses (g : Grammar R) : Bool → Expr R → Str → Res R → Prop
  | str {m t s s'} : stripPrefix t s = some s' → Parses g m (.str t) s (some (t, s', []))
  | strFail {m t s} : stripPrefix t s = none → Parses g m (.str t) s none
  | chr {m p c s} : p c = true → Parses g m (.chr p) (c :: s) (some ([c], s, []))
  | chrNil {m p} : Parses g m (.chr p) [] none
  | chrFail {m p c s} : p c = false → Parses g m (.chr p) (c :: s) none
  | seq {m a b s t1 s1 p1 t2 s2 p2} : Parses g m a s (some (t1, s1, p1)) → Parses g m b (g.skip m s1).2 (some (t2, s2, p2)) →
      Parses g m (.seq a b) s (some (t1 ++ ((g.skip m s1).1 ++ t2), s2, p1 ++ p2))
  | seqFail1 {m a b s} : Parses g m a s none → Parses g m (.seq a b) s none
  | seqFail2 {m a b s t1 s1 p1} : Parses g m a s (some (t1, s1, p1)) → Parses g m b (g.skip m s1).2 none → Parses g m (.seq a b) s none
  | choiceL {m a b s x} : Parses g m a s (some x) → Parses g m (.choice a b) s (some x)
  | choiceR {m a b s r} : Parses g m a s none → Parses g m b s r → Parses g m (.choice a b) s r
  | optSome {m a s x} : Parses g m a s (some x) → Parses g m (.opt a) s (some x)
  | optNone {m a s} : Parses g m a s none → Parses g m (.opt a) s (some ([], s, []))
  | repNone {m a s} : Parses g m a s none → Parses g m (.rep a) s (some ([], s, []))
  | repSome {m a s t1 s1 p1 t2 s2 p2} : Parses g m a s (some (t1, s1, p1)) → Parses g m (.more a) s1 (some (t2, s2, p2)) →
      Parses g m (.rep a) s (some (t1 ++ t2, s2, p1 ++ p2))
  | moreNone {m a s} : Parses g m a (g.skip m s).2 none → Parses g m (.more a) s (some ([], s, []))
  | moreSome {m a s t1 s1 p1 t2 s2 p2} : Parses g m a (g.skip m s).2 (some (t1, s1, p1)) → Parses g m (.more a) s1 (some (t2, s2, p2)) →
      Parses g m (.more a) s (some ((g.skip m s).1 ++ (t1 ++ t2), s2, p1 ++ p2))
  | notFail {m a s x} : Parses g m a s (some x) → Parses g m (.not a) s none
  | notOk {m a s} : Parses g m a s none → Parses g m (.not a) s (some ([], s, []))
  | rule {m r s t s' ps} : Parses g (g.mode m r) (g.body r) s (some (t, s', ps)) → Parses g m (.rule r) s (some (t, s', g.pairs m r t ps))
  | ruleFail {m r s} : Parses g (g.mode m r) (g.body r) s none → Parses g m (.rule r) s none
  | soi {m s} : Parses g m .soi s (some ([], s, []))
  | eoi {m} : Parses g m .eoi [] (some ([], [], if m then [] else [.mk g.eoi [] []]))
  | eoiFail {m c s} : Parses g m .eoi (c :: s) none

/-- What `run` returns is what the relation gives. -/
theorem run_sound {g : Grammar R} : ∀ {n m e s r}, run g n m e s = some r → Parses g m e s r := by
  intro n
  induction n with
  | zero => intro m e s r h; cases h
  | succ n ih =>
    intro m e s r h
    cases e with
    | str t =>
      simp only [run] at h
      split at h <;> (injection h with h; subst h)
      · rename_i hs; exact .str hs
      · rename_i hs; exact .strFail hs
    | chr p =>
      simp only [run] at h
      split at h
      · injection h with h; subst h; exact .chrNil
      · split at h <;> (injection h with h; subst h)
        · rename_i hp; exact .chr hp
        · rename_i hp; exact .chrFail (by simpa using hp)
    | seq a b =>
      simp only [run] at h
      split at h
      · cases h
      · rename_i ha; injection h with h; subst h; exact .seqFail1 (ih ha)
      · rename_i ha
        split at h
        · cases h
        · rename_i hb; injection h with h; subst h; exact .seqFail2 (ih ha) (ih hb)
        · rename_i hb; injection h with h; subst h; exact .seq (ih ha) (ih hb)
    | choice a b =>
      simp only [run] at h
      split at h
      · cases h
      · rename_i ha; exact .choiceR (ih ha) (ih h)
      · rename_i ha; injection h with h; subst h; exact .choiceL (ih ha)
    | opt a =>
      simp only [run] at h
      split at h
      · cases h
      · rename_i ha; injection h with h; subst h; exact .optNone (ih ha)
      · rename_i ha; injection h with h; subst h; exact .optSome (ih ha)
    | rep a =>
      simp only [run] at h
      split at h
      · cases h
      · rename_i ha; injection h with h; subst h; exact .repNone (ih ha)
      · rename_i ha
        split at h
        · rename_i hb; injection h with h; subst h; exact .repSome (ih ha) (ih hb)
        · cases h
    | more a =>
      simp only [run] at h
      split at h
      · cases h
      · rename_i ha; injection h with h; subst h; exact .moreNone (ih ha)
      · rename_i ha
        split at h
        · rename_i hb; injection h with h; subst h; exact .moreSome (ih ha) (ih hb)
        · cases h
    | not a =>
      simp only [run] at h
      split at h
      · cases h
      · rename_i ha; injection h with h; subst h; exact .notOk (ih ha)
      · rename_i ha; injection h with h; subst h; exact .notFail (ih ha)
    | rule q =>
      simp only [run] at h
      split at h
      · cases h
      · rename_i ha; injection h with h; subst h; exact .ruleFail (ih ha)
      · rename_i ha; injection h with h; subst h; exact .rule (ih ha)
    | soi => simp only [run] at h; injection h with h; subst h; exact .soi
    | eoi =>
      simp only [run] at h
      split at h <;> (injection h with h; subst h)
      · exact .eoi
      · exact .eoiFail

/-- The repetition after the first never fails. -/
theorem more_ok {g : Grammar R} {m a s r} (h : Parses g m (.more a) s r) : ∃ x, r = some x := by
  cases h <;> exact ⟨_, rfl⟩

/-- Matching has one result. -/
theorem Parses.det {g : Grammar R} {m e s r r'} (h : Parses g m e s r) (h' : Parses g m e s r') : r = r' := by
  induction h generalizing r' with
  | str hs => cases h' with
    | str hs' => rw [hs] at hs'; injection hs' with hs'; rw [hs']
    | strFail hs' => rw [hs] at hs'; cases hs'
  | strFail hs => cases h' with
    | str hs' => rw [hs] at hs'; cases hs'
    | strFail => rfl
  | chr hp => cases h' with
    | chr => rfl
    | chrFail hp' => rw [hp] at hp'; cases hp'
  | chrNil => cases h'; rfl
  | chrFail hp => cases h' with
    | chr hp' => rw [hp] at hp'; cases hp'
    | chrFail => rfl
  | seq _ _ ia ib => cases h' with
    | seq ha' hb' => have := ia ha'; cases this; have := ib hb'; cases this; rfl
    | seqFail1 ha' => have := ia ha'; cases this
    | seqFail2 ha' hb' => have := ia ha'; cases this; have := ib hb'; cases this
  | seqFail1 _ ia => cases h' with
    | seq ha' _ => have := ia ha'; cases this
    | seqFail1 => rfl
    | seqFail2 => rfl
  | seqFail2 _ _ ia ib => cases h' with
    | seq ha' hb' => have := ia ha'; cases this; have := ib hb'; cases this
    | seqFail1 => rfl
    | seqFail2 => rfl
  | choiceL _ ia => cases h' with
    | choiceL ha' => exact ia ha'
    | choiceR ha' _ => have := ia ha'; cases this
  | choiceR _ _ ia ib => cases h' with
    | choiceL ha' => have := ia ha'; cases this
    | choiceR _ hb' => exact ib hb'
  | optSome _ ia => cases h' with
    | optSome ha' => exact ia ha'
    | optNone ha' => have := ia ha'; cases this
  | optNone _ ia => cases h' with
    | optSome ha' => have := ia ha'; cases this
    | optNone => rfl
  | repNone _ ia => cases h' with
    | repNone => rfl
    | repSome ha' _ => have := ia ha'; cases this
  | repSome _ _ ia ib => cases h' with
    | repNone ha' => have := ia ha'; cases this
    | repSome ha' hb' => have := ia ha'; cases this; have := ib hb'; cases this; rfl
  | moreNone _ ia => cases h' with
    | moreNone => rfl
    | moreSome ha' _ => have := ia ha'; cases this
  | moreSome _ _ ia ib => cases h' with
    | moreNone ha' => have := ia ha'; cases this
    | moreSome ha' hb' => have := ia ha'; cases this; have := ib hb'; cases this; rfl
  | notFail _ ia => cases h' with
    | notFail => rfl
    | notOk ha' => have := ia ha'; cases this
  | notOk _ ia => cases h' with
    | notFail ha' => have := ia ha'; cases this
    | notOk => rfl
  | rule _ ia => cases h' with
    | rule ha' => have := ia ha'; cases this; rfl
    | ruleFail ha' => have := ia ha'; cases this
  | ruleFail _ ia => cases h' with
    | rule ha' => have := ia ha'; cases this
    | ruleFail => rfl
  | soi => cases h'; rfl
  | eoi => cases h'; rfl
  | eoiFail => cases h'; rfl

theorem skip_append (g : Grammar R) (m : Bool) (s : Str) : (g.skip m s).1 ++ (g.skip m s).2 = s := by
  unfold Grammar.skip
  cases m <;> simp [List.takeWhile_append_dropWhile]

theorem stripPrefix_some {t s s' : Str} (h : stripPrefix t s = some s') : s = t ++ s' := by
  induction t generalizing s with
  | nil => simp [stripPrefix] at h; rw [h]; rfl
  | cons a t ih =>
    cases s with
    | nil => simp [stripPrefix] at h
    | cons b s =>
      simp only [stripPrefix] at h
      split at h
      · rename_i hab; rw [ih h, hab]; rfl
      · cases h

theorem stripPrefix_append (t s : Str) : stripPrefix t (t ++ s) = some s := by
  induction t with
  | nil => rfl
  | cons a t ih => simp [stripPrefix, ih]

/-- What is matched and what is left make up the text. -/
theorem Parses.split {g : Grammar R} {m e s r} (h : Parses g m e s r) : ∀ t s' ps, r = some (t, s', ps) → s = t ++ s' := by
  induction h with
  | str hs => intro _ _ _ h; cases h; exact stripPrefix_some hs
  | chr => intro _ _ _ h; cases h; rfl
  | @seq m a b s t1 s1 p1 t2 s2 p2 _ _ ia ib =>
    intro _ _ _ h; cases h
    have h1 := ia _ _ _ rfl
    have h2 := ib _ _ _ rfl
    have h3 := skip_append g m s1
    rw [h1]
    conv => lhs; rw [← h3, h2]
    simp
  | choiceL _ ia => exact ia
  | choiceR _ _ _ ib => exact ib
  | optSome _ ia => exact ia
  | optNone => intro _ _ _ h; cases h; rfl
  | repNone => intro _ _ _ h; cases h; rfl
  | repSome _ _ ia ib =>
    intro _ _ _ h; cases h
    rw [ia _ _ _ rfl, ib _ _ _ rfl]; simp
  | moreNone => intro _ _ _ h; cases h; rfl
  | @moreSome m a s t1 s1 p1 t2 s2 p2 _ _ ia ib =>
    intro _ _ _ h; cases h
    have h3 := skip_append g m s
    have h1 := ia _ _ _ rfl
    have h2 := ib _ _ _ rfl
    conv => lhs; rw [← h3, h1, h2]
    simp
  | notOk => intro _ _ _ h; cases h; rfl
  | rule _ ia => intro _ _ _ h; cases h; exact ia _ _ _ rfl
  | soi => intro _ _ _ h; cases h; rfl
  | eoi => intro _ _ _ h; cases h; rfl
  | _ => intro _ _ _ h; cases h

/-! ### Matching always ends -/

/-- An expression may match nothing, given which rules may. -/
def mayBeEmpty (null : R → Bool) : Expr R → Bool
  | .str t => t.isEmpty
  | .chr _ => false
  | .seq a b => mayBeEmpty null a && mayBeEmpty null b
  | .choice a b => mayBeEmpty null a || mayBeEmpty null b
  | .opt _ => true
  | .rep _ => true
  | .more _ => true
  | .not _ => true
  | .rule r => null r
  | .soi => true
  | .eoi => true

/-- How deep matching can go before a character is consumed. -/
def depth (null : R → Bool) (rank : R → Nat) : Expr R → Nat
  | .str _ => 1
  | .chr _ => 1
  | .seq a b => 1 + max (depth null rank a) (if mayBeEmpty null a then depth null rank b else 0)
  | .choice a b => 1 + max (depth null rank a) (depth null rank b)
  | .opt a => 1 + depth null rank a
  | .rep a => 1 + depth null rank a
  | .more a => 1 + depth null rank a
  | .not a => 1 + depth null rank a
  | .rule r => 1 + rank r
  | .soi => 1
  | .eoi => 1

/-- Nothing that is repeated may match nothing, and the depth is bounded in every part. -/
def bounded (null : R → Bool) (rank : R → Nat) (k : Nat) : Expr R → Bool
  | .seq a b => bounded null rank k a && bounded null rank k b && decide (depth null rank (.seq a b) ≤ k)
  | .choice a b => bounded null rank k a && bounded null rank k b && decide (depth null rank (.choice a b) ≤ k)
  | .opt a => bounded null rank k a && decide (depth null rank (.opt a) ≤ k)
  | .rep a => bounded null rank k a && !mayBeEmpty null a && decide (depth null rank (.rep a) ≤ k)
  | .more a => bounded null rank k a && !mayBeEmpty null a && decide (depth null rank (.more a) ≤ k)
  | .not a => bounded null rank k a && decide (depth null rank (.not a) ≤ k)
  | e => decide (depth null rank e ≤ k)

/-- What a table of rules that may match nothing and of ranks must satisfy. -/
structure Terminating (g : Grammar R) (null : R → Bool) (rank : R → Nat) (k : Nat) : Prop where
  empties : ∀ r, mayBeEmpty null (g.body r) = true → null r = true
  ranks : ∀ r, depth null rank (g.body r) ≤ rank r
  bounds : ∀ r, bounded null rank k (g.body r) = true

theorem depth_le {null : R → Bool} {rank : R → Nat} {k : Nat} {e : Expr R} (h : bounded null rank k e = true) : depth null rank e ≤ k := by
  cases e <;> simp only [bounded, Bool.and_eq_true, decide_eq_true_eq] at h <;> first | exact h.2 | exact h

/-- An expression that cannot match nothing consumes something. -/
theorem Parses.progress {g : Grammar R} {null : R → Bool} {rank : R → Nat} {k : Nat} (hg : Terminating g null rank k) {m e s r}
    (h : Parses g m e s r) : ∀ t s' ps, r = some (t, s', ps) → mayBeEmpty null e = false → t ≠ [] := by
  induction h with
  | str => intro _ _ _ h hn; cases h; simpa [mayBeEmpty] using hn
  | chr => intro _ _ _ h hn; cases h; simp
  | seq _ _ ia ib =>
    intro _ _ _ h hn; cases h
    simp only [mayBeEmpty, Bool.and_eq_false_iff] at hn
    intro he
    simp only [List.append_eq_nil_iff] at he
    rcases hn with hn | hn
    · exact ia _ _ _ rfl hn he.1
    · exact ib _ _ _ rfl hn he.2.2
  | choiceL _ ia => intro _ _ _ h hn; simp only [mayBeEmpty, Bool.or_eq_false_iff] at hn; exact ia _ _ _ h hn.1
  | choiceR _ _ _ ib => intro _ _ _ h hn; simp only [mayBeEmpty, Bool.or_eq_false_iff] at hn; exact ib _ _ _ h hn.2
  | rule _ ia =>
    intro _ _ _ h hn; cases h
    refine ia _ _ _ rfl ?_
    rename_i r _ _ _ _ _
    cases hb : mayBeEmpty null (g.body r) with
    | false => rfl
    | true => simp only [mayBeEmpty] at hn; rw [hg.empties r hb] at hn; cases hn
  | optSome => intro _ _ _ _ hn; simp [mayBeEmpty] at hn
  | optNone => intro _ _ _ _ hn; simp [mayBeEmpty] at hn
  | repNone => intro _ _ _ _ hn; simp [mayBeEmpty] at hn
  | repSome => intro _ _ _ _ hn; simp [mayBeEmpty] at hn
  | moreNone => intro _ _ _ _ hn; simp [mayBeEmpty] at hn
  | moreSome => intro _ _ _ _ hn; simp [mayBeEmpty] at hn
  | notOk => intro _ _ _ _ hn; simp [mayBeEmpty] at hn
  | soi => intro _ _ _ _ hn; simp [mayBeEmpty] at hn
  | eoi => intro _ _ _ _ hn; simp [mayBeEmpty] at hn
  | _ => intro _ _ _ h; cases h

theorem skip_length (g : Grammar R) (m : Bool) (s : Str) : (g.skip m s).2.length ≤ s.length := by
  have := congrArg List.length (skip_append g m s)
  rw [List.length_append] at this
  omega

theorem fuel_shorter {k l l' d n : Nat} (h1 : l' < l) (h2 : d ≤ k) (h3 : l * k ≤ n) : l' * k + d ≤ n := by
  have : (l' + 1) * k ≤ l * k := Nat.mul_le_mul_right k h1
  rw [Nat.add_mul] at this
  omega

theorem fuel_same {k l l' d n : Nat} (h1 : l' ≤ l) (h3 : l * k + d ≤ n) : l' * k + d ≤ n := by
  have : l' * k ≤ l * k := Nat.mul_le_mul_right k h1
  omega

/-- Matching ends: the bound on the depth suffices if it is as large as the length of the text demands. -/
theorem run_total {g : Grammar R} {null : R → Bool} {rank : R → Nat} {k : Nat} (hg : Terminating g null rank k) :
    ∀ n m e s, bounded null rank k e = true → s.length * k + depth null rank e ≤ n → ∃ r, run g n m e s = some r := by
  intro n
  induction n with
  | zero =>
    intro m e s _ hn
    exfalso
    cases e <;> simp only [depth] at hn <;> omega
  | succ n ih =>
    intro m e s hb hn
    have hlen : ∀ {e s t s' ps}, run g n m e s = some (some (t, s', ps)) → s'.length + t.length = s.length := by
      intro e s t s' ps h
      have := congrArg List.length ((run_sound h).split _ _ _ rfl)
      rw [List.length_append] at this
      omega
    have hprog : ∀ {e s t s' ps}, run g n m e s = some (some (t, s', ps)) → mayBeEmpty null e = false → 0 < t.length := by
      intro e s t s' ps h he
      exact List.length_pos_iff.mpr ((run_sound h).progress hg _ _ _ rfl he)
    cases e with
    | str t => simp only [run]; split <;> exact ⟨_, rfl⟩
    | chr p => simp only [run]; split <;> first | exact ⟨_, rfl⟩ | (split <;> exact ⟨_, rfl⟩)
    | seq a b =>
      simp only [bounded, Bool.and_eq_true, decide_eq_true_eq] at hb
      obtain ⟨⟨hba, hbb⟩, hk⟩ := hb
      simp only [depth] at hn
      obtain ⟨ra, ha⟩ := ih m a s hba (by omega)
      simp only [run, ha]
      cases ra with
      | none => exact ⟨_, rfl⟩
      | some x =>
        obtain ⟨t1, s1, p1⟩ := x
        have h1 := hlen ha
        have h2 := skip_length g m s1
        have hdb := depth_le hbb
        obtain ⟨rb, hrb⟩ : ∃ r, run g n m b (g.skip m s1).2 = some r := by
          apply ih m b _ hbb
          cases he : mayBeEmpty null a with
          | true =>
            rw [he] at hn
            simp only [if_true] at hn
            exact fuel_same (l := s.length) (by omega) (by omega)
          | false =>
            have := hprog ha he
            exact fuel_shorter (l := s.length) (by omega) hdb (by omega)
        simp only [hrb]
        cases rb with
        | none => exact ⟨_, rfl⟩
        | some y => exact ⟨_, rfl⟩
    | choice a b =>
      simp only [bounded, Bool.and_eq_true, decide_eq_true_eq] at hb
      obtain ⟨⟨hba, hbb⟩, hk⟩ := hb
      simp only [depth] at hn
      obtain ⟨ra, ha⟩ := ih m a s hba (by omega)
      obtain ⟨rb, hb⟩ := ih m b s hbb (by omega)
      simp only [run, ha]
      cases ra with
      | none => exact ⟨rb, hb⟩
      | some x => exact ⟨_, rfl⟩
    | opt a =>
      simp only [bounded, Bool.and_eq_true, decide_eq_true_eq] at hb
      simp only [depth] at hn
      obtain ⟨ra, ha⟩ := ih m a s hb.1 (by omega)
      simp only [run, ha]
      cases ra <;> exact ⟨_, rfl⟩
    | rep a =>
      simp only [bounded, Bool.and_eq_true, decide_eq_true_eq, Bool.not_eq_true'] at hb
      obtain ⟨⟨hba, hne⟩, hk⟩ := hb
      simp only [depth] at hn hk
      obtain ⟨ra, ha⟩ := ih m a s hba (by omega)
      simp only [run, ha]
      cases ra with
      | none => exact ⟨_, rfl⟩
      | some x =>
        obtain ⟨t1, s1, p1⟩ := x
        have h1 := hlen ha
        have h2 := hprog ha hne
        obtain ⟨rb, hrb⟩ : ∃ r, run g n m (.more a) s1 = some r := by
          apply ih m (.more a) s1
          · simp only [bounded, hba, hne, depth, hk, decide_true, Bool.not_false, Bool.and_self]
          · exact fuel_shorter (l := s.length) (by omega) (by simpa only [depth] using hk) (by omega)
        obtain ⟨y, rfl⟩ := more_ok (run_sound hrb)
        simp only [hrb]
        exact ⟨_, rfl⟩
    | more a =>
      have hb0 := hb
      simp only [bounded, Bool.and_eq_true, decide_eq_true_eq, Bool.not_eq_true'] at hb
      obtain ⟨⟨hba, hne⟩, hk⟩ := hb
      simp only [depth] at hn hk
      have h0 := skip_length g m s
      obtain ⟨ra, ha⟩ := ih m a (g.skip m s).2 hba (fuel_same h0 (by omega))
      simp only [run, ha]
      cases ra with
      | none => exact ⟨_, rfl⟩
      | some x =>
        obtain ⟨t1, s1, p1⟩ := x
        have h1 := hlen ha
        have h2 := hprog ha hne
        obtain ⟨rb, hrb⟩ : ∃ r, run g n m (.more a) s1 = some r :=
          ih m (.more a) s1 hb0 (fuel_shorter (l := s.length) (by omega) (by simpa only [depth] using hk) (by omega))
        obtain ⟨y, rfl⟩ := more_ok (run_sound hrb)
        simp only [hrb]
        exact ⟨_, rfl⟩
    | not a =>
      simp only [bounded, Bool.and_eq_true, decide_eq_true_eq] at hb
      simp only [depth] at hn
      obtain ⟨ra, ha⟩ := ih m a s hb.1 (by omega)
      simp only [run, ha]
      cases ra <;> exact ⟨_, rfl⟩
    | rule r =>
      simp only [depth] at hn
      have := hg.ranks r
      obtain ⟨ra, ha⟩ := ih (g.mode m r) (g.body r) s (hg.bounds r) (by omega)
      simp only [run, ha]
      cases ra <;> exact ⟨_, rfl⟩
    | soi => exact ⟨_, rfl⟩
    | eoi => simp only [run]; split <;> exact ⟨_, rfl⟩

end Verif.Peg
