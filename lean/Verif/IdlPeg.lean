/-
Lemmas for showing that a text is matched by atelier-smithy/src/smithy.pest, a grammar without implicit whitespace.
-/
import Verif.IdlGrammar
import Verif.PegLemmas

namespace Verif
open Peg

theorem idl_skip (m : Bool) (s : Str) : idlGrammar.skip m s = ([], s) := by
  unfold Grammar.skip
  split
  · rfl
  · cases s <;> rfl

/-- Whether a non-empty match of the expression may start with the character; the rules are unfolded to a given depth. -/
def starts : Nat → Expr IdlRule → Char → Bool
  | 0, _, _ => true
  | n + 1, e, c =>
    match e with
    | .str [] => false
    | .str (a :: _) => a == c
    | .chr p => p c
    | .seq a b => starts n a c || (mayBeEmpty IdlGrammar.null a && starts n b c)
    | .choice a b => starts n a c || starts n b c
    | .opt a => starts n a c
    | .rep a => starts n a c
    | .more a => starts n a c
    | .not _ => false
    | .rule r => starts n (IdlGrammar.body r) c
    | .soi => false
    | .eoi => false

theorem starts_of_match {m : Bool} {e : Expr IdlRule} {s : Str} {r : Res IdlRule} (h : Parses idlGrammar m e s r) :
    ∀ t s' ps, r = some (t, s', ps) → t ≠ [] → ∀ n c x, s = c :: x → starts n e c = true := by
  induction h with
  | @str m t s s' hs =>
    intro _ _ _ h hn n c x e
    cases h
    cases n with
    | zero => rfl
    | succ n =>
      cases t with
      | nil => exact absurd rfl hn
      | cons a t =>
        subst e
        have := stripPrefix_some hs
        injection this with this _
        simp [starts, this]
  | chr hp =>
    intro _ _ _ h hn n c x e
    cases h
    cases n with
    | zero => rfl
    | succ n => injection e with e _; subst e; exact hp
  | @seq m a b s t1 s1 p1 t2 s2 p2 h1 h2 ia ib =>
    intro _ _ _ h hn n c x e
    cases h
    cases n with
    | zero => rfl
    | succ n =>
      simp only [starts, Bool.or_eq_true, Bool.and_eq_true]
      rw [idl_skip] at hn h2 ib
      by_cases ht : t1 = []
      · right
        have hs := h1.split _ _ _ rfl
        subst ht
        constructor
        · cases hb : mayBeEmpty IdlGrammar.null a with
          | true => rfl
          | false => exact absurd rfl (h1.progress IdlGrammar.terminating _ _ _ rfl hb)
        · simp only [List.nil_append] at hs hn
          exact ib _ _ _ rfl hn n c x (by rw [← hs]; exact e)
      · left
        exact ia _ _ _ rfl ht n c x e
  | choiceL _ ia =>
    intro t s' ps h hn n c x e
    cases n with
    | zero => rfl
    | succ n => simp only [starts, Bool.or_eq_true]; exact .inl (ia t s' ps h hn n c x e)
  | choiceR _ _ _ ib =>
    intro t s' ps h hn n c x e
    cases n with
    | zero => rfl
    | succ n => simp only [starts, Bool.or_eq_true]; exact .inr (ib t s' ps h hn n c x e)
  | optSome _ ia =>
    intro t s' ps h hn n c x e
    cases n with
    | zero => rfl
    | succ n => exact ia t s' ps h hn n c x e
  | @repSome m a s t1 s1 p1 t2 s2 p2 h1 h2 ia ib =>
    intro _ _ _ h hn n c x e
    cases h
    cases n with
    | zero => rfl
    | succ n =>
      by_cases ht : t1 = []
      · have hs := h1.split _ _ _ rfl
        subst ht
        exact ib _ _ _ rfl (by simpa using hn) (n + 1) c x (by rw [← e]; exact hs.symm)
      · exact ia _ _ _ rfl ht n c x e
  | @moreSome m a s t1 s1 p1 t2 s2 p2 h1 h2 ia ib =>
    intro _ _ _ h hn n c x e
    cases h
    rw [idl_skip] at hn h1 ia
    cases n with
    | zero => rfl
    | succ n =>
      by_cases ht : t1 = []
      · have hs := h1.split _ _ _ rfl
        subst ht
        exact ib _ _ _ rfl (by simpa using hn) (n + 1) c x (by rw [← e]; exact hs.symm)
      · exact ia _ _ _ rfl ht n c x e
  | rule _ ia =>
    intro _ _ _ h hn n c x e
    cases h
    cases n with
    | zero => rfl
    | succ n => exact ia _ _ _ rfl hn n c x e
  | optNone => intro _ _ _ h hn; cases h; exact absurd rfl hn
  | repNone => intro _ _ _ h hn; cases h; exact absurd rfl hn
  | moreNone => intro _ _ _ h hn; cases h; exact absurd rfl hn
  | notOk => intro _ _ _ h hn; cases h; exact absurd rfl hn
  | soi => intro _ _ _ h hn; cases h; exact absurd rfl hn
  | eoi => intro _ _ _ h hn; cases h; exact absurd rfl hn
  | _ => intro _ _ _ h; cases h

/-- The expression is part of the grammar, as far as termination is concerned. -/
abbrev Ok (e : Expr IdlRule) : Prop := bounded IdlGrammar.null IdlGrammar.rank 32 e = true

theorem idl_total (m : Bool) {e : Expr IdlRule} (h : Ok e) (s : Str) : ∃ r, Parses idlGrammar m e s r := by
  obtain ⟨r, hr⟩ := run_total IdlGrammar.terminating (s.length * 32 + depth IdlGrammar.null IdlGrammar.rank e) m e s h (by omega)
  exact ⟨r, run_sound hr⟩

/-- An expression that cannot match nothing fails where none of its matches can start. -/
theorem fails {m : Bool} {e : Expr IdlRule} {c : Char} {s : Str} (n : Nat)
    (h : (!mayBeEmpty IdlGrammar.null e && (bounded IdlGrammar.null IdlGrammar.rank 32 e && !starts n e c)) = true) :
    Parses idlGrammar m e (c :: s) none := by
  simp only [Bool.and_eq_true, Bool.not_eq_true'] at h
  obtain ⟨r, hr⟩ := idl_total m h.2.1 (c :: s)
  cases r with
  | none => exact hr
  | some x =>
    obtain ⟨t, s', ps⟩ := x
    have := starts_of_match hr t s' ps rfl (hr.progress IdlGrammar.terminating _ _ _ rfl h.1) n c s rfl
    rw [h.2.2] at this
    cases this

/-- An expression that cannot match nothing fails at the end. -/
theorem fails_nil {m : Bool} {e : Expr IdlRule}
    (h : (!mayBeEmpty IdlGrammar.null e && bounded IdlGrammar.null IdlGrammar.rank 32 e) = true) : Parses idlGrammar m e [] none := by
  simp only [Bool.and_eq_true, Bool.not_eq_true'] at h
  obtain ⟨r, hr⟩ := idl_total m h.2 []
  cases r with
  | none => exact hr
  | some x =>
    obtain ⟨t, s', ps⟩ := x
    have h1 := hr.split _ _ _ rfl
    have h2 := hr.progress IdlGrammar.terminating _ _ _ rfl h.1
    simp at h1
    exact absurd h1.1 h2

/-! ### Matches -/

/-- Outside atomic rules: the expression matches at the start of `s` and leaves exactly `rest`, with pairs as described. -/
def Eats (e : Expr IdlRule) (s rest : Str) (Q : List (Pair IdlRule) → Prop) : Prop :=
  ∃ t ps, Parses idlGrammar false e s (some (t, rest, ps)) ∧ Q ps

namespace Eats
variable {a b e : Expr IdlRule} {s rest rest1 rest2 : Str} {Q Q' Q1 Q2 : List (Pair IdlRule) → Prop}

theorem mono (h : Eats e s rest Q) (hq : ∀ ps, Q ps → Q' ps) : Eats e s rest Q' := by
  obtain ⟨t, ps, h1, h2⟩ := h
  exact ⟨t, ps, h1, hq _ h2⟩

theorem seq (ha : Eats a s rest1 Q1) (hb : Eats b rest1 rest2 Q2) :
    Eats (a ~> b) s rest2 (fun ps => ∃ p q, ps = p ++ q ∧ Q1 p ∧ Q2 q) := by
  obtain ⟨t1, p1, h1, q1⟩ := ha
  obtain ⟨t2, p2, h2, q2⟩ := hb
  exact ⟨_, _, .seq (t2 := t2) h1 (by rw [idl_skip]; exact h2), p1, p2, rfl, q1, q2⟩

/-- A first part without pairs. -/
theorem seqL (ha : Eats a s rest1 (· = [])) (hb : Eats b rest1 rest2 Q) : Eats (a ~> b) s rest2 Q := by
  refine (ha.seq hb).mono ?_
  rintro _ ⟨_, q, rfl, rfl, h⟩
  exact h

/-- A second part without pairs. -/
theorem seqR (ha : Eats a s rest1 Q) (hb : Eats b rest1 rest2 (· = [])) : Eats (a ~> b) s rest2 Q := by
  refine (ha.seq hb).mono ?_
  rintro _ ⟨p, _, rfl, h, rfl⟩
  simpa using h

/-- The same, with the parts grouped as in the grammar. -/
theorem thenR {c : Expr IdlRule} (h : Eats (a ~> b) s rest1 Q) (hc : Eats c rest1 rest2 (· = [])) : Eats (a ~> b ~> c) s rest2 Q := by
  obtain ⟨t, ps, h1, h2⟩ := h
  cases h1 with
  | @seq _ _ _ _ t1 s1 p1 t2 s2 p2 ha hb =>
    rw [idl_skip] at hb
    have e1 : Eats a s s1 (· = p1) := ⟨_, _, ha, rfl⟩
    have e2 : Eats b s1 rest1 (· = p2) := ⟨_, _, hb, rfl⟩
    refine (e1.seq (e2.seqR hc)).mono ?_
    rintro _ ⟨_, _, rfl, rfl, rfl⟩
    exact h2

theorem str {t rest : Str} : Eats (.str t) (t ++ rest) rest (· = []) := ⟨t, [], .str (stripPrefix_append _ _), rfl⟩

theorem opt (h : Eats a s rest Q) : Eats (.opt a) s rest Q := by
  obtain ⟨t, ps, h1, h2⟩ := h
  exact ⟨t, ps, .optSome h1, h2⟩

theorem optNone (h : Parses idlGrammar false a s none) : Eats (.opt a) s s (· = []) := ⟨[], [], .optNone h, rfl⟩

theorem choiceL (h : Eats a s rest Q) : Eats (a <||> b) s rest Q := by
  obtain ⟨t, ps, h1, h2⟩ := h
  exact ⟨t, ps, .choiceL h1, h2⟩

theorem choiceR (hf : Parses idlGrammar false a s none) (h : Eats b s rest Q) : Eats (a <||> b) s rest Q := by
  obtain ⟨t, ps, h1, h2⟩ := h
  exact ⟨t, ps, .choiceR hf h1, h2⟩

theorem more (h : Eats (.rep a) s rest Q) : Eats (.more a) s rest Q := by
  obtain ⟨t, ps, h1, h2⟩ := h
  cases h1 with
  | repNone h => exact ⟨[], [], .moreNone (by rw [idl_skip]; exact h), h2⟩
  | repSome ha hb => exact ⟨_, _, .moreSome (by rw [idl_skip]; exact ha) hb, h2⟩

theorem repNil (h : Parses idlGrammar false a s none) : Eats (.rep a) s s (· = []) := ⟨[], [], .repNone h, rfl⟩

theorem repCons (ha : Eats a s rest1 Q1) (hb : Eats (.rep a) rest1 rest2 Q2) :
    Eats (.rep a) s rest2 (fun ps => ∃ p q, ps = p ++ q ∧ Q1 p ∧ Q2 q) := by
  obtain ⟨t1, p1, h1, q1⟩ := ha
  obtain ⟨t2, p2, h2, q2⟩ := hb.more
  exact ⟨_, _, .repSome h1 h2, p1, p2, rfl, q1, q2⟩

theorem normal {r : IdlRule} (hk : IdlGrammar.kind r = .normal) (h : Eats (IdlGrammar.body r) s rest Q) :
    Eats (.rule r) s rest (fun ps => ∃ t ps', ps = [.mk r t ps'] ∧ Q ps') := by
  obtain ⟨t, ps, h1, h2⟩ := h
  have hm : idlGrammar.mode false r = false := by unfold Grammar.mode; change (false || decide (IdlGrammar.kind r = .atomic)) = false; rw [hk]; rfl
  have hp : idlGrammar.pairs false r t ps = [.mk r t ps] := by
    unfold Grammar.pairs; change (if false = true then [] else match IdlGrammar.kind r with | .normal => _ | .silent => _ | .atomic => _) = _; rw [hk]; rfl
  have := Parses.rule (g := idlGrammar) (m := false) (r := r) (by rw [hm]; exact h1)
  rw [hp] at this
  exact ⟨t, _, this, t, ps, rfl, h2⟩

/-- The text of the pair is the text matched. -/
theorem normalText {r : IdlRule} {t : Str} (hk : IdlGrammar.kind r = .normal) (h : Eats (IdlGrammar.body r) (t ++ rest) rest Q) :
    Eats (.rule r) (t ++ rest) rest (fun ps => ∃ ps', ps = [.mk r t ps'] ∧ Q ps') := by
  obtain ⟨t', ps, h1, h2⟩ := h
  have := h1.split _ _ _ rfl
  rw [List.append_cancel_right_eq] at this
  subst this
  have hm : idlGrammar.mode false r = false := by unfold Grammar.mode; change (false || decide (IdlGrammar.kind r = .atomic)) = false; rw [hk]; rfl
  have hp : idlGrammar.pairs false r t ps = [.mk r t ps] := by
    unfold Grammar.pairs; change (if false = true then [] else match IdlGrammar.kind r with | .normal => _ | .silent => _ | .atomic => _) = _; rw [hk]; rfl
  have := Parses.rule (g := idlGrammar) (m := false) (r := r) (by rw [hm]; exact h1)
  rw [hp] at this
  exact ⟨t, _, this, ps, rfl, h2⟩

theorem silent {r : IdlRule} (hk : IdlGrammar.kind r = .silent) (h : Eats (IdlGrammar.body r) s rest Q) : Eats (.rule r) s rest Q := by
  obtain ⟨t, ps, h1, h2⟩ := h
  have hm : idlGrammar.mode false r = false := by unfold Grammar.mode; change (false || decide (IdlGrammar.kind r = .atomic)) = false; rw [hk]; rfl
  have hp : idlGrammar.pairs false r t ps = ps := by
    unfold Grammar.pairs; change (if false = true then [] else match IdlGrammar.kind r with | .normal => _ | .silent => _ | .atomic => _) = _; rw [hk]; rfl
  have := Parses.rule (g := idlGrammar) (m := false) (r := r) (by rw [hm]; exact h1)
  rw [hp] at this
  exact ⟨t, _, this, h2⟩

theorem atomic {r : IdlRule} {t : Str} {ps : List (Pair IdlRule)} (hk : IdlGrammar.kind r = .atomic)
    (h : Parses idlGrammar true (IdlGrammar.body r) (t ++ rest) (some (t, rest, ps))) :
    Eats (.rule r) (t ++ rest) rest (· = [.mk r t ps]) := by
  have hm : idlGrammar.mode false r = true := by unfold Grammar.mode; change (false || decide (IdlGrammar.kind r = .atomic)) = true; rw [hk]; rfl
  have hp : idlGrammar.pairs false r t ps = [.mk r t ps] := by
    unfold Grammar.pairs; change (if false = true then [] else match IdlGrammar.kind r with | .normal => _ | .silent => _ | .atomic => _) = _; rw [hk]; rfl
  have := Parses.rule (g := idlGrammar) (m := false) (r := r) (by rw [hm]; exact h)
  rw [hp] at this
  exact ⟨t, _, this, rfl⟩

theorem soi : Eats .soi s s (· = []) := ⟨[], [], .soi, rfl⟩

end Eats

/-- A rule fails if its body does. -/
theorem failsNormal {r : IdlRule} {s : Str} (hk : IdlGrammar.kind r = .normal) (h : Parses idlGrammar false (IdlGrammar.body r) s none) :
    Parses idlGrammar false (.rule r) s none := ruleFail_normal (g := idlGrammar) hk h

theorem failsSilent {r : IdlRule} {s : Str} (hk : IdlGrammar.kind r = .silent) (h : Parses idlGrammar false (IdlGrammar.body r) s none) :
    Parses idlGrammar false (.rule r) s none := by
  have hm : idlGrammar.mode false r = false := by unfold Grammar.mode; change (false || decide (IdlGrammar.kind r = .atomic)) = false; rw [hk]; rfl
  exact .ruleFail (by rw [hm]; exact h)

theorem failsSeq {a b : Expr IdlRule} {s rest : Str} {Q : List (Pair IdlRule) → Prop} (ha : Eats a s rest Q)
    (hb : Parses idlGrammar false b rest none) : Parses idlGrammar false (a ~> b) s none := by
  obtain ⟨t, ps, h, _⟩ := ha
  exact .seqFail2 h (by rw [idl_skip]; exact hb)

end Verif
