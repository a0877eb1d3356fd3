/-
Every pair that matching gives is what its rule says.
-/
import Verif.PegTree

namespace Verif.Peg
variable {R : Type} {g : Grammar R}

/-- A pair whose text and pairs inside are as its rule says, at every depth; the texts inside are parts of its text. -/
inductive Sound (g : Grammar R) : Pair R → Prop
  | mk {r t ps} : Tree g (decide (g.kind r = .atomic)) (g.body r) t ps → (∀ p ∈ ps, Sound g p) → (∀ p ∈ ps, p.asStr <:+: t) →
      Sound g (.mk r t ps)
  | eoi : Sound g (.mk g.eoi [] [])

/-- Every pair in a tree is sound, and its text is part of the text of the tree. -/
theorem Tree.sound {m e t ps} (h : Tree g m e t ps) : ∀ p ∈ ps, Sound g p ∧ p.asStr <:+: t := by
  induction h with
  | str | chr | optNone | repNone | moreNone | not | soi => intro p hp; cases hp
  | seq _ _ _ _ ia ib =>
    intro p hp
    rcases List.mem_append.mp hp with hp | hp
    · exact ⟨(ia p hp).1, (ia p hp).2.trans (List.prefix_append _ _).isInfix⟩
    · exact ⟨(ib p hp).1, (ib p hp).2.trans ((List.suffix_append _ _).trans (List.suffix_append _ _)).isInfix⟩
  | choiceL _ ih => exact ih
  | choiceR _ _ ih => exact ih
  | optSome _ ih => exact ih
  | repSome _ _ ia ib =>
    intro p hp
    rcases List.mem_append.mp hp with hp | hp
    · exact ⟨(ia p hp).1, (ia p hp).2.trans (List.prefix_append _ _).isInfix⟩
    · exact ⟨(ib p hp).1, (ib p hp).2.trans (List.suffix_append _ _).isInfix⟩
  | moreSome _ _ _ _ ia ib =>
    intro p hp
    rcases List.mem_append.mp hp with hp | hp
    · exact ⟨(ia p hp).1, (ia p hp).2.trans ((List.prefix_append _ _).isInfix.trans (List.suffix_append _ _).isInfix)⟩
    · exact ⟨(ib p hp).1, (ib p hp).2.trans ((List.suffix_append _ _).trans (List.suffix_append _ _)).isInfix⟩
  | @rule m r t ps h ih =>
    intro p hp
    unfold Grammar.pairs at hp
    cases m with
    | true => cases hp
    | false =>
      have hm : g.mode false r = decide (g.kind r = .atomic) := by simp [Grammar.mode]
      rw [hm] at h
      have hs : Sound g (.mk r t ps) := .mk h (fun p hp => (ih p hp).1) (fun p hp => (ih p hp).2)
      rw [if_neg (by simp)] at hp
      split at hp
      · rcases List.mem_singleton.mp hp with rfl
        exact ⟨hs, List.infix_refl _⟩
      · exact ih p hp
      · rcases List.mem_singleton.mp hp with rfl
        exact ⟨hs, List.infix_refl _⟩
  | @eoi m =>
    intro p hp
    cases m with
    | true => cases hp
    | false =>
      rcases List.mem_singleton.mp hp with rfl
      exact ⟨.eoi, List.infix_refl _⟩

theorem Sound.inner {p : Pair R} (h : Sound g p) : ∀ q ∈ p.intoInner, Sound g q := by
  cases h with
  | mk _ h _ => exact h
  | eoi => intro q hq; cases hq

theorem Sound.texts {p : Pair R} (h : Sound g p) : ∀ q ∈ p.intoInner, q.asStr <:+: p.asStr := by
  cases h with
  | mk _ _ h => exact h
  | eoi => intro q hq; cases hq

theorem Sound.tree {r t ps} (h : Sound g (.mk r t ps)) (hr : r ≠ g.eoi) : Tree g (decide (g.kind r = .atomic)) (g.body r) t ps := by
  cases h with
  | mk h _ _ => exact h
  | eoi => exact absurd rfl hr

/-- The rules of the pairs an expression may give, if the depth suffices. -/
def emits (g : Grammar R) : Nat → Expr R → Option (List R)
  | 0, _ => none
  | n + 1, e =>
    match e with
    | .str _ | .chr _ | .not _ | .soi => some []
    | .eoi => some [g.eoi]
    | .seq a b | .choice a b =>
      match emits g n a, emits g n b with
      | some x, some y => some (x ++ y)
      | _, _ => none
    | .opt a | .rep a | .more a => emits g n a
    | .rule r =>
      match g.kind r with
      | .silent => emits g n (g.body r)
      | _ => some [r]

theorem emits_two {n : Nat} {a b : Expr R} {l : List R} (h : (match emits g n a, emits g n b with
      | some x, some y => some (x ++ y)
      | _, _ => none) = some l) : ∃ x y, emits g n a = some x ∧ emits g n b = some y ∧ l = x ++ y := by
  split at h
  · next x y hx hy => cases h; exact ⟨x, y, hx, hy, rfl⟩
  · cases h

/-- The pairs are of these rules. -/
theorem Tree.emits {m e t ps} (h : Tree g m e t ps) : ∀ n l, Peg.emits g n e = some l → ∀ p ∈ ps, p.asRule ∈ l := by
  induction h with
  | str | chr | optNone | repNone | moreNone | not | soi => intro n l _ p hp; cases hp
  | seq _ _ _ _ ia ib =>
    intro n l hl p hp
    cases n with
    | zero => cases hl
    | succ n =>
      obtain ⟨x, y, hx, hy, rfl⟩ := emits_two hl
      rcases List.mem_append.mp hp with hp | hp
      · exact List.mem_append_left _ (ia n x hx p hp)
      · exact List.mem_append_right _ (ib n y hy p hp)
  | choiceL _ ia =>
    intro n l hl p hp
    cases n with
    | zero => cases hl
    | succ n =>
      obtain ⟨x, y, hx, hy, rfl⟩ := emits_two hl
      exact List.mem_append_left _ (ia n x hx p hp)
  | choiceR _ _ ib =>
    intro n l hl p hp
    cases n with
    | zero => cases hl
    | succ n =>
      obtain ⟨x, y, hx, hy, rfl⟩ := emits_two hl
      exact List.mem_append_right _ (ib n y hy p hp)
  | optSome _ ia =>
    intro n l hl p hp
    cases n with
    | zero => cases hl
    | succ n => exact ia n l hl p hp
  | repSome _ _ ia ib =>
    intro n l hl p hp
    cases n with
    | zero => cases hl
    | succ n =>
      rcases List.mem_append.mp hp with hp | hp
      · exact ia n l hl p hp
      · exact ib (n + 1) l hl p hp
  | moreSome _ _ _ _ ia ib =>
    intro n l hl p hp
    cases n with
    | zero => cases hl
    | succ n =>
      rcases List.mem_append.mp hp with hp | hp
      · exact ia n l hl p hp
      · exact ib (n + 1) l hl p hp
  | @rule m r t ps h ih =>
    intro n l hl p hp
    cases n with
    | zero => cases hl
    | succ n =>
      unfold Grammar.pairs at hp
      cases m with
      | true => cases hp
      | false =>
        rw [if_neg (by simp)] at hp
        unfold Peg.emits at hl
        cases hk : g.kind r with
        | silent =>
          simp only [hk] at hp hl
          exact ih n l hl p hp
        | normal =>
          simp only [hk] at hp hl
          cases hl
          rcases List.mem_singleton.mp hp with rfl
          exact List.mem_singleton_self _
        | atomic =>
          simp only [hk] at hp hl
          cases hl
          rcases List.mem_singleton.mp hp with rfl
          exact List.mem_singleton_self _
  | @eoi m =>
    intro n l hl p hp
    cases n with
    | zero => cases hl
    | succ n =>
      cases m with
      | true => cases hp
      | false =>
        cases hl
        rcases List.mem_singleton.mp hp with rfl
        exact List.mem_singleton_self _

/-- The pairs inside a sound pair are of the rules its body gives. -/
theorem Sound.emits {p : Pair R} (h : Sound g p) {n : Nat} {l : List R} (hl : Peg.emits g n (g.body p.asRule) = some l) :
    ∀ q ∈ p.intoInner, q.asRule ∈ l := by
  cases h with
  | mk ht _ _ => exact ht.emits n l hl
  | eoi => intro q hq; cases hq

/-- How many pairs an expression gives at least. -/
def atLeast (g : Grammar R) : Nat → Expr R → Nat
  | 0, _ => 0
  | n + 1, e =>
    match e with
    | .eoi => 1
    | .seq a b => atLeast g n a + atLeast g n b
    | .choice a b => min (atLeast g n a) (atLeast g n b)
    | .rule r =>
      match g.kind r with
      | .silent => atLeast g n (g.body r)
      | _ => 1
    | _ => 0

/-- There are as many pairs as that. -/
theorem Tree.atLeast {m e t ps} (h : Tree g m e t ps) : m = false → ∀ n, Peg.atLeast g n e ≤ ps.length := by
  induction h with
  | str | chr | optNone | repNone | moreNone | not | soi | optSome | repSome | moreSome => intro _ n; cases n <;> exact Nat.zero_le _
  | seq _ _ _ _ ia ib =>
    intro hm n
    cases n with
    | zero => exact Nat.zero_le _
    | succ n =>
      have := ia hm n
      have := ib hm n
      rw [List.length_append]
      change Peg.atLeast g n _ + Peg.atLeast g n _ ≤ _
      omega
  | choiceL _ ia =>
    intro hm n
    cases n with
    | zero => exact Nat.zero_le _
    | succ n => exact Nat.le_trans (Nat.min_le_left _ _) (ia hm n)
  | choiceR _ _ ib =>
    intro hm n
    cases n with
    | zero => exact Nat.zero_le _
    | succ n => exact Nat.le_trans (Nat.min_le_right _ _) (ib hm n)
  | @rule m r t ps h ih =>
    rintro rfl n
    cases n with
    | zero => exact Nat.zero_le _
    | succ n =>
      unfold Grammar.pairs Peg.atLeast
      rw [if_neg (by simp)]
      cases hk : g.kind r with
      | silent =>
        have hm : g.mode false r = false := by simp [Grammar.mode, hk]
        simp only [hk]
        exact ih hm n
      | normal => simp only [hk]; simp
      | atomic => simp only [hk]; simp
  | @eoi m =>
    rintro rfl n
    cases n with
    | zero => exact Nat.zero_le _
    | succ n => simp [Peg.atLeast]

/-- A sound pair has as many pairs inside. -/
theorem Sound.atLeast {p : Pair R} (h : Sound g p) (hr : p.asRule ≠ g.eoi) (hk : g.kind p.asRule ≠ .atomic) (n : Nat) :
    Peg.atLeast g n (g.body p.asRule) ≤ p.intoInner.length := by
  obtain ⟨r, t, ps⟩ := p
  have := h.tree hr
  exact this.atLeast (decide_eq_false hk) n

end Verif.Peg
