/-
Lemmas for showing that a text is matched.
-/
import Verif.Peg
import Mathlib.Data.List.Forall2

namespace Verif.Peg
variable {R : Type} {g : Grammar R}

/-- A text without leading implicit whitespace. -/
def Grammar.trim (g : Grammar R) (s : Str) : Str := s.dropWhile g.ws

theorem skip_false (s : Str) : (g.skip false s).2 = g.trim s := rfl
theorem skip_true (s : Str) : g.skip true s = ([], s) := rfl

theorem dropWhile_idem {α : Type} (p : α → Bool) (l : List α) : (l.dropWhile p).dropWhile p = l.dropWhile p := by
  induction l with
  | nil => rfl
  | cons a l ih =>
    by_cases h : p a = true
    · rw [List.dropWhile_cons_of_pos h, ih]
    · rw [List.dropWhile_cons_of_neg h, List.dropWhile_cons_of_neg h]

theorem trim_trim (s : Str) : g.trim (g.trim s) = g.trim s := dropWhile_idem _ _

theorem trim_cons {c : Char} (s : Str) (h : g.ws c = false) : g.trim (c :: s) = c :: s := by
  unfold Grammar.trim
  rw [List.dropWhile_cons_of_neg (by simp [h])]

/-- Outside atomic rules: `e` matches at the start of `s` and leaves `rest`, or `rest` without leading whitespace, with
pairs as described. -/
def Reads (g : Grammar R) (e : Expr R) (s rest : Str) (Q : List (Pair R) → Prop) : Prop :=
  ∃ t s' ps, Parses g false e s (some (t, s', ps)) ∧ (s' = rest ∨ s' = g.trim rest) ∧ Q ps

theorem Reads.trim_eq {s' rest : Str} (h : s' = rest ∨ s' = g.trim rest) : g.trim s' = g.trim rest := by
  rcases h with rfl | rfl
  · rfl
  · exact trim_trim _

theorem Reads.mono {e s rest Q Q'} (h : Reads g e s rest Q) (hq : ∀ ps, Q ps → Q' ps) : Reads g e s rest Q' := by
  obtain ⟨t, s', ps, h1, h2, h3⟩ := h
  exact ⟨t, s', ps, h1, h2, hq _ h3⟩

theorem Reads.seq {a b s rest1 rest2 Q1 Q2} (ha : Reads g a s rest1 Q1) (hb : Reads g b (g.trim rest1) rest2 Q2) :
    Reads g (a ~> b) s rest2 (fun ps => ∃ p q, ps = p ++ q ∧ Q1 p ∧ Q2 q) := by
  obtain ⟨t1, s1, p1, h1, e1, q1⟩ := ha
  obtain ⟨t2, s2, p2, h2, e2, q2⟩ := hb
  rw [← Reads.trim_eq e1, ← skip_false] at h2
  exact ⟨_, _, _, .seq h1 h2, e2, p1, p2, rfl, q1, q2⟩

theorem Reads.str {t rest : Str} : Reads g (.str t) (t ++ rest) rest (· = []) :=
  ⟨t, rest, [], .str (stripPrefix_append _ _), .inl rfl, rfl⟩

theorem Reads.opt {a s rest Q} (h : Reads g a s rest Q) : Reads g (.opt a) s rest Q := by
  obtain ⟨t, s', ps, h1, h2, h3⟩ := h
  exact ⟨t, s', ps, .optSome h1, h2, h3⟩

theorem Reads.optNone {a s rest} (h : Parses g false a s none) (hs : s = rest ∨ s = g.trim rest) : Reads g (.opt a) s rest (· = []) :=
  ⟨[], s, [], .optNone h, hs, rfl⟩

theorem Reads.choiceL {a b s rest Q} (h : Reads g a s rest Q) : Reads g (a <||> b) s rest Q := by
  obtain ⟨t, s', ps, h1, h2, h3⟩ := h
  exact ⟨t, s', ps, .choiceL h1, h2, h3⟩

theorem Reads.choiceR {a b s rest Q} (hf : Parses g false a s none) (h : Reads g b s rest Q) : Reads g (a <||> b) s rest Q := by
  obtain ⟨t, s', ps, h1, h2, h3⟩ := h
  exact ⟨t, s', ps, .choiceR hf h1, h2, h3⟩

theorem Reads.rule {r s rest Q} (hk : g.kind r = .normal) (h : Reads g (g.body r) s rest Q) :
    Reads g (.rule r) s rest (fun ps => ∃ t ps', ps = [.mk r t ps'] ∧ Q ps') := by
  obtain ⟨t, s', ps, h1, h2, h3⟩ := h
  have hm : g.mode false r = false := by unfold Grammar.mode; rw [hk]; rfl
  have hp : g.pairs false r t ps = [.mk r t ps] := by unfold Grammar.pairs; rw [hk]; rfl
  have := Parses.rule (g := g) (m := false) (r := r) (by rw [hm]; exact h1)
  rw [hp] at this
  exact ⟨t, s', _, this, h2, t, ps, rfl, h3⟩

/-- An atomic rule matches exactly. -/
theorem Reads.atomic {r t rest ps} (hk : g.kind r = .atomic) (h : Parses g true (g.body r) (t ++ rest) (some (t, rest, ps))) :
    Reads g (.rule r) (t ++ rest) rest (· = [.mk r t ps]) := by
  have hm : g.mode false r = true := by unfold Grammar.mode; rw [hk]; rfl
  have hp : g.pairs false r t ps = [.mk r t ps] := by unfold Grammar.pairs; rw [hk]; rfl
  have := Parses.rule (g := g) (m := false) (r := r) (by rw [hm]; exact h)
  rw [hp] at this
  exact ⟨t, rest, _, this, .inl rfl, rfl⟩

theorem ruleFail_normal {r s} (hk : g.kind r = .normal) (h : Parses g false (g.body r) s none) : Parses g false (.rule r) s none := by
  have hm : g.mode false r = false := by unfold Grammar.mode; rw [hk]; rfl
  exact .ruleFail (by rw [hm]; exact h)

theorem ruleFail_atomic {m r s} (hk : g.kind r = .atomic) (h : Parses g true (g.body r) s none) : Parses g m (.rule r) s none := by
  have hm : g.mode m r = true := by unfold Grammar.mode; rw [hk]; simp
  exact .ruleFail (by rw [hm]; exact h)

/-- In atomic mode a rule gives no pairs. -/
theorem ruleAtomic {r s t s' ps} (h : Parses g true (g.body r) s (some (t, s', ps))) : Parses g true (.rule r) s (some (t, s', [])) := by
  have := Parses.rule (g := g) (m := true) (r := r) h
  exact this

theorem ruleFailAtomic {r s} (h : Parses g true (g.body r) s none) : Parses g true (.rule r) s none :=
  .ruleFail h

theorem seqAtomic {a b s t1 s1 p1 t2 s2 p2} (h1 : Parses g true a s (some (t1, s1, p1))) (h2 : Parses g true b s1 (some (t2, s2, p2))) :
    Parses g true (a ~> b) s (some (t1 ++ t2, s2, p1 ++ p2)) := by
  have := Parses.seq h1 (by rw [skip_true]; exact h2)
  rw [skip_true] at this
  exact this

theorem seqFailAtomic {a b s t1 s1 p1} (h1 : Parses g true a s (some (t1, s1, p1))) (h2 : Parses g true b s1 none) :
    Parses g true (a ~> b) s none := .seqFail2 h1 (by rw [skip_true]; exact h2)

theorem strFail_head {m : Bool} {a : Char} {t s : Str} (h : ∀ c s', s = c :: s' → c ≠ a) : Parses g m (.str (a :: t)) s none := by
  cases s with
  | nil => exact .strFail rfl
  | cons c s' =>
    have := h c s' rfl
    exact .strFail (by unfold stripPrefix; rw [if_neg (fun e => this e.symm)])

theorem chrFail_head {m : Bool} {p : Char → Bool} {s : Str} (h : ∀ c s', s = c :: s' → p c = false) : Parses g m (.chr p) s none := by
  cases s with
  | nil => exact .chrNil
  | cons c s' => exact .chrFail (h c s' rfl)

/-- A run of characters, in atomic mode. -/
theorem repChr {p : Char → Bool} {t rest : Str} (ht : ∀ c ∈ t, p c = true) (hr : ∀ c s', rest = c :: s' → p c = false) :
    Parses g true (.rep (.chr p)) (t ++ rest) (some (t, rest, [])) := by
  have more : ∀ t : Str, (∀ c ∈ t, p c = true) → Parses g true (.more (.chr p)) (t ++ rest) (some (t, rest, [])) := by
    intro t
    induction t with
    | nil => intro _; exact .moreNone (by rw [skip_true]; exact chrFail_head hr)
    | cons c t ih =>
      intro ht
      have h1 : Parses g true (.chr p) (g.skip true (c :: t ++ rest)).2 (some ([c], t ++ rest, [])) := by
        rw [skip_true]; exact .chr (ht c (by simp))
      exact .moreSome h1 (ih (fun d hd => ht d (by simp [hd])))
  cases t with
  | nil => exact .repNone (chrFail_head hr)
  | cons c t =>
    exact .repSome (Parses.chr (ht c (by simp))) (more t (fun d hd => ht d (by simp [hd])))

/-- One or more. -/
theorem plusChr {p : Char → Bool} {t rest : Str} (hne : t ≠ []) (ht : ∀ c ∈ t, p c = true) (hr : ∀ c s', rest = c :: s' → p c = false) :
    Parses g true (.plus (.chr p)) (t ++ rest) (some (t, rest, [])) := by
  cases t with
  | nil => exact absurd rfl hne
  | cons c t =>
    have := seqAtomic (g := g) (Parses.chr (g := g) (m := true) (s := t ++ rest) (ht c (by simp)))
      (repChr (g := g) (fun d hd => ht d (by simp [hd])) hr)
    exact this

theorem Reads.moreNone {a rest} (h : Parses g false a (g.trim rest) none) : Reads g (.more a) rest rest (· = []) :=
  ⟨[], rest, [], .moreNone h, .inl rfl, rfl⟩

theorem Reads.moreTrim {a s rest Q} (h : Reads g (.more a) s rest Q) : Reads g (.more a) (g.trim s) rest Q := by
  obtain ⟨t, s', ps, h1, h2, h3⟩ := h
  cases h1 with
  | moreNone hn =>
    rw [skip_false] at hn
    refine ⟨[], g.trim s, [], .moreNone (by rw [skip_false, trim_trim]; exact hn), .inr (Reads.trim_eq h2), h3⟩
  | moreSome ha hb =>
    rw [skip_false] at ha
    exact ⟨_, _, _, .moreSome (by rw [skip_false, trim_trim]; exact ha) hb, h2, h3⟩

theorem Reads.moreSome {a s rest1 rest2 Q1 Q2} (ha : Reads g a (g.trim s) rest1 Q1) (hb : Reads g (.more a) rest1 rest2 Q2) :
    Reads g (.more a) s rest2 (fun ps => ∃ p q, ps = p ++ q ∧ Q1 p ∧ Q2 q) := by
  obtain ⟨t1, s1, p1, h1, e1, q1⟩ := ha
  have hb' : Reads g (.more a) s1 rest2 Q2 := by
    rcases e1 with rfl | rfl
    · exact hb
    · exact hb.moreTrim
  obtain ⟨t2, s2, p2, h2, e2, q2⟩ := hb'
  exact ⟨_, _, _, .moreSome h1 h2, e2, p1, p2, rfl, q1, q2⟩

theorem Reads.repNone {a s rest} (h : Parses g false a s none) (hs : s = rest ∨ s = g.trim rest) : Reads g (.rep a) s rest (· = []) :=
  ⟨[], s, [], .repNone h, hs, rfl⟩

theorem Reads.repSome {a s rest1 rest2 Q1 Q2} (ha : Reads g a s rest1 Q1) (hb : Reads g (.more a) rest1 rest2 Q2) :
    Reads g (.rep a) s rest2 (fun ps => ∃ p q, ps = p ++ q ∧ Q1 p ∧ Q2 q) := by
  obtain ⟨t1, s1, p1, h1, e1, q1⟩ := ha
  have hb' : Reads g (.more a) s1 rest2 Q2 := by
    rcases e1 with rfl | rfl
    · exact hb
    · exact hb.moreTrim
  obtain ⟨t2, s2, p2, h2, e2, q2⟩ := hb'
  exact ⟨_, _, _, .repSome h1 h2, e2, p1, p2, rfl, q1, q2⟩

/-- A list: the first by `x`, the others by `y`, which also reads what is printed between them. -/
theorem Reads.list {α : Type} {x y : Expr R} {psep : Str} {d : α → Str} {Q : α → Pair R → Prop} {F : Str → Prop} {as : List α} {rest : Str}
    (hne : as ≠ [])
    (hx : ∀ a ∈ as, ∀ r, F r → Reads g x (d a ++ r) r (fun ps => ∃ p, ps = [p] ∧ Q a p))
    (hy : ∀ a ∈ as, ∀ r, F r → Reads g y (g.trim (psep ++ (d a ++ r))) r (fun ps => ∃ p, ps = [p] ∧ Q a p))
    (hF : F rest) (hsep : ∀ r, F (psep ++ r)) (hend : Parses g false y (g.trim rest) none) :
    Reads g (x ~> .rep y) (joinWith psep (as.map d) ++ rest) rest (List.Forall₂ Q as) := by
  have hjoin : ∀ a (as : List α), joinWith psep ((a :: as).map d) = d a ++ as.flatMap (fun b => psep ++ d b) := by
    intro a as
    induction as generalizing a with
    | nil => simp [joinWith]
    | cons b bs ih =>
      have := ih b
      simp only [List.map_cons] at this
      simp only [List.map_cons, joinWith, this, List.flatMap_cons, List.append_assoc]
  have hFt : ∀ bs : List α, F (bs.flatMap (fun b => psep ++ d b) ++ rest) := by
    intro bs
    cases bs with
    | nil => exact hF
    | cons b bs =>
      rw [List.flatMap_cons, List.append_assoc, List.append_assoc]
      exact hsep _
  have hmore : ∀ bs : List α, (∀ b ∈ bs, b ∈ as) →
      Reads g (.more y) (bs.flatMap (fun b => psep ++ d b) ++ rest) rest (List.Forall₂ Q bs) := by
    intro bs
    induction bs with
    | nil => intro _; exact (Reads.moreNone hend).mono (by rintro _ rfl; exact .nil)
    | cons b bs ih =>
      intro hb
      have h1 := hy b (hb b (by simp)) _ (hFt bs)
      have h2 := ih (fun c hc => hb c (by simp [hc]))
      rw [List.flatMap_cons, List.append_assoc, List.append_assoc]
      refine (Reads.moreSome h1 h2).mono ?_
      rintro _ ⟨p, q, rfl, ⟨p', rfl, hp⟩, hq⟩
      exact .cons hp hq
  cases as with
  | nil => exact absurd rfl hne
  | cons a as =>
    rw [hjoin, List.append_assoc]
    have h1 := hx a (by simp) _ (hFt as)
    cases as with
    | nil =>
      refine (h1.seq (Reads.repNone (rest := rest) hend (.inr rfl))).mono ?_
      rintro _ ⟨p, q, rfl, ⟨p', rfl, hp⟩, rfl⟩
      exact .cons hp .nil
    | cons b bs =>
      have h2 := hy b (by simp) _ (hFt bs)
      have h3 := hmore bs (fun c hc => by simp [hc])
      rw [List.flatMap_cons, List.append_assoc, List.append_assoc] at h1 ⊢
      refine (h1.seq (Reads.repSome h2 h3)).mono ?_
      rintro _ ⟨p, q, rfl, ⟨p', rfl, hp⟩, ⟨p2, q2, rfl, ⟨p2', rfl, hp2⟩, hq2⟩⟩
      exact .cons hp (.cons hp2 hq2)

/-- `e ~ ("sep" ~ e)*`, printed with `psep`, which is `sep` between whitespace. -/
theorem Reads.sepBy {α : Type} {x : Expr R} {sep psep w : Str} {d : α → Str} {Q : α → Pair R → Prop} {F : Str → Prop} {as : List α} {rest : Str}
    (hne : as ≠ [])
    (hx : ∀ a ∈ as, ∀ r, F r → Reads g x (d a ++ r) r (fun ps => ∃ p, ps = [p] ∧ Q a p))
    (h1 : ∀ r, g.trim (psep ++ r) = sep ++ (w ++ r)) (h2 : ∀ a ∈ as, ∀ r, g.trim (w ++ (d a ++ r)) = d a ++ r)
    (hF : F rest) (hsep : ∀ r, F (psep ++ r)) (hend : Parses g false (.str sep) (g.trim rest) none) :
    Reads g (x ~> .rep (.str sep ~> x)) (joinWith psep (as.map d) ++ rest) rest (List.Forall₂ Q as) := by
  refine Reads.list hne hx ?_ hF hsep (.seqFail1 hend)
  intro a ha r hr
  rw [h1]
  refine (Reads.str.seq (by rw [h2 a ha r]; exact hx a ha r hr)).mono ?_
  rintro _ ⟨p, q, rfl, rfl, h⟩
  exact h

end Verif.Peg
