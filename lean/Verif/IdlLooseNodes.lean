/-
Values of the Smithy IDL: what is read is what the text says.
-/
import Verif.IdlLooseValues

namespace Verif
open Peg Spec Spec.Idl
open IdlGrammar (r keyed)

/-! ### Numbers -/

theorem got_digits {m : Bool} {s t s' ps} (h : Got m (.plus (.chr Char.isDigit)) s t s' ps) : Digits t ∧ ps = [] := by
  obtain ⟨t1, _, _, t2, _, h1, h2, rfl, rfl⟩ := Got.inv_seq (a := .chr Char.isDigit) (b := .rep (.chr Char.isDigit)) h
  obtain ⟨⟨c, rfl, hc⟩, rfl⟩ := h1.inv_chr
  obtain ⟨hd, rfl⟩ := got_chars h2
  refine ⟨⟨by simp, ?_⟩, rfl⟩
  intro d hm
  rcases List.mem_cons.mp hm with rfl | hm
  · exact hc
  · exact hd d hm

theorem got_int {s t s' ps} (h : Got false (r .int) s t s' ps) : IntText t := by
  obtain ⟨_, rfl, k⟩ := h.inv_normal rfl
  rcases k.inv_choice with k | ⟨-, k⟩
  · obtain ⟨_, rfl, k2⟩ := k.inv_normal rfl
    obtain ⟨rfl, -⟩ := (show Got false (.str ['0']) s t s' _ from k2).inv_str
    exact ⟨⟨by simp, by intro c hc; rcases List.mem_singleton.mp hc with rfl; decide⟩, fun _ => rfl⟩
  · obtain ⟨t1, _, _, t2, _, h1, h2, rfl, rfl⟩ := k.inv_seq
    obtain ⟨⟨c, rfl, hc⟩, rfl⟩ := h1.inv_chr
    obtain ⟨hd, rfl⟩ := got_chars h2
    have hc' : 49 ≤ c.toNat ∧ c.toNat ≤ 57 := by simpa [nonzeroDigit, charRange] using hc
    refine ⟨⟨by simp, ?_⟩, ?_⟩
    · intro d hm
      rcases List.mem_cons.mp hm with rfl | hm
      · rw [Char.isDigit_iff_toNat]; simp; omega
      · exact hd d hm
    · intro h0
      simp at h0
      subst h0
      exact absurd hc'.1 (by decide)

theorem got_number {s t s' ps} (h : Got false (r .number) s t s' ps) :
    (∃ sign int frac x, (sign = [] ∨ sign = ['-']) ∧ IntText int ∧ (frac = [] ∨ ∃ ds, Digits ds ∧ frac = '.' :: ds) ∧ (x = [] ∨ ExponentText x) ∧
      t = sign ++ int ++ frac ++ x) ∧ ∃ ps', ps = [.mk .number t ps'] := by
  obtain ⟨ps', rfl, k⟩ := h.inv_normal rfl
  refine ⟨?_, ps', rfl⟩
  obtain ⟨sign, _, _, _, _, h1, k1, rfl, -⟩ := k.inv_seq
  obtain ⟨int, _, _, _, _, h2, k2, rfl, -⟩ := k1.inv_seq
  obtain ⟨frac, _, _, x, _, h3, h4, rfl, -⟩ := k2.inv_seq
  refine ⟨sign, int, frac, x, ?_, got_int h2, ?_, ?_, by simp⟩
  · rcases h1.inv_opt with h | ⟨h, -, -⟩
    · obtain ⟨_, -, h⟩ := h.inv_normal rfl
      exact .inr (show Got false (.str ['-']) _ _ _ _ from h).inv_str.1
    · exact .inl h
  · rcases h3.inv_opt with h | ⟨h, -, -⟩
    · obtain ⟨_, -, h⟩ := h.inv_normal rfl
      obtain ⟨a, _, _, b, _, ha, hb, rfl, -⟩ := h.inv_seq
      obtain ⟨_, -, ha⟩ := ha.inv_normal rfl
      obtain ⟨rfl, -⟩ := (show Got false (.str ['.']) _ _ _ _ from ha).inv_str
      exact .inr ⟨b, (got_digits hb).1, rfl⟩
    · exact .inl h
  · rcases h4.inv_opt with h | ⟨h, -, -⟩
    · obtain ⟨_, -, h⟩ := h.inv_normal rfl
      obtain ⟨a, _, _, b, _, ha, hb, rfl, -⟩ := h.inv_seq
      obtain ⟨sg, _, _, ds, _, hs, hd, rfl, -⟩ := hb.inv_seq
      refine .inr ⟨a, sg, ds, ?_, ?_, (got_digits hd).1, by simp⟩
      · obtain ⟨_, -, ha⟩ := ha.inv_normal rfl
        rcases ha.inv_choice with ha | ⟨-, ha⟩
        · exact .inl ha.inv_str.1
        · exact .inr ha.inv_str.1
      · rcases hs.inv_opt with h | ⟨h, -, -⟩
        · rcases h.inv_choice with h | ⟨-, h⟩
          · obtain ⟨_, -, h⟩ := h.inv_normal rfl
            exact .inr (.inl (show Got false (.str ['-']) _ _ _ _ from h).inv_str.1)
          · obtain ⟨_, -, h⟩ := h.inv_normal rfl
            exact .inr (.inr (show Got false (.str ['+']) _ _ _ _ from h).inv_str.1)
        · exact .inl h
    · exact .inl h

theorem number_says {flt : Str → Option F64} {s t s' ps} (h : Got false (r .number) s t s' ps) :
    Yields (fun n => Loose.ValueText flt (.number n) t) (IdlParser.numberOf flt t) := by
  obtain ⟨⟨sign, int, frac, x, h1, h2, h3, h4, e⟩, -⟩ := got_number h
  intro n hn
  unfold IdlParser.numberOf at hn
  split at hn
  · next hdot =>
    split at hn
    · next y hy =>
      cases hn
      refine .float ?_ hy
      have hx : '.' ∉ x := by
        rcases h4 with rfl | ⟨a, b, c, ha, hb, hc, rfl⟩
        · simp
        · intro hm
          rcases List.mem_append.mp hm with hm | hm
          · rcases List.mem_append.mp hm with hm | hm
            · rcases ha with rfl | rfl <;> simp at hm
            · rcases hb with rfl | rfl | rfl <;> simp at hm
          · exact absurd (hc.2 _ hm) (by decide)
      rcases h3 with rfl | ⟨ds, hd, rfl⟩
      · exfalso
        have hm : '.' ∈ t := by simpa using hdot
        rw [e] at hm
        simp only [List.append_nil, List.mem_append] at hm
        rcases hm with (hm | hm) | hm
        · rcases h1 with rfl | rfl <;> simp at hm
        · exact absurd (h2.1.2 _ hm) (by decide)
        · exact hx hm
      · exact ⟨sign ++ int ++ '.' :: ds, x, ⟨sign, int, ds, h1, h2, hd, rfl⟩, h4, by rw [e]⟩
    · cases hn
  · split at hn
    · next k hk =>
      cases hn
      have ht : NumberText t := ⟨sign, int, frac, x, h1, h2, by
        rcases h3 with h | ⟨ds, hd, h⟩
        · exact .inl h
        · exact .inr ⟨ds, h, hd⟩, by
        rcases h4 with h | ⟨a, b, c, ha, hb, hc, h⟩
        · exact .inl h
        · rcases ha with rfl | rfl
          · exact .inr ⟨'e', b, c, h, .inl rfl, hb, hc⟩
          · exact .inr ⟨'E', b, c, h, .inr rfl, hb, hc⟩, e⟩
      obtain ⟨hi, h | ⟨h, h'⟩⟩ := parseI64_number ht hk
      · rw [← h]; exact .integer hi
      · rw [h, h']; exact .minusZero
    · cases hn

/-! ### Keywords -/

theorem got_keyword {s t s' ps} (h : Got false (r .nodeKeywords) s t s' ps) :
    ∃ v x, Keyword t v ∧ ps = [.mk x t []] ∧ ((x = .kwTrue ∧ v = .boolean true) ∨ (x = .kwFalse ∧ v = .boolean false) ∨ (x = .kwNull ∧ v = .none)) := by
  rcases (h.inv_silent rfl).inv_choice with h | ⟨-, h⟩
  · obtain ⟨ps', rfl, k⟩ := h.inv_normal rfl
    obtain ⟨rfl, rfl⟩ := (show Got false (.str %s"true") _ _ _ _ from k).inv_str
    exact ⟨_, .kwTrue, .true, rfl, .inl ⟨rfl, rfl⟩⟩
  rcases h.inv_choice with h | ⟨-, h⟩
  · obtain ⟨ps', rfl, k⟩ := h.inv_normal rfl
    obtain ⟨rfl, rfl⟩ := (show Got false (.str %s"false") _ _ _ _ from k).inv_str
    exact ⟨_, .kwFalse, .false, rfl, .inr (.inl ⟨rfl, rfl⟩)⟩
  · obtain ⟨ps', rfl, k⟩ := h.inv_normal rfl
    obtain ⟨rfl, rfl⟩ := (show Got false (.str %s"null") _ _ _ _ from k).inv_str
    exact ⟨_, .kwNull, .null, rfl, .inr (.inr ⟨rfl, rfl⟩)⟩

theorem not_keyword {s : Str} (h : Parses idlGrammar false (r .nodeKeywords) s none) : NotKeyword s := by
  have hl := literals_fail (n := 6) h (l := [%s"true", %s"false", %s"null"]) rfl
  intro k v hk
  cases hk with
  | true => exact hl _ (by simp)
  | false => exact hl _ (by simp)
  | null => exact hl _ (by simp)

/-! ### Values -/

theorem part_length {xs : List (Str × List (Pair IdlRule))} {x : Str × List (Pair IdlRule)} (h : x ∈ xs) : x.1.length ≤ (xs.flatMap (·.1)).length := by
  induction xs with
  | nil => cases h
  | cons y ys ih =>
    rw [List.flatMap_cons, List.length_append]
    rcases List.mem_cons.mp h with rfl | h
    · omega
    · have := ih h; omega

/-- The pair of a value: what is read is what the text says. -/
def NodePair (flt : Str → Option F64) (t : Str) (p : Pair IdlRule) : Prop :=
  p.asRule = .nodeValue ∧ Yields (fun v => Loose.ValueText flt v t) (IdlParser.nodeValueOf flt p)

/-- The text of a key, a sign and a value, with its pairs. -/
structure KeyedText (flt : Str → Option F64) (sign t : Str) (ps : List (Pair IdlRule)) (k b b' x : Str) (kp vp : Pair IdlRule) : Prop where
  key : KeyRead k kp
  before : Blank b
  behind : Blank b'
  value : NodePair flt x vp
  text : t = k ++ b ++ sign ++ b' ++ x
  pairs : ps = [kp, vp]

theorem key_pos {k : Str} {p : Pair IdlRule} (h : KeyRead k p) : k ≠ [] := by
  cases h with
  | ident h => cases h <;> simp
  | quoted h => simp

theorem keyed_got {flt : Str → Option F64} {n : Nat}
    (ih : ∀ s t s' ps, t.length < n → Got false (r .nodeValue) s t s' ps → ∃ p, ps = [p] ∧ NodePair flt t p)
    {sign s t s' ps} (h : Got false (keyed sign) s t s' ps) (hn : t.length ≤ n) : ∃ k b b' x kp vp, KeyedText flt sign t ps k b b' x kp vp := by
  obtain ⟨k, _, _, _, _, h1, k1, rfl, rfl⟩ := h.inv_seq
  obtain ⟨b, _, _, _, _, h2, k2, rfl, rfl⟩ := k1.inv_seq
  obtain ⟨sg, _, _, _, _, h3, k3, rfl, rfl⟩ := k2.inv_seq
  obtain ⟨b', _, _, x, _, h4, h5, rfl, rfl⟩ := k3.inv_seq
  obtain ⟨kp, rfl, hk⟩ := got_key h1
  obtain ⟨hb, rfl, -⟩ := got_ws h2
  obtain ⟨rfl, rfl⟩ := h3.inv_str
  obtain ⟨hb', rfl, -⟩ := got_ws h4
  have hp := List.length_pos_iff.mpr (key_pos hk)
  simp only [List.length_append] at hn
  obtain ⟨vp, rfl, hv⟩ := ih _ x _ _ (by omega) h5
  exact ⟨k, b, b', x, kp, vp, hk, hb, hb', hv, by simp, rfl⟩

theorem kvp_says {flt : Str → Option F64} {sign t : Str} {ps k b b' x kp vp} (h : KeyedText flt sign t ps k b b' x kp vp) :
    Yields (fun e => e.1 = k ∧ Loose.ValueText flt e.2 x) (IdlParser.kvpLoop flt none none ps) := by
  obtain ⟨hk, -, -, ⟨h1, h2⟩, -, rfl⟩ := h
  rintro ⟨k', v⟩ hv
  have key : ∀ {q : Pair IdlRule}, q.asRule = .identifier ∨ q.asRule = .quotedText → q.asStr = k → kp = q → k' = k ∧ Loose.ValueText flt v x := by
    rintro q hq he rfl
    have hstep : IdlParser.kvpLoop flt none none [kp, vp] = IdlParser.kvpLoop flt (some k) none [vp] := by
      rw [IdlParser.kvpLoop]
      rcases hq with hq | hq <;> rw [hq, he]
    rw [hstep, IdlParser.kvpLoop, h1] at hv
    simp only at hv
    split at hv
    · cases hv
    · next v' e =>
      rw [IdlParser.kvpLoop] at hv
      cases hv
      exact ⟨rfl, h2 _ e⟩
  cases hk with
  | ident _ => exact key (.inl rfl) rfl rfl
  | quoted _ => exact key (.inr rfl) rfl rfl

/-- The parts of an array. -/
def ItemPart (flt : Str → Option F64) (x : Str × List (Pair IdlRule)) : Prop := ∃ t w p, x.1 = t ++ w ∧ x.2 = [p] ∧ Blank w ∧ NodePair flt t p

theorem array_says {flt : Str → Option F64} {xs : List (Str × List (Pair IdlRule))} (h : ∀ x ∈ xs, ItemPart flt x) :
    Yields (fun vs => ∃ is : List Item, vs = is.map (·.value) ∧ xs.flatMap (·.1) = itemsText is ∧ (∀ i ∈ is, Loose.ValueText flt i.value i.text) ∧ ∀ i ∈ is, Blank i.after)
      (IdlParser.arrayOf flt (xs.flatMap (·.2))) := by
  induction xs with
  | nil =>
    intro vs hv
    change Except.ok [] = _ at hv
    cases hv
    exact ⟨[], rfl, rfl, by simp, by simp⟩
  | cons x xs ih =>
    obtain ⟨t, w, p, e1, e2, hw, h1, h2⟩ := h x (by simp)
    intro vs hv
    simp only [List.flatMap_cons, e2, List.singleton_append] at hv
    rw [IdlParser.arrayOf, if_pos h1] at hv
    split at hv
    · cases hv
    · next v hv1 =>
      split at hv
      · cases hv
      · next vs' hv2 =>
        cases hv
        obtain ⟨is, rfl, i1, i2, i3⟩ := ih (fun y hy => h y (by simp [hy])) _ hv2
        refine ⟨⟨v, t, w⟩ :: is, rfl, ?_, ?_, ?_⟩
        · rw [List.flatMap_cons, e1, i1]; simp [itemsText]
        · intro i hi
          rcases List.mem_cons.mp hi with rfl | hi
          · exact h2 _ hv1
          · exact i2 i hi
        · intro i hi
          rcases List.mem_cons.mp hi with rfl | hi
          · exact hw
          · exact i3 i hi

/-- The parts of an object. -/
def EntryPart (flt : Str → Option F64) (x : Str × List (Pair IdlRule)) : Prop :=
  ∃ t w p k b b' y kp vp, x.1 = t ++ w ∧ x.2 = [p] ∧ Blank w ∧ p.asRule = .nodeObjectKvp ∧ KeyedText flt %s":" t p.intoInner k b b' y kp vp

theorem object_says {flt : Str → Option F64} {xs : List (Str × List (Pair IdlRule))} (h : ∀ x ∈ xs, EntryPart flt x) : ∀ o,
    Yields (fun o' => ∃ es : List Entry, o' = (es.map fun e => (e.key, e.value)).foldl (fun m e => AMap.insert m e.1 e.2) o ∧ xs.flatMap (·.1) = entriesText es ∧
      (∀ e ∈ es, Entry.Ok e) ∧ (∀ e ∈ es, Loose.ValueText flt e.value e.text) ∧ ∀ e ∈ es, Blank e.after)
      (IdlParser.objectOf flt o (xs.flatMap (·.2))) := by
  induction xs with
  | nil =>
    intro o o' hv
    change Except.ok o = _ at hv
    cases hv
    exact ⟨[], rfl, rfl, by simp, by simp, by simp⟩
  | cons x xs ih =>
    obtain ⟨t, w, p, k, b, b', y, kp, vp, e1, e2, hw, h1, h2⟩ := h x (by simp)
    intro o o' hv
    simp only [List.flatMap_cons, e2, List.singleton_append] at hv
    rw [IdlParser.objectOf, if_pos h1] at hv
    split at hv
    · cases hv
    · next k' v hv1 =>
      obtain ⟨es, i0, i1, i2, i3, i4⟩ := ih (fun y hy => h y (by simp [hy])) _ _ hv
      have hk : k' = k ∧ Loose.ValueText flt v y := by
        cases p with
        | mk pr pt pps =>
          rw [IdlParser.kvpOf] at hv1
          exact kvp_says h2 _ hv1
      obtain ⟨rfl, hval⟩ := hk
      refine ⟨⟨k', b, b', v, y, w⟩ :: es, ?_, ?_, ?_, ?_, ?_⟩
      · rw [i0]; rfl
      · rw [List.flatMap_cons, e1, i1, h2.text]; simp [entriesText, Entry.show]
      · intro e he
        rcases List.mem_cons.mp he with rfl | he
        · exact ⟨h2.key.text, h2.before, h2.behind⟩
        · exact i2 e he
      · intro e he
        rcases List.mem_cons.mp he with rfl | he
        · exact hval
        · exact i3 e he
      · intro e he
        rcases List.mem_cons.mp he with rfl | he
        · exact hw
        · exact i4 e he

/-- The match of an object: its text and its pairs. -/
theorem got_object {flt : Str → Option F64} {n : Nat}
    (ih : ∀ s t s' ps, t.length < n → Got false (r .nodeValue) s t s' ps → ∃ p, ps = [p] ∧ NodePair flt t p)
    {s t s' ps} (h : Got false (r .nodeObject) s t s' ps) (hn : t.length ≤ n) :
    ∃ ps', ps = [.mk .nodeObject t ps'] ∧ Yields (fun o => Loose.ValueText flt (.object o) t) (IdlParser.objectOf flt [] ps') := by
  obtain ⟨ps', rfl, k⟩ := h.inv_normal rfl
  refine ⟨ps', rfl, ?_⟩
  obtain ⟨t1, _, _, _, _, h1, k1, rfl, rfl⟩ := k.inv_seq
  obtain ⟨w, _, _, _, _, h2, k2, rfl, rfl⟩ := k1.inv_seq
  obtain ⟨t3, _, _, t4, _, h3, h4, rfl, rfl⟩ := k2.inv_seq
  obtain ⟨rfl, rfl⟩ := h1.inv_str
  obtain ⟨hw, rfl, -⟩ := got_ws h2
  obtain ⟨rfl, rfl⟩ := h4.inv_str
  obtain ⟨⟨xs, hx, rfl, rfl⟩, -⟩ := h3.inv_rep
  have hparts : ∀ x ∈ xs, EntryPart flt x := by
    intro x hm
    obtain ⟨_, _, hg⟩ := hx x hm
    obtain ⟨y, _, _, w', _, g1, g2, e1, e2⟩ := hg.inv_seq
    obtain ⟨hw', rfl, -⟩ := got_ws g2
    obtain ⟨ps', rfl, g3⟩ := g1.inv_normal rfl
    have hlen := part_length hm
    obtain ⟨k, b, b', z, kp, vp, hk⟩ := keyed_got ih g3 (by
      rw [e1] at hlen
      simp only [List.length_append] at hlen hn
      omega)
    exact ⟨y, w', .mk .nodeObjectKvp y ps', k, b, b', z, kp, vp, e1, by rw [e2]; rfl, hw', rfl, hk⟩
  intro o ho
  simp only [List.nil_append, List.append_nil] at ho
  obtain ⟨es, rfl, i1, i2, i3, i4⟩ := object_says hparts [] o ho
  have := Loose.ValueText.object (flt := flt) hw i2 i3 i4
  rw [i1]
  have e : %s"{" ++ (w ++ (entriesText es ++ %s"}")) = %s"{" ++ w ++ entriesText es ++ %s"}" := by simp
  rw [e]
  exact this

theorem node_got (flt : Str → Option F64) : ∀ n s t s' ps, t.length < n → Got false (r .nodeValue) s t s' ps → ∃ p, ps = [p] ∧ NodePair flt t p := by
  intro n
  induction n with
  | zero => intro s t s' ps h; omega
  | succ n ih =>
    intro s t s' ps hn h
    have hs := h.eq
    obtain ⟨ps', rfl, k⟩ := h.inv_normal rfl
    refine ⟨_, rfl, rfl, ?_⟩
    have one : ∀ {x : IdlRule} {qs : List (Pair IdlRule)}, ps' = [.mk x t qs] → Yields (fun v => Loose.ValueText flt v t) (IdlParser.innerValue flt (.mk x t qs)) →
        Yields (fun v => Loose.ValueText flt v t) (IdlParser.nodeValueOf flt (.mk .nodeValue t ps')) := by
      rintro x qs rfl hy v hv
      rw [IdlParser.nodeValueOf, IdlParser.firstValue] at hv
      exact hy v hv
    rcases k.inv_choice with k | ⟨-, k⟩
    · obtain ⟨qs, rfl, k0⟩ := k.inv_normal rfl
      refine one rfl ?_
      obtain ⟨t1, _, _, _, _, h1, k1, rfl, rfl⟩ := k0.inv_seq
      obtain ⟨w, _, _, _, _, h2, k2, rfl, rfl⟩ := k1.inv_seq
      obtain ⟨t3, _, _, t4, _, h3, h4, rfl, rfl⟩ := k2.inv_seq
      obtain ⟨rfl, rfl⟩ := h1.inv_str
      obtain ⟨hw, rfl, -⟩ := got_ws h2
      obtain ⟨rfl, rfl⟩ := h4.inv_str
      obtain ⟨⟨xs, hx, rfl, rfl⟩, -⟩ := h3.inv_rep
      have hparts : ∀ x ∈ xs, ItemPart flt x := by
        intro x hm
        obtain ⟨_, _, hg⟩ := hx x hm
        obtain ⟨y, _, _, w', _, g1, g2, e1, e2⟩ := hg.inv_seq
        obtain ⟨hw', rfl, -⟩ := got_ws g2
        have hlen := part_length hm
        obtain ⟨p, rfl, hp⟩ := ih _ y _ _ (by
          rw [e1] at hlen
          simp only [List.length_append, List.length_cons, List.length_nil] at hlen hn
          omega) g1
        exact ⟨y, w', p, e1, by rw [e2]; rfl, hw', hp⟩
      intro v hv
      simp only [List.nil_append, List.append_nil] at hv
      rw [IdlParser.innerValue] at hv
      obtain ⟨vs, hvs, rfl⟩ : ∃ vs, IdlParser.arrayOf flt (xs.flatMap (·.2)) = .ok vs ∧ v = .array vs := by
        cases ha : IdlParser.arrayOf flt (xs.flatMap (·.2)) with
        | error e => rw [ha] at hv; cases hv
        | ok vs => rw [ha] at hv; cases hv; exact ⟨vs, rfl, rfl⟩
      obtain ⟨is, rfl, i1, i2, i3⟩ := array_says hparts _ hvs
      have := Loose.ValueText.array (flt := flt) hw i2 i3
      rw [i1]
      have e : %s"[" ++ (w ++ (itemsText is ++ %s"]")) = %s"[" ++ w ++ itemsText is ++ %s"]" := by simp
      rw [e]
      exact this
    rcases k.inv_choice with k | ⟨-, k⟩
    · obtain ⟨qs, rfl, hy⟩ := got_object ih k (by omega)
      refine one rfl ?_
      intro v hv
      rw [IdlParser.innerValue] at hv
      cases ha : IdlParser.objectOf flt [] qs with
      | error e => rw [ha] at hv; cases hv
      | ok o => rw [ha] at hv; cases hv; exact hy o ha
    rcases k.inv_choice with k | ⟨-, k⟩
    · obtain ⟨-, qs, rfl⟩ := got_number k
      refine one rfl ?_
      intro v hv
      rw [IdlParser.innerValue] at hv
      cases ha : IdlParser.numberOf flt t with
      | error e => rw [ha] at hv; cases hv
      | ok o => rw [ha] at hv; cases hv; exact number_says k o ha
    rcases k.inv_choice with k | ⟨hkw, k⟩
    · obtain ⟨v, x, hk, rfl, hx⟩ := got_keyword k
      refine one rfl ?_
      rcases hx with ⟨rfl, rfl⟩ | ⟨rfl, rfl⟩ | ⟨rfl, rfl⟩ <;> (intro v hv; rw [IdlParser.innerValue] at hv; cases hv; exact .keyword hk)
    have hnk : ∀ u v, t = u ++ v → NotKeyword u := fun u v e kw x hk hp => not_keyword hkw kw x hk (by
      rw [hs, e]; exact hp.trans ⟨v ++ s', by simp⟩)
    rcases k.inv_choice with k | ⟨-, k⟩
    · obtain ⟨hid, rfl⟩ := got_shapeId k
      refine one rfl ?_
      intro v hv
      rw [IdlParser.innerValue] at hv
      cases hv
      rcases hid with ⟨x, hx⟩ | ⟨x, m, h1, h2, rfl⟩
      · exact .name hx (hnk t [] (by simp))
      · exact .member h1 h2 (hnk x (%s"$" ++ m) (by simp))
    rcases k.inv_choice with k | ⟨-, k⟩
    · obtain ⟨w, u, h1, h2, h3, e, hp⟩ := got_textBlock k
      rcases hp with ⟨q, rfl, hq⟩ | rfl
      · refine one rfl ?_
        intro v hv
        rw [IdlParser.innerValue] at hv
        change (if q.asRule = _ then _ else _) = _ at hv
        rw [if_neg (by rw [hq]; decide)] at hv
        cases hv
      · refine one rfl ?_
        intro v hv
        rw [IdlParser.innerValue] at hv
        cases hv
        rw [e]
        exact .block h1 h2 h3
    · obtain ⟨u, h1, e, rfl⟩ := got_quotedText k
      refine one rfl ?_
      intro v hv
      rw [IdlParser.innerValue] at hv
      cases hv
      rw [e]
      exact .quoted h1

theorem node_says {flt : Str → Option F64} {s t s' ps} (h : Got false (r .nodeValue) s t s' ps) : ∃ p, ps = [p] ∧ NodePair flt t p :=
  node_got flt _ s t s' ps (Nat.lt_succ_self _) h

theorem keyed_says {flt : Str → Option F64} {sign s t s' ps} (h : Got false (keyed sign) s t s' ps) : ∃ k b b' x kp vp, KeyedText flt sign t ps k b b' x kp vp :=
  keyed_got (n := t.length) (fun _ _ _ _ _ h => node_says h) h (Nat.le_refl _)

end Verif
