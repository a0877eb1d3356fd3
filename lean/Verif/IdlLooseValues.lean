/-
What the match of a value of the Smithy IDL tells about its text.
-/
import Verif.IdlLooseParses

namespace Verif
open Peg Spec Spec.Idl
open IdlGrammar (r keyed)

/-! ### Names -/

theorem got_ident {s t s' ps} (h : Got false (r .identifier) s t s' ps) : SmithyIdent t ∧ ps = [.mk .identifier t []] := by
  obtain ⟨rfl, k⟩ := h.inv_atomic rfl
  exact ⟨ident_idl k.toTree, rfl⟩

theorem got_namespace {s t s' ps} (h : Got false (r .nsName) s t s' ps) : SmithyNamespace t ∧ ps = [.mk .nsName t []] := by
  obtain ⟨rfl, k⟩ := h.inv_atomic rfl
  exact ⟨namespace_idl k.toTree, rfl⟩

/-- The text of an id: of a shape, or relative with a member. -/
def AnyId (t : Str) : Prop := (∃ n, NameText n t) ∨ ∃ n m, SmithyIdent n ∧ SmithyIdent m ∧ t = n ++ %s"$" ++ m

theorem got_shapeId {s t s' ps} (h : Got false (r .shapeId) s t s' ps) : AnyId t ∧ ps = [.mk .shapeId t []] := by
  have hs := h.toTree.sound
  obtain ⟨rfl, -⟩ := h.inv_atomic rfl
  refine ⟨?_, rfl⟩
  rcases IdlParser.sound_shapeId (hs (.mk .shapeId t []) (by simp)).1 rfl with ⟨n, hn, he | ⟨m, hm, he⟩⟩ | ⟨ns, n, hns, hn, he | ⟨m, hm, he⟩⟩
  · exact .inl ⟨_, by rw [show t = n from he]; exact .bare hn⟩
  · exact .inr ⟨n, m, hn, hm, by rw [show t = _ from he]; simp⟩
  · refine .inl ⟨.qualified ⟨ns, n, none⟩, ?_⟩
    have := NameText.absolute hns hn
    rw [show ns ++ %s"#" ++ n = t from by rw [show t = _ from he]; simp] at this
    exact this
  · refine .inl ⟨.qualified ⟨ns, n, some m⟩, ?_⟩
    have := NameText.member hns hn hm
    rw [show ns ++ %s"#" ++ n ++ %s"$" ++ m = t from by rw [show t = _ from he]; simp] at this
    exact this

/-! ### Texts -/

theorem plainChar_iff {c : Char} (h : plainChar c = true) : PlainChar c := by
  simp only [plainChar, charRange, Bool.or_eq_true, Bool.and_eq_true, decide_eq_true_eq] at h
  have h1 : c.toNat ≠ 0x22 := by omega
  have h2 : c.toNat ≠ 0x5C := by omega
  exact ⟨by omega, by omega, fun e => h1 (by rw [e]; rfl), fun e => h2 (by rw [e]; rfl)⟩

theorem hexDigit_plain {c : Char} (h : hexDigit c = true) : PlainChar c := by
  simp only [hexDigit, charRange, Bool.or_eq_true, Bool.and_eq_true, decide_eq_true_eq] at h
  have h1 : c.toNat ≠ 0x22 := by omega
  have h2 : c.toNat ≠ 0x5C := by omega
  exact ⟨by omega, by omega, fun e => h1 (by rw [e]; rfl), fun e => h2 (by rw [e]; rfl)⟩

/-- The text of an escape: a backslash, a character, and plain characters. -/
theorem got_escaped {s t s' ps} (h : Got true (r .escapedChar) s t s' ps) :
    ∃ c u, (PlainChar c ∨ c = '\\' ∨ c = '"') ∧ (∀ d ∈ u, PlainChar d) ∧ t = '\\' :: c :: u := by
  obtain ⟨t1, s1, p1, t2, p2, h1, h2, rfl, -⟩ := h.inv_inner.2.inv_seq
  obtain ⟨rfl, -⟩ := (show Got true (.str ['\\']) s t1 s1 _ from h1.inv_inner.2).inv_str
  have lit : ∀ {c : Char} {s t s' ps}, Got true (.str [c]) s t s' ps → (PlainChar c ∨ c = '\\' ∨ c = '"') →
      ∃ d u, (PlainChar d ∨ d = '\\' ∨ d = '"') ∧ (∀ x ∈ u, PlainChar x) ∧ ['\\'] ++ t = '\\' :: d :: u := by
    intro c s t s' ps h hc
    obtain ⟨rfl, -⟩ := h.inv_str
    exact ⟨c, [], hc, by simp, rfl⟩
  have plain : ∀ c : Char, c ∈ ['\'', 'b', 'f', 'n', 'r', 't', '/', 'u'] → PlainChar c := by
    intro c hc
    simp only [List.mem_cons, List.not_mem_nil, or_false] at hc
    rcases hc with rfl | rfl | rfl | rfl | rfl | rfl | rfl | rfl <;> (unfold PlainChar; decide)
  rcases h2.inv_choice with h | ⟨-, h⟩
  · exact lit (show Got true (.str ['\\']) _ _ _ _ from h.inv_inner.2) (.inr (.inl rfl))
  rcases h.inv_choice with h | ⟨-, h⟩
  · exact lit h (.inl (plain _ (by simp)))
  rcases h.inv_choice with h | ⟨-, h⟩
  · exact lit (show Got true (.str ['"']) _ _ _ _ from h.inv_inner.2) (.inr (.inr rfl))
  rcases h.inv_choice with h | ⟨-, h⟩
  · exact lit h (.inl (plain _ (by simp)))
  rcases h.inv_choice with h | ⟨-, h⟩
  · exact lit h (.inl (plain _ (by simp)))
  rcases h.inv_choice with h | ⟨-, h⟩
  · exact lit h (.inl (plain _ (by simp)))
  rcases h.inv_choice with h | ⟨-, h⟩
  · exact lit h (.inl (plain _ (by simp)))
  rcases h.inv_choice with h | ⟨-, h⟩
  · exact lit h (.inl (plain _ (by simp)))
  rcases h.inv_choice with h | ⟨-, h⟩
  · exact lit h (.inl (plain _ (by simp)))
  obtain ⟨u1, _, _, u2, _, h1, k1, rfl, -⟩ := h.inv_inner.2.inv_seq
  obtain ⟨u3, _, _, u4, _, h3, k2, rfl, -⟩ := k1.inv_seq
  obtain ⟨u5, _, _, u6, _, h5, k3, rfl, -⟩ := k2.inv_seq
  obtain ⟨u7, _, _, u8, _, h7, h8, rfl, -⟩ := k3.inv_seq
  obtain ⟨rfl, -⟩ := h1.inv_str
  obtain ⟨⟨a, rfl, ha⟩, -⟩ := h3.inv_chr
  obtain ⟨⟨b, rfl, hb⟩, -⟩ := h5.inv_chr
  obtain ⟨⟨c, rfl, hc⟩, -⟩ := h7.inv_chr
  obtain ⟨⟨d, rfl, hd⟩, -⟩ := h8.inv_chr
  refine ⟨'u', [a, b, c, d], .inl (plain _ (by simp)), ?_, rfl⟩
  intro x hx
  simp only [List.mem_cons, List.not_mem_nil, or_false] at hx
  rcases hx with rfl | rfl | rfl | rfl
  · exact hexDigit_plain ha
  · exact hexDigit_plain hb
  · exact hexDigit_plain hc
  · exact hexDigit_plain hd

/-- The text of a preserved double. -/
theorem got_preserved {s t s' ps} (h : Got true (r .preservedDouble) s t s' ps) : ∃ c, PlainChar c ∧ t = ['\\', c] := by
  obtain ⟨t1, s1, p1, t2, p2, h1, h2, rfl, -⟩ := h.inv_inner.2.inv_seq
  obtain ⟨rfl, -⟩ := (show Got true (.str ['\\']) s t1 s1 _ from h1.inv_inner.2).inv_str
  obtain ⟨⟨c, rfl, hc⟩, -⟩ := h2.inv_chr
  exact ⟨c, plainChar_iff hc, rfl⟩

theorem escaped_plains {u v : Str} (h : ∀ c ∈ u, PlainChar c) (hv : Escaped v) : Escaped (u ++ v) := by
  induction u with
  | nil => exact hv
  | cons c u ih => exact .plain (h c (by simp)) (ih fun d hd => h d (by simp [hd]))

theorem got_quotedChars {s t s' ps} (h : Got false (r .quotedChars) s t s' ps) : Escaped t ∧ ps = [.mk .quotedChars t []] := by
  obtain ⟨rfl, k⟩ := h.inv_atomic rfl
  refine ⟨?_, rfl⟩
  obtain ⟨⟨xs, hx, rfl, -⟩, -⟩ := Got.inv_rep k
  clear k h
  induction xs with
  | nil => exact .nil
  | cons x xs ih =>
    have hu := ih fun y hy => hx y (by simp [hy])
    rw [List.flatMap_cons]
    obtain ⟨_, _, hg⟩ := hx x (by simp)
    rcases hg.inv_choice with hg | ⟨-, hg⟩
    · obtain ⟨⟨c, hc, hp⟩, -⟩ := hg.inv_chr
      rw [hc]
      exact .plain (plainChar_iff hp) hu
    · rcases hg.inv_choice with hg | ⟨-, hg⟩
      · obtain ⟨c, u, hc, hp, he⟩ := got_escaped hg
        rw [he]
        exact .escape hc (escaped_plains hp hu)
      · obtain ⟨c, hc, he⟩ := got_preserved hg
        rw [he]
        exact .escape (.inl hc) hu

theorem got_dquote {s t s' ps} (h : Got false (r .DQUOTE) s t s' ps) : t = ['"'] ∧ ps = [] :=
  (show Got false (.str ['"']) s t s' ps from h.inv_silent rfl).inv_str

theorem got_quotedText {s t s' ps} (h : Got false (r .quotedText) s t s' ps) :
    ∃ u, Escaped u ∧ t = %s"\"" ++ u ++ %s"\"" ∧ ps = [.mk .quotedText t [.mk .quotedChars u []]] := by
  obtain ⟨ps', rfl, k⟩ := h.inv_normal rfl
  obtain ⟨t1, _, _, t2, _, h1, k2, rfl, rfl⟩ := k.inv_seq
  obtain ⟨u, _, _, t3, _, h2, h3, rfl, rfl⟩ := k2.inv_seq
  obtain ⟨rfl, rfl⟩ := got_dquote h1
  obtain ⟨hu, rfl⟩ := got_quotedChars h2
  obtain ⟨rfl, rfl⟩ := got_dquote h3
  exact ⟨u, hu, by simp, by simp⟩

/-- A key: an identifier or a text in quotes. -/
inductive KeyRead : Str → Pair IdlRule → Prop
  | ident {k} : SmithyIdent k → KeyRead k (.mk .identifier k [])
  | quoted {u} : Escaped u → KeyRead (%s"\"" ++ u ++ %s"\"") (.mk .quotedText (%s"\"" ++ u ++ %s"\"") [.mk .quotedChars u []])

theorem KeyRead.text {k : Str} {p : Pair IdlRule} (h : KeyRead k p) : KeyText k := by
  cases h with
  | ident h => exact .inl h
  | quoted h => exact .inr ⟨_, h, rfl⟩

theorem got_key {s t s' ps} (h : Got false (r .nodeObjectKey) s t s' ps) : ∃ p, ps = [p] ∧ KeyRead t p := by
  rcases (h.inv_silent rfl).inv_choice with h | ⟨-, h⟩
  · obtain ⟨u, hu, rfl, rfl⟩ := got_quotedText h
    exact ⟨_, rfl, .quoted hu⟩
  · obtain ⟨hi, rfl⟩ := got_ident h
    exact ⟨_, rfl, .ident hi⟩

/-! ### Text blocks -/

theorem block_plains {u v : Str} (h : ∀ c ∈ u, PlainChar c) (hv : BlockText v) : BlockText (u ++ v) := by
  induction u with
  | nil => exact hv
  | cons c u ih => exact .char (.inl (h c (by simp))) (ih fun d hd => h d (by simp [hd]))

/-- One part of a text block. -/
abbrev blockPart : Expr IdlRule := (.not (.str ['"', '"', '"']) ~> r .DQUOTE) <||> r .sp <||> r .NEWLINE <||> .chr plainChar <||>
  r .escapedChar <||> r .preservedDouble

theorem block_cons {s t1 s1 ps t2 x} (h : Got true blockPart s t1 s1 ps) (hs : s1 = t2 ++ '"' :: '"' :: '"' :: x) (h2 : BlockText t2) : BlockText (t1 ++ t2) := by
  have lit : ∀ {c : Char} {s t s' ps}, Got true (.str [c]) s t s' ps → c ∈ ['\t', '\n', '\r'] ∨ c = ' ' → BlockText (t ++ t2) := by
    intro c s t s' ps h hc
    obtain ⟨rfl, -⟩ := h.inv_str
    rcases hc with hc | rfl
    · exact .char (.inr hc) h2
    · exact .char (.inl (by unfold PlainChar; decide)) h2
  rcases h.inv_choice with h | ⟨-, h⟩
  · obtain ⟨u1, _, _, u2, _, h3, h5, rfl, -⟩ := h.inv_seq
    obtain ⟨rfl, -, rfl, hn⟩ := h3.inv_not
    have h4 : Got true (.str ['"']) _ u2 s1 [] := h5.inv_inner.2
    have he := h4.eq
    obtain ⟨rfl, -⟩ := h4.inv_str
    have hno : ∀ y, s1 ≠ '"' :: '"' :: y := by
      rintro y rfl
      cases hn with
      | strFail hn => rw [he] at hn; simp [stripPrefix] at hn
    cases h2 with
    | nil => exact absurd hs (hno _)
    | @char c u hc hu =>
      have hq : c ≠ '"' := by
        rintro rfl
        rcases hc with hc | hc
        · exact hc.2.2.1 rfl
        · simp at hc
      exact .quote hq (.char hc hu)
    | escape hc hu => exact .quote (by decide) (.escape hc hu)
    | quote hc hu => exact .quotes hc hu
    | quotes hc hu => exact absurd hs (hno _)
  rcases h.inv_choice with h | ⟨-, h⟩
  · rcases h.inv_inner.2.inv_choice with h | ⟨-, h⟩
    · exact lit h (.inr rfl)
    · exact lit h (.inl (by simp))
  rcases h.inv_choice with h | ⟨-, h⟩
  · have h := h.inv_inner.2
    rcases h.inv_choice with h | ⟨-, h⟩
    · exact lit h (.inl (by simp))
    rcases h.inv_choice with h | ⟨-, h⟩
    · obtain ⟨rfl, -⟩ := h.inv_str
      exact .char (.inr (by simp)) (.char (.inr (by simp)) h2)
    · exact lit h (.inl (by simp))
  rcases h.inv_choice with h | ⟨-, h⟩
  · obtain ⟨⟨c, rfl, hp⟩, -⟩ := h.inv_chr
    exact .char (.inl (plainChar_iff hp)) h2
  rcases h.inv_choice with h | ⟨-, h⟩
  · obtain ⟨c, u, hc, hp, rfl⟩ := got_escaped h
    exact .escape hc (block_plains hp h2)
  · obtain ⟨c, hc, rfl⟩ := got_preserved h
    exact .escape (.inl hc) h2

theorem block_more {s t s' ps x} (h : Got true (.more blockPart) s t s' ps) (hs : s' = '"' :: '"' :: '"' :: x) : BlockText t := by
  unfold Got at h
  generalize he : Expr.more blockPart = e at h
  generalize hr : (some (t, s', ps)) = y at h
  generalize hm : true = m at h
  induction h generalizing t s' ps with
  | moreNone h =>
    injection hr with hr
    injection hr with h1 hr
    subst h1
    exact .nil
  | @moreSome m b s t1 s1 p1 t2 s2 p2 h1 h2 _ ih =>
    injection he with he; subst he
    injection hr with hr
    injection hr with e1 hr
    injection hr with e2 e3
    subst e1 e2 e3 hm
    have := ih hs rfl rfl rfl
    rw [idl_skip] at h1 ⊢
    change BlockText (t1 ++ t2)
    exact block_cons (s1 := s1) (x := x) h1 (by rw [h2.split _ _ _ rfl, hs]) this
  | _ => cases he

theorem got_textBlock {s t s' ps} (h : Got false (r .textBlock) s t s' ps) :
    ∃ w u, Blank w ∧ BlockText u ∧ (∀ w' v, u = w' ++ v → Blank w' → w' = []) ∧ t = %s"\"\"\"" ++ w ++ u ++ %s"\"\"\"" ∧
      ((∃ q, ps = [.mk .textBlock t [q, .mk .blockQuotedChars u []]] ∧ q.asRule = .EOI) ∨ ps = [.mk .textBlock t [.mk .blockQuotedChars u []]]) := by
  obtain ⟨ps', rfl, k⟩ := h.inv_normal rfl
  have quotes : ∀ {s t s' ps}, Got false (r .DQUOTE ~> r .DQUOTE ~> r .DQUOTE) s t s' ps → t = %s"\"\"\"" ∧ ps = [] := by
    intro s t s' ps h
    obtain ⟨t1, _, _, t2, _, h1, k, rfl, rfl⟩ := h.inv_seq
    obtain ⟨t3, _, _, t4, _, h3, h4, rfl, rfl⟩ := k.inv_seq
    obtain ⟨rfl, rfl⟩ := got_dquote h1
    obtain ⟨rfl, rfl⟩ := got_dquote h3
    obtain ⟨rfl, rfl⟩ := got_dquote h4
    exact ⟨rfl, rfl⟩
  obtain ⟨t1, _, _, t2, _, h1, k1, rfl, rfl⟩ := k.inv_seq
  obtain ⟨rfl, rfl⟩ := quotes h1
  obtain ⟨t3, s3, _, t4, _, h3, k2, rfl, rfl⟩ := k1.inv_seq
  obtain ⟨u, s5, _, t6, _, h5, h6, rfl, rfl⟩ := k2.inv_seq
  obtain ⟨rfl, rfl⟩ := quotes h6
  obtain ⟨w, s7, _, t7, _, h7, h8, rfl, rfl⟩ := (h3.inv_silent rfl).inv_seq
  obtain ⟨hw, rfl, hmax⟩ := got_ws h7
  have e5 := h5.eq
  have e6 := h6.eq
  obtain ⟨rfl, h9⟩ := h5.inv_atomic rfl
  have hend : t7 = [] ∧ s3 = s7 := by
    rcases h8.inv_opt with h | ⟨h1, -, h2⟩
    · obtain ⟨h1, h2, -⟩ := h.inv_eoi
      subst h1 h2
      cases h
      exact ⟨rfl, rfl⟩
    · exact ⟨h1, h2⟩
  obtain ⟨rfl, rfl⟩ := hend
  have hb : BlockText u := by
    have h9 : Got true (.rep blockPart) _ u s5 [] := h9
    generalize [] = ps at h9
    cases h9 with
    | repNone _ => exact .nil
    | repSome ha hb => exact block_cons ha (by rw [hb.split _ _ _ rfl]; rw [e6]; rfl) (block_more hb e6)
  refine ⟨w, u, hw, hb, ?_, by simp, ?_⟩
  · intro w' v e hb'
    exact hmax w' (v ++ s5) (by rw [e5, e]; simp) hb'
  · rcases h8.inv_opt with h | ⟨-, rfl, -⟩
    · obtain ⟨-, -, rfl⟩ := h.inv_eoi
      exact .inl ⟨_, by simp; rfl, rfl⟩
    · exact .inr (by simp)

end Verif
