/-
C88, C90: the exit status with an output file or unreadable text, and reports with colours.
-/
import Verif.CommandsMore

namespace Verif.Spec.Cli
open Verif.Cli

/-- A style puts fixed codes around a text; these have no spaces, line breaks or brackets `]`. -/
def Style (f : Str → Str) : Prop := ∃ pre post, (∀ c ∈ pre ++ post, c ≠ ' ' ∧ c ≠ '\n' ∧ c ≠ ']') ∧ ∀ s, f s = pre ++ s ++ post

/-- Something that can be opened is at the path. -/
def CanOpen {C F : Type} (o : Outside C F) (w : World C) (p : Path) : Prop :=
  (∃ c, w.fs p = .file (some c)) ∨ (∃ es, w.fs p = .dir (some es)) ∨ (w.fs p = .other ∧ o.opensOther p = true)

/-- All styles are of this kind. -/
structure Styles (p : Paint) : Prop where
  normal : Style p.normal
  yellow : Style p.yellow
  brightRed : Style p.brightRed
  bold : Style p.bold
  underline : Style p.underline
  dimmed : Style p.dimmed

end Verif.Spec.Cli

namespace Verif.Cli
open Spec Spec.Cli
variable {C F : Type}

/-! ### C88 -/

theorem opens_iff (o : Outside C F) (w : World C) (p : Path) : opens o w p = true ↔ CanOpen o w p := by
  unfold opens CanOpen
  cases w.fs p with
  | file c => cases c <;> simp
  | dir es => cases es <;> simp
  | other => simp

/-- C88: how a conversion into a file ends, when the model could be assembled and written: by a panic if the file cannot be opened, and for Smithy and UML;
for JSON with the exit status of a success. -/
theorem run_output_status (o : Outside C F) (hs : Sensible o) (w : World C) (files : List Path) (sp : Option (List Path)) (p : Path) (m : Model)
    (ha : assembleModel o w.fs files sp = .ok m) (hw : WfModel m) :
    (¬ CanOpen o w p → (∀ format ns, (runCommand o w (.convert files (some p) format ns sp)).2.status = 101) ∧
      ∀ format, (runCommand o w (.document files (some p) format sp)).2.status = 101) ∧
    (CanOpen o w p → (∀ ns, (runCommand o w (.convert files (some p) .smithy ns sp)).2.status = 101) ∧
      (∀ ns text, PlantUml.write false o.fmt m = .ok text → (runCommand o w (.convert files (some p) .uml ns sp)).2.status = 101) ∧
      (∀ ns j, JsonWriter.modelToJson m = .ok j → (runCommand o w (.convert files (some p) .json ns sp)).2.status = 0) ∧
      ∀ format d, Describe.describeModel o.fmt m = .ok d →
        (runCommand o w (.document files (some p) format sp)).2.status = if o.documentErrorsChained then 0 else 101) := by
  constructor
  · intro ho
    have ho : opens o w p = false := by rw [← opens_iff] at ho; simpa using ho
    constructor
    · intro format ns
      simp only [runCommand, ha, writeModel, openTarget, fileOpen, ho]
      rfl
    · intro format
      simp only [runCommand, ha, documentAFile, openTarget, fileOpen, ho]
      cases hd : Describe.describeModel o.fmt m with
      | ok d => rfl
      | error e =>
        have hp : e = .panic := by
          classical
          obtain ⟨h1, h2⟩ := Describe.C80_panics_iff o.fmt m hw
          by_cases hu : Doc.Undocumentable m
          · rw [h1.mpr hu] at hd; cases hd; rfl
          · obtain ⟨d, hd'⟩ := h2 hu
            rw [hd'] at hd; cases hd
        rw [hp]; rfl
  · intro ho
    have ho : opens o w p = true := (opens_iff o w p).mpr ho
    refine ⟨fun ns => ?_, fun ns text ht => ?_, fun ns j hj => ?_, fun format d hd => ?_⟩
    · have hw : ∀ ns, writeSmithy o w (.file p false) m ns = (w, .error (.io false)) := fun ns => writeAll_readOnly o w p (writeIdl_ne o.fmt ns m)
      simp only [runCommand, ha, writeModel, openTarget, fileOpen, ho, if_true]
      cases ns with
      | some ns =>
        simp only
        cases NamespaceID.fromStr ns with
        | error e => rfl
        | ok ns => simp only [hw]; rfl
      | none =>
        simp only
        split
        · rw [hw]; rfl
        · rfl
    · simp only [runCommand, ha, writeModel, openTarget, fileOpen, ho, if_true, writeUml, ht, writeAll_readOnly o w p fun he => plantUml_ne o.fmt m (he ▸ ht)]
      rfl
    · simp only [runCommand, ha, writeModel, openTarget, fileOpen, ho, if_true, writeJson, hj, writeAll_readOnly o w p (hs.json j)]
      rfl
    · simp only [runCommand, ha, documentAFile, hd, openTarget, fileOpen, ho, if_true, writeAll_readOnly o w p (hs.document format d), finish, Failure.chained]
      cases o.documentErrorsChained <;> rfl

/-- C88: a Smithy file that is not UTF-8: linting and validating have status 1, converting and documenting panic. -/
theorem run_not_utf8 (o : Outside C F) (hs : Sensible o) (w : World C) (p : Path) (content : C) (hp : w.fs p = .file (some content))
    (ext : Str) (he : HasType p ext) (hx : lower ext = %s"smithy") (hj : o.utf8 content = none) :
    (∀ color, (runCommand o w (.lint [p] none color)).2.status = 1 ∧ (runCommand o w (.validate [p] none color)).2.status = 1) ∧
    (∀ out format ns, (runCommand o w (.convert [p] out format ns none)).2.status = 101) ∧
    ∀ out format, (runCommand o w (.document [p] out format none)).2.status = 101 := by
  have ha : assembleModel o w.fs [p] none = .error (.deserialization %s"Smithy" %s"io" none) := by
    rw [assemble_single o hs w.fs p content hp _ he (smithyReader o) (.inr ⟨hx, rfl⟩)]
    simp only [smithyReader, hj]
  refine ⟨fun color => ⟨?_, ?_⟩, fun out format ns => ?_, fun out format => ?_⟩ <;> simp only [runCommand, ha] <;> rfl

/-! ### C90 -/

theorem style_inj {f : Str → Str} (h : Style f) {a b : Str} (hab : f a = f b) : a = b := by
  obtain ⟨pre, post, -, hf⟩ := h
  rw [hf, hf] at hab
  exact List.append_cancel_left (List.append_cancel_right hab)

def levelText (p : Paint) : IssueLevel → Str
  | .info => p.normal %s"[info]"
  | .warning => p.yellow %s"[warning]"
  | .error => p.brightRed %s"[error]"

def locusPart (p : Paint) : Option ShapeID → Str
  | some id => %s" on/for element `" ++ p.underline id.display ++ %s"`"
  | none => []

theorem reportColor_eq (p : Paint) (i : Issue) (x : Str) : reportIssue p i ++ x =
    (levelText p i.level ++ %s" " ++ p.bold i.message) ++ '\n' ::
      (p.dimmed (%s"\tReported by " ++ i.reporter ++ locusPart p i.locus ++ %s".") ++ '\n' :: '\n' :: x) := by
  obtain ⟨r, l, m, o⟩ := i
  cases o <;> cases l <;> simp [reportIssue, line, levelText, locusPart]

theorem style_not_mem {f : Str → Str} (h : Style f) {c : Char} (hc : c = ' ' ∨ c = '\n' ∨ c = ']') {s : Str} (hs : c ∉ s) : c ∉ f s := by
  obtain ⟨pre, post, hp, hf⟩ := h
  rw [hf]
  intro hm
  rcases List.mem_append.mp hm with hm | hm
  · rcases List.mem_append.mp hm with hm | hm
    · obtain ⟨h1, h2, h3⟩ := hp c (by simp [hm])
      rcases hc with h | h | h <;> contradiction
    · exact hs hm
  · obtain ⟨h1, h2, h3⟩ := hp c (by simp [hm])
    rcases hc with h | h | h <;> contradiction

theorem levelText_shape {p : Paint} (hp : Styles p) (l : IssueLevel) : ∃ a b : Str, levelText p l = a ++ ']' :: b ∧ ']' ∉ a ∧ '\n' ∉ levelText p l ∧
    a.getLast? = some (match l with | .info => 'o' | .warning => 'g' | .error => 'r') := by
  have key : ∀ (f : Str → Str) (hf : Style f) (body : Str) (c : Char), ']' ∉ body ++ [c] → '\n' ∉ body ++ [c] → ∃ a b : Str, f (body ++ [c] ++ %s"]") = a ++ ']' :: b ∧ ']' ∉ a ∧
      '\n' ∉ f (body ++ [c] ++ %s"]") ∧ a.getLast? = some c := by
    intro f hf body c h1 h2
    have hn := style_not_mem hf (c := '\n') (.inr (.inl rfl)) (s := body ++ [c] ++ %s"]") (by simp at h2 ⊢; exact h2)
    obtain ⟨pre, post, hpp, hff⟩ := hf
    refine ⟨pre ++ (body ++ [c]), post, by rw [hff]; simp, ?_, hn, by simp [← List.append_assoc]⟩
    intro hm
    rcases List.mem_append.mp hm with hm | hm
    · exact (hpp _ (by simp [hm])).2.2 rfl
    · exact h1 hm
  cases l with
  | info => exact key p.normal hp.normal %s"[inf" 'o' (by decide) (by decide)
  | warning => exact key p.yellow hp.yellow %s"[warnin" 'g' (by decide) (by decide)
  | error => exact key p.brightRed hp.brightRed %s"[erro" 'r' (by decide) (by decide)

theorem reportColor_injective {p : Paint} (hp : Styles p) {i j : Issue} (hi : OneLine i) (hj : OneLine j) {x y : Str}
    (h : reportIssue p i ++ x = reportIssue p j ++ y) : i = j ∧ x = y := by
  obtain ⟨r1, l1, m1, o1⟩ := i
  obtain ⟨r2, l2, m2, o2⟩ := j
  obtain ⟨hm1, hr1, hn1, ho1⟩ := hi
  obtain ⟨hm2, hr2, hn2, ho2⟩ := hj
  rw [reportColor_eq, reportColor_eq] at h
  simp only at *
  have hfirst : ∀ l (m : Str), '\n' ∉ m → '\n' ∉ levelText p l ++ %s" " ++ p.bold m := by
    intro l m hm hc
    obtain ⟨-, -, -, -, hl, -⟩ := levelText_shape hp l
    rcases List.mem_append.mp hc with hc | hc
    · rcases List.mem_append.mp hc with hc | hc
      · exact hl hc
      · exact absurd hc (by decide)
    · exact style_not_mem hp.bold (.inr (.inl rfl)) hm hc
  obtain ⟨h1, ha⟩ := cut (hfirst l1 m1 hm1) (hfirst l2 m2 hm2) h
  have hl : l1 = l2 := by
    obtain ⟨a1, b1, e1, n1, -, g1⟩ := levelText_shape hp l1
    obtain ⟨a2, b2, e2, n2, -, g2⟩ := levelText_shape hp l2
    rw [e1, e2] at h1
    simp only [List.append_assoc, List.cons_append] at h1
    have := (cut n1 n2 h1).1
    rw [this, g2] at g1
    cases l1 <;> cases l2 <;> first | rfl | (exact absurd g1 (by decide))
  subst hl
  have h2 : m1 = m2 := style_inj hp.bold (List.append_cancel_left h1)
  subst h2
  have hloc : ∀ o : Option ShapeID, (∀ id, o = some id → id.Valid) → '\n' ∉ locusPart p o := by
    intro o ho hc
    cases o with
    | none => cases hc
    | some id =>
      simp only [locusPart] at hc
      rcases List.mem_append.mp hc with hc | hc
      · rcases List.mem_append.mp hc with hc | hc
        · exact absurd hc (by decide)
        · exact style_not_mem hp.underline (.inr (.inl rfl)) (display_newline (ho id rfl)).1 hc
      · exact absurd hc (by decide)
  have hsecond : ∀ (r : Str) o, '\n' ∉ r → (∀ id, o = some id → id.Valid) → '\n' ∉ p.dimmed (%s"\tReported by " ++ r ++ locusPart p o ++ %s".") := by
    intro r o hr ho
    refine style_not_mem hp.dimmed (.inr (.inl rfl)) fun hc => ?_
    rcases List.mem_append.mp hc with hc | hc
    · rcases List.mem_append.mp hc with hc | hc
      · rcases List.mem_append.mp hc with hc | hc
        · exact absurd hc (by decide)
        · exact hr hc
      · exact hloc o ho hc
    · exact absurd hc (by decide)
  obtain ⟨h3, hb⟩ := cut (hsecond r1 o1 hn1 ho1) (hsecond r2 o2 hn2 ho2) ha
  have h6 := (List.cons.inj hb).2
  have h3 := List.append_cancel_right (style_inj hp.dimmed h3)
  rw [List.append_assoc, List.append_assoc] at h3
  have h3 := List.append_cancel_left h3
  have hro : r1 = r2 ∧ o1 = o2 := by
    cases o1 with
    | none =>
      cases o2 with
      | none => simp only [locusPart, List.append_nil] at h3; exact ⟨h3, rfl⟩
      | some b =>
        simp only [locusPart, List.append_nil] at h3
        exact absurd (by rw [h3]; simp) hr1
    | some a =>
      cases o2 with
      | none =>
        simp only [locusPart, List.append_nil] at h3
        exact absurd (by rw [← h3]; simp) hr2
      | some b =>
        have e : ∀ (r : Str) id, r ++ locusPart p (some id) = r ++ ' ' :: (%s"on/for element `" ++ (p.underline id.display ++ %s"`")) := by
          intro r id; simp [locusPart]
        rw [e, e] at h3
        obtain ⟨h4, h5⟩ := cut hr1 hr2 h3
        have h5 := style_inj hp.underline (List.append_cancel_right (List.append_cancel_left h5))
        exact ⟨h4, by rw [C03_display_injective a b (ho1 a rfl) (ho2 b rfl) h5]⟩
  obtain ⟨rfl, rfl⟩ := hro
  exact ⟨rfl, h6⟩

theorem flatMap_injective {α : Type} {f : α → Str} {P : α → Prop} (hf : ∀ a b, P a → P b → ∀ x y, f a ++ x = f b ++ y → a = b ∧ x = y)
    (hne : ∀ a, f a ≠ []) : ∀ a b : List α, (∀ i ∈ a, P i) → (∀ i ∈ b, P i) → a.flatMap f = b.flatMap f → a = b := by
  intro a
  induction a with
  | nil =>
    intro b _ _ h
    cases b with
    | nil => rfl
    | cons j b => simp at h; exact absurd h.1 (hne j)
  | cons i a ih =>
    intro b ha hb h
    cases b with
    | nil => simp at h; exact absurd h.1 (hne i)
    | cons j b =>
      rw [List.flatMap_cons, List.flatMap_cons] at h
      obtain ⟨rfl, h'⟩ := hf i j (ha i (by simp)) (hb j (by simp)) _ _ h
      rw [ih b (fun i hi => ha i (by simp [hi])) (fun i hi => hb i (by simp [hi])) h']

/-- C90: with colours too, the report determines the issues and their order. -/
theorem C90_colors_injective (p : Paint) (hp : Styles p) (a b : List Issue) (ha : ∀ i ∈ a, OneLine i) (hb : ∀ i ∈ b, OneLine i)
    (h : reportActionIssues p a true = reportActionIssues p b true) : a = b := by
  have hrep : ∀ l : List Issue, reportActionIssues p l true =
      line [] ++ if !l.isEmpty then l.flatMap (reportIssue p) else line %s"No issues reported." := fun l => rfl
  rw [hrep, hrep] at h
  have h := List.append_cancel_left h
  have hne : ∀ i, reportIssue p i ≠ [] := by
    intro i
    simp [reportIssue, line]
  have hhead : ∀ (i : Issue) x, reportIssue p i ++ x ≠ line %s"No issues reported." := by
    intro i x hc
    have hm : ']' ∈ reportIssue p i ++ x := by
      rw [reportColor_eq]
      obtain ⟨a, b, e, -⟩ := levelText_shape hp i.level
      simp [e]
    rw [hc] at hm
    exact absurd hm (by decide)
  cases a with
  | nil =>
    cases b with
    | nil => rfl
    | cons j b =>
      simp only [List.isEmpty_nil, List.isEmpty_cons, Bool.not_true, Bool.not_false, if_true, Bool.false_eq_true, if_false, List.flatMap_cons] at h
      exact absurd h.symm (hhead j _)
  | cons i a =>
    cases b with
    | nil =>
      simp only [List.isEmpty_nil, List.isEmpty_cons, Bool.not_true, Bool.not_false, if_true, Bool.false_eq_true, if_false, List.flatMap_cons] at h
      exact absurd h (hhead i _)
    | cons j b =>
      simp only [List.isEmpty_cons, Bool.not_false, if_true] at h
      exact flatMap_injective (P := OneLine) (fun i j hi hj x y h => reportColor_injective hp hi hj h) hne _ _ ha hb h

/-- Codes of terminals, as `colored` writes them. -/
def exPaint : Paint :=
  let style (code s : Str) : Str := ['\x1b', '['] ++ code ++ ['m'] ++ s ++ ['\x1b', '[', '0', 'm']
  ⟨fun s => s, style %s"33", style %s"91", style %s"1", style %s"4", style %s"2"⟩

example : Styles exPaint := by
  have h : ∀ code : Str, (∀ c ∈ code, c ≠ ' ' ∧ c ≠ '\n' ∧ c ≠ ']') → Style fun s => ['\x1b', '['] ++ code ++ ['m'] ++ s ++ ['\x1b', '[', '0', 'm'] := by
    intro code hc
    refine ⟨['\x1b', '['] ++ code ++ ['m'], ['\x1b', '[', '0', 'm'], fun c hm => ?_, fun s => rfl⟩
    simp only [List.mem_append] at hm
    rcases hm with ((hm | hm) | hm) | hm
    · revert c; decide
    · exact hc c hm
    · revert c; decide
    · revert c; decide
  exact ⟨⟨[], [], by simp, by simp [exPaint]⟩, h _ (by decide), h _ (by decide), h _ (by decide), h _ (by decide), h _ (by decide)⟩

end Verif.Cli
