/-
Properties C42 and C43 (file types and assembly).
-/
import Verif.AssemblerSpec
import Verif.MergeProps
import Verif.JsonProps
import Mathlib.Data.List.Induction

namespace Verif
open Spec
variable {C : Type}

/-! ### C42 The registry -/

/-- A registry after a history of operations. -/
def Registry.after (ops : List (RegOp C)) : Registry C := ops.foldl RegOp.run Registry.empty

theorem registerAll_byExtension (r : Registry C) (ft : FileType C) (exts : List Str) (k : Str) :
    AMap.get (r.registerAll ft exts).byExtension k = if ∃ e ∈ exts, lower e = k then some ft else AMap.get r.byExtension k := by
  unfold Registry.registerAll
  induction exts generalizing r with
  | nil => simp
  | cons e es ih =>
    rw [List.foldl_cons, ih]
    simp only [AMap.get_insert, List.mem_cons, exists_eq_or_imp]
    by_cases h1 : ∃ e ∈ es, lower e = k
    · simp [h1]
    · simp [h1]

theorem registerAll_byMimeType (r : Registry C) (ft : FileType C) (exts : List Str) : (r.registerAll ft exts).byMimeType = r.byMimeType := by
  unfold Registry.registerAll
  induction exts generalizing r with
  | nil => rfl
  | cons e es ih => rw [List.foldl_cons, ih]

theorem run_get (r : Registry C) (op : RegOp C) (ext : Str) (ft : FileType C) :
    (op.run r).get ext = some ft ↔ (op.About ext ∧ op.Registers ft) ∨ (¬ op.About ext ∧ r.get ext = some ft) := by
  cases op with
  | register f e =>
    have : (r.register f e).byExtension = AMap.insert r.byExtension (lower e) f := by
      unfold Registry.register; cases f.mimeType <;> rfl
    simp only [RegOp.run, Registry.get, this, AMap.get_insert, RegOp.About, RegOp.Registers]
    by_cases h : lower e = lower ext <;> simp [h]
  | registerAll f es =>
    simp only [RegOp.run, Registry.get, registerAll_byExtension, RegOp.About, RegOp.Registers]
    by_cases h : ∃ e ∈ es, lower e = lower ext <;> simp [h]
  | remove e =>
    simp only [RegOp.run, Registry.get, Registry.remove, AMap.get_erase, RegOp.About, RegOp.Registers]
    by_cases h : lower e = lower ext <;> simp [h]

theorem run_mime (r : Registry C) (op : RegOp C) (mt : Str) (ft : FileType C) :
    (op.run r).getByMimeType mt = some ft ↔ op.Mime mt ft ∨ ((∀ f, ¬ op.Mime mt f) ∧ r.getByMimeType mt = some ft) := by
  cases op with
  | register f e =>
    simp only [RegOp.run, Registry.getByMimeType, Registry.register, RegOp.Mime]
    cases hm : f.mimeType with
    | none =>
      simp only
      constructor
      · intro h; exact .inr ⟨fun g ⟨hg, t, ht, _⟩ => (by subst hg; rw [hm] at ht; cases ht), h⟩
      · rintro (⟨rfl, t, ht, -⟩ | ⟨-, h⟩)
        · rw [hm] at ht; cases ht
        · exact h
    | some t =>
      simp only [AMap.get_insert]
      by_cases h : lower t = lower mt
      · simp only [h, if_true, Option.some.injEq]
        constructor
        · rintro rfl; exact .inl ⟨rfl, t, hm, h⟩
        · rintro (⟨rfl, -⟩ | ⟨hn, -⟩)
          · rfl
          · exact absurd ⟨rfl, t, hm, h⟩ (hn f)
      · simp only [h, if_false]
        constructor
        · intro hg; exact .inr ⟨fun g ⟨hg, t', ht, hl⟩ => (by subst hg; rw [hm] at ht; injection ht with ht; subst ht; exact h hl), hg⟩
        · rintro (⟨rfl, t', ht, hl⟩ | ⟨-, hg⟩)
          · rw [hm] at ht; injection ht with ht; subst ht; exact absurd hl h
          · exact hg
  | registerAll f es =>
    simp [RegOp.run, Registry.getByMimeType, registerAll_byMimeType, RegOp.Mime]
  | remove e =>
    simp [RegOp.run, Registry.getByMimeType, Registry.remove, RegOp.Mime]

/-- C42: after any history, an extension has the file type of the last operation about it, ignoring case, if that
operation registered one, and none otherwise. -/
theorem C42_get_iff (ops : List (RegOp C)) (ext : Str) (ft : FileType C) : (Registry.after ops).get ext = some ft ↔
    ∃ before op later, ops = before ++ op :: later ∧ op.About ext ∧ op.Registers ft ∧ ∀ o ∈ later, ¬ o.About ext := by
  induction ops using List.reverseRecOn with
  | nil =>
    constructor
    · intro h; cases h
    · rintro ⟨before, op, later, h, -⟩
      exact absurd h (by simp)
  | append_singleton ops o ih =>
    rw [Registry.after, List.foldl_append, List.foldl_cons, List.foldl_nil, run_get]
    change _ ∨ (_ ∧ (Registry.after ops).get ext = some ft) ↔ _
    rw [ih]
    constructor
    · rintro (⟨h1, h2⟩ | ⟨hn, before, op, later, rfl, h1, h2, h3⟩)
      · exact ⟨ops, o, [], rfl, h1, h2, by simp⟩
      · refine ⟨before, op, later ++ [o], by simp, h1, h2, ?_⟩
        intro x hx
        rcases List.mem_append.mp hx with hx | hx
        · exact h3 x hx
        · rw [List.mem_singleton.mp hx]; exact hn
    · rintro ⟨before, op, later, h, h1, h2, h3⟩
      induction later using List.reverseRecOn with
      | nil =>
        have := List.append_inj' h rfl
        obtain ⟨-, hh⟩ := this
        injection hh with hh
        subst hh
        exact .inl ⟨h1, h2⟩
      | append_singleton later x _ =>
        have h' : ops ++ [o] = (before ++ op :: later) ++ [x] := by rw [h]; simp
        obtain ⟨ho, hx⟩ := List.append_inj' h' rfl
        injection hx with hx
        subst hx
        exact .inr ⟨h3 o (by simp), before, op, later, ho, h1, h2, fun y hy => h3 y (by simp [hy])⟩

/-- C42: `contains` says whether `get` finds something, and neither looks at the case of the extension. -/
theorem C42_contains (r : Registry C) (ext ext' : Str) (h : lower ext = lower ext') :
    (r.contains ext = true ↔ ∃ ft, r.get ext' = some ft) ∧ r.get ext = r.get ext' := by
  unfold Registry.contains Registry.get AMap.contains
  rw [h]
  exact ⟨Option.isSome_iff_exists, rfl⟩

/-- C42: a MIME type has the file type of the last `register` (not `register_all`) that named it; removing the extension
does not remove it. -/
theorem C42_mime_iff (ops : List (RegOp C)) (mt : Str) (ft : FileType C) : (Registry.after ops).getByMimeType mt = some ft ↔
    ∃ before op later, ops = before ++ op :: later ∧ op.Mime mt ft ∧ ∀ o ∈ later, ∀ f, ¬ o.Mime mt f := by
  induction ops using List.reverseRecOn with
  | nil =>
    constructor
    · intro h; cases h
    · rintro ⟨before, op, later, h, -⟩
      exact absurd h (by simp)
  | append_singleton ops o ih =>
    rw [Registry.after, List.foldl_append, List.foldl_cons, List.foldl_nil, run_mime]
    change _ ∨ (_ ∧ (Registry.after ops).getByMimeType mt = some ft) ↔ _
    rw [ih]
    constructor
    · rintro (h1 | ⟨hn, before, op, later, rfl, h1, h3⟩)
      · exact ⟨ops, o, [], rfl, h1, by simp⟩
      · refine ⟨before, op, later ++ [o], by simp, h1, ?_⟩
        intro x hx
        rcases List.mem_append.mp hx with hx | hx
        · exact h3 x hx
        · rw [List.mem_singleton.mp hx]; exact hn
    · rintro ⟨before, op, later, h, h1, h3⟩
      induction later using List.reverseRecOn with
      | nil =>
        obtain ⟨-, hh⟩ := List.append_inj' h rfl
        injection hh with hh
        subst hh
        exact .inl h1
      | append_singleton later x _ =>
        have h' : ops ++ [o] = (before ++ op :: later) ++ [x] := by rw [h]; simp
        obtain ⟨ho, hx⟩ := List.append_inj' h' rfl
        injection hx with hx
        subst hx
        exact .inr ⟨h3 o (by simp), before, op, later, ho, h1, fun y hy => h3 y (by simp [hy])⟩

/-- C42: a new registry knows `json` and `smithy` files in any case, and nothing else. -/
theorem C42_default (json smithy : C → Except Err Model) (ext : Str) :
    (Registry.default json smithy).contains ext = true ↔ lower ext = %s"json" ∨ lower ext = %s"smithy" := by
  have h1 : lower %s"json" = %s"json" := rfl
  have h2 : lower %s"smithy" = %s"smithy" := rfl
  have : (Registry.default json smithy).byExtension =
      [(%s"json", ⟨%s"JSON AST", none, json⟩), (%s"smithy", ⟨%s"Smithy IDL", none, smithy⟩)] := rfl
  unfold Registry.contains AMap.contains
  rw [this, AMap.get_cons, AMap.get_cons, AMap.get_nil]
  by_cases ha : %s"json" = lower ext
  · rw [if_pos ha]
    simp [← ha]
  · by_cases hb : %s"smithy" = lower ext
    · rw [if_neg ha, if_pos hb]
      simp [← hb]
    · have ha' : ¬ lower ext = %s"json" := fun h => ha h.symm
      have hb' : ¬ lower ext = %s"smithy" := fun h => hb h.symm
      rw [if_neg ha, if_neg hb]
      simp only [Option.isSome_none, Bool.false_eq_true, ha', hb', or_self]

/-! ### C43 Assembly -/

theorem splitFirst_spec (sep : Char) (s : Str) : ∀ a b, splitFirst sep s = some (a, b) ↔ s = a ++ sep :: b ∧ sep ∉ a := by
  induction s with
  | nil => intro a b; simp [splitFirst]
  | cons c cs ih =>
    intro a b
    unfold splitFirst
    by_cases h : c = sep
    · subst h
      rw [if_pos rfl]
      constructor
      · intro he; injection he with he; injection he with h1 h2; subst h1; subst h2; exact ⟨rfl, by simp⟩
      · rintro ⟨he, hn⟩
        cases a with
        | nil => injection he with _ he; rw [he]
        | cons x xs => injection he with he _; exact absurd (he ▸ List.mem_cons_self) hn
    · rw [if_neg h]
      constructor
      · intro he
        obtain ⟨⟨x, y⟩, hxy, he⟩ := Option.map_eq_some_iff.mp he
        injection he with h1 h2
        subst h1; subst h2
        obtain ⟨e1, e2⟩ := (ih x y).mp hxy
        exact ⟨by rw [e1]; rfl, by simp [e2]; exact fun hh => h hh.symm⟩
      · rintro ⟨he, hn⟩
        cases a with
        | nil => injection he with he _; exact absurd he h
        | cons x xs =>
          injection he with h1 h2
          subst h1
          have := (ih xs b).mpr ⟨h2, fun hh => hn (by simp [hh])⟩
          rw [this]; rfl

theorem fileExtension_iff (name ext : Str) : fileExtension name = some ext ↔ HasExtension name ext := by
  unfold fileExtension HasExtension
  constructor
  · intro h
    cases hs : splitFirst '.' name.reverse with
    | none => rw [hs] at h; cases h
    | some ab =>
      obtain ⟨a, b⟩ := ab
      rw [hs] at h
      cases b with
      | nil => cases h
      | cons c cs =>
        injection h with h
        obtain ⟨h1, h2⟩ := (splitFirst_spec _ _ _ _).mp hs
        refine ⟨(c :: cs).reverse, by simp, ?_, ?_⟩
        · have := congrArg List.reverse h1
          rw [List.reverse_reverse] at this
          rw [this, ← h]; simp
        · rw [← h]; simpa using h2
  · rintro ⟨stem, hne, hn, hd⟩
    have : splitFirst '.' name.reverse = some (ext.reverse, stem.reverse) := by
      rw [splitFirst_spec]
      exact ⟨by rw [hn]; simp, by simpa using hd⟩
    rw [this]
    cases hs : stem.reverse with
    | nil => exact absurd (List.reverse_eq_nil_iff.mp hs) hne
    | cons c cs => simp

namespace Assembler

theorem extensionOf_iff (p : Path) (ext : Str) : extensionOf p = some ext ↔ ∃ init name, p = init ++ [name] ∧ HasExtension name ext := by
  unfold extensionOf
  constructor
  · intro h
    obtain ⟨n, hn, he⟩ := Option.bind_eq_some_iff.mp h
    obtain ⟨hne, hl⟩ := List.getLast?_eq_some_iff.mp hn
    exact ⟨hne, n, hl, (fileExtension_iff _ _).mp he⟩
  · rintro ⟨init, name, rfl, h⟩
    rw [List.getLast?_append]
    simpa using (fileExtension_iff _ _).mpr h

/-- The path has a known type. -/
def known (r : Registry C) (q : Path) : Bool := match extensionOf q with | some ext => r.contains ext | none => false

theorem known_iff (r : Registry C) (q : Path) : known r q = true ↔ ∃ ft, TypeOf r q ft := by
  unfold known TypeOf
  cases h : extensionOf q with
  | none =>
    simp only [Bool.false_eq_true, false_iff]
    rintro ⟨ft, init, name, ext, hq, he, -⟩
    have := (extensionOf_iff q ext).mpr ⟨init, name, hq, he⟩
    rw [h] at this; cases this
  | some ext =>
    simp only [(C42_contains r ext ext rfl).1]
    obtain ⟨init, name, hq, he⟩ := (extensionOf_iff q ext).mp h
    constructor
    · rintro ⟨ft, hft⟩; exact ⟨ft, init, name, ext, hq, he, hft⟩
    · rintro ⟨ft, init', name', ext', hq', he', hft⟩
      have := (extensionOf_iff q ext').mpr ⟨init', name', hq', he'⟩
      rw [h] at this; injection this with this; subst this
      exact ⟨ft, hft⟩

theorem expandFile_mem (r : Registry C) (p : Path) (c : Option C) (q : Path) (d : Option C) :
    (q, d) ∈ expandFile r p c ↔ q = p ∧ d = c ∧ known r q = true := by
  unfold expandFile
  cases h : extensionOf p with
  | none =>
    simp only [List.not_mem_nil, false_iff]
    rintro ⟨rfl, -, hk⟩
    simp [known, h] at hk
  | some ext =>
    simp only
    by_cases hc : r.contains ext = true
    · rw [if_pos hc]
      simp only [List.mem_singleton, Prod.mk.injEq]
      constructor
      · rintro ⟨rfl, rfl⟩; exact ⟨rfl, rfl, by simp [known, h, hc]⟩
      · rintro ⟨h1, h2, -⟩; exact ⟨h1, h2⟩
    · rw [if_neg hc]
      simp only [List.not_mem_nil, false_iff]
      rintro ⟨rfl, -, hk⟩
      simp [known, h] at hk
      exact hc hk

mutual
  theorem expandPath_mem (r : Registry C) (p : Path) : ∀ (x : Node C) (files : List (Path × Option C)), expandPath r p x = .ok files →
      ∀ q c, (q, c) ∈ files ↔ Under x p q c ∧ known r q = true
    | .file d, files, h, q, c => by
      simp only [expandPath] at h
      injection h with h
      subst h
      rw [expandFile_mem]
      constructor
      · rintro ⟨rfl, rfl, hk⟩; exact ⟨.here, hk⟩
      · rintro ⟨hu, hk⟩; cases hu; exact ⟨rfl, rfl, hk⟩
    | .dir none, files, h, q, c => by simp [expandPath] at h
    | .dir (some es), files, h, q, c => by
      simp only [expandPath] at h
      rw [expandEntries_mem r p es files h q c]
      constructor
      · rintro ⟨n, x, hx, hu, hk⟩; exact ⟨.inside hx hu, hk⟩
      · rintro ⟨hu, hk⟩; cases hu with | inside hx hu => exact ⟨_, _, hx, hu, hk⟩
    | .other, files, h, q, c => by
      simp only [expandPath] at h
      injection h with h
      subst h
      simp only [List.not_mem_nil, false_iff]
      rintro ⟨hu, -⟩
      cases hu
  theorem expandEntries_mem (r : Registry C) (p : Path) : ∀ (es : List (Str × Node C)) (files : List (Path × Option C)), expandEntries r p es = .ok files →
      ∀ q c, (q, c) ∈ files ↔ ∃ n x, (n, x) ∈ es ∧ Under x (p ++ [n]) q c ∧ known r q = true
    | [], files, h, q, c => by
      simp only [expandEntries] at h
      injection h with h
      subst h
      simp
    | e :: es, files, h, q, c => by
      simp only [expandEntries] at h
      cases h1 : expandEntry r p e with
      | error x => rw [h1] at h; cases h
      | ok a =>
        rw [h1] at h
        cases h2 : expandEntries r p es with
        | error x => rw [h2] at h; cases h
        | ok b =>
          rw [h2] at h
          injection h with h
          subst h
          have i1 := expandEntry_mem r p e a h1 q c
          have i2 := expandEntries_mem r p es b h2 q c
          rw [List.mem_append, i1, i2]
          constructor
          · rintro (⟨hu, hk⟩ | ⟨n, x, hx, hu, hk⟩)
            · exact ⟨e.1, e.2, by simp, hu, hk⟩
            · exact ⟨n, x, by simp [hx], hu, hk⟩
          · rintro ⟨n, x, hx, hu, hk⟩
            rcases List.mem_cons.mp hx with rfl | hx
            · exact .inl ⟨hu, hk⟩
            · exact .inr ⟨n, x, hx, hu, hk⟩
  theorem expandEntry_mem (r : Registry C) (p : Path) : ∀ (e : Str × Node C) (files : List (Path × Option C)), expandEntry r p e = .ok files →
      ∀ q c, (q, c) ∈ files ↔ Under e.2 (p ++ [e.1]) q c ∧ known r q = true
    | (n, x), files, h, q, c => by
      simp only [expandEntry] at h
      exact expandPath_mem r (p ++ [n]) x files h q c
end

mutual
  theorem expandPath_ok (r : Registry C) (p : Path) : ∀ x : Node C,
      (∃ files, expandPath r p x = .ok files ∧ ¬ Unlistable x) ∨ (expandPath r p x = .error .panic ∧ Unlistable x)
    | .file d => .inl ⟨_, rfl, fun h => by cases h⟩
    | .dir none => .inr ⟨rfl, .here⟩
    | .dir (some es) => by
      rcases expandEntries_ok r p es with ⟨files, h1, h2⟩ | ⟨h1, n, x, hx, h2⟩
      · exact .inl ⟨files, h1, fun h => by cases h with | inside hx hu => exact h2 _ _ hx hu⟩
      · exact .inr ⟨h1, .inside hx h2⟩
    | .other => .inl ⟨_, rfl, fun h => by cases h⟩
  theorem expandEntries_ok (r : Registry C) (p : Path) : ∀ es : List (Str × Node C),
      (∃ files, expandEntries r p es = .ok files ∧ ∀ n x, (n, x) ∈ es → ¬ Unlistable x) ∨
      (expandEntries r p es = .error .panic ∧ ∃ n x, (n, x) ∈ es ∧ Unlistable x)
    | [] => .inl ⟨[], rfl, by simp⟩
    | e :: es => by
      simp only [expandEntries]
      rcases expandEntry_ok r p e with ⟨f1, h1, h2⟩ | ⟨h1, h2⟩
      · rw [h1]
        rcases expandEntries_ok r p es with ⟨f3, h3, h4⟩ | ⟨h3, n, x, hx, h4⟩
        · rw [h3]
          refine .inl ⟨_, rfl, fun n x hx => ?_⟩
          rcases List.mem_cons.mp hx with rfl | hx
          · exact h2
          · exact h4 n x hx
        · rw [h3]; exact .inr ⟨rfl, n, x, by simp [hx], h4⟩
      · rw [h1]; exact .inr ⟨rfl, e.1, e.2, by simp, h2⟩
  theorem expandEntry_ok (r : Registry C) (p : Path) : ∀ e : Str × Node C,
      (∃ files, expandEntry r p e = .ok files ∧ ¬ Unlistable e.2) ∨ (expandEntry r p e = .error .panic ∧ Unlistable e.2)
    | (n, x) => expandPath_ok r (p ++ [n]) x
end

theorem expandAll_cons (r : Registry C) (fs : Path → Node C) (p : Path) (ps : List Path) : expandAll r fs (p :: ps) =
    (match expandPath r p (fs p) with
     | .error e => .error e
     | .ok a => match expandAll r fs ps with | .error e => .error e | .ok b => .ok (a ++ b)) := by
  rw [expandAll]
  cases expandPath r p (fs p) with
  | error e => rfl
  | ok a => cases expandAll r fs ps <;> rfl

theorem expandAll_mem (r : Registry C) (fs : Path → Node C) (ps : List Path) (files : List (Path × Option C))
    (h : expandAll r fs ps = .ok files) (q : Path) (c : Option C) :
    (q, c) ∈ files ↔ (∃ p ∈ ps, Under (fs p) p q c) ∧ known r q = true := by
  induction ps generalizing files with
  | nil => simp only [expandAll] at h; injection h with h; subst h; simp
  | cons p ps ih =>
    rw [expandAll_cons] at h
    cases h1 : expandPath r p (fs p) with
    | error e => rw [h1] at h; cases h
    | ok a =>
      rw [h1] at h
      cases h2 : expandAll r fs ps with
      | error e => rw [h2] at h; cases h
      | ok b =>
        rw [h2] at h
        injection h with h
        subst h
        rw [List.mem_append, expandPath_mem r p _ a h1 q c, ih b h2]
        constructor
        · rintro (⟨hu, hk⟩ | ⟨⟨p', hp, hu⟩, hk⟩)
          · exact ⟨⟨p, by simp, hu⟩, hk⟩
          · exact ⟨⟨p', by simp [hp], hu⟩, hk⟩
        · rintro ⟨⟨p', hp, hu⟩, hk⟩
          rcases List.mem_cons.mp hp with rfl | hp
          · exact .inl ⟨hu, hk⟩
          · exact .inr ⟨⟨p', hp, hu⟩, hk⟩

theorem expandAll_ok (r : Registry C) (fs : Path → Node C) (ps : List Path) :
    (∃ files, expandAll r fs ps = .ok files ∧ ∀ p ∈ ps, ¬ Unlistable (fs p)) ∨
    (expandAll r fs ps = .error .panic ∧ ∃ p ∈ ps, Unlistable (fs p)) := by
  induction ps with
  | nil => exact .inl ⟨[], rfl, by simp⟩
  | cons p ps ih =>
    rw [expandAll_cons]
    rcases expandPath_ok r p (fs p) with ⟨a, h1, h2⟩ | ⟨h1, h2⟩
    · rw [h1]
      rcases ih with ⟨b, h3, h4⟩ | ⟨h3, p', hp, h4⟩
      · rw [h3]
        refine .inl ⟨_, rfl, fun x hx => ?_⟩
        rcases List.mem_cons.mp hx with rfl | hx
        · exact h2
        · exact h4 x hx
      · rw [h3]; exact .inr ⟨rfl, p', by simp [hp], h4⟩
    · rw [h1]; exact .inr ⟨rfl, p, by simp, h2⟩

/-- Every path found below a path continues it. -/
theorem under_prefix {x : Node C} {p q : Path} {c : Option C} (h : Under x p q c) : p <+: q := by
  induction h with
  | here => exact List.prefix_refl _
  | inside _ _ ih => exact (List.prefix_append _ _).trans ih

mutual
  theorem expandPath_nodup (r : Registry C) (p : Path) : ∀ (x : Node C) (files : List (Path × Option C)), Proper x →
      expandPath r p x = .ok files → (files.map (·.1)).Nodup
    | .file d, files, _, h => by
      simp only [expandPath] at h
      injection h with h
      subst h
      unfold expandFile
      split
      · split <;> simp
      · simp
    | .dir none, files, _, h => by simp [expandPath] at h
    | .dir (some es), files, hp, h => by
      cases hp with
      | dir hn hps => exact expandEntries_nodup r p es files hn hps h
    | .other, files, _, h => by
      simp only [expandPath] at h
      injection h with h
      subst h
      simp
  theorem expandEntries_nodup (r : Registry C) (p : Path) : ∀ (es : List (Str × Node C)) (files : List (Path × Option C)),
      (es.map (·.1)).Nodup → (∀ e ∈ es, Proper e.2) → expandEntries r p es = .ok files → (files.map (·.1)).Nodup
    | [], files, _, _, h => by
      simp only [expandEntries] at h
      injection h with h
      subst h
      simp
    | e :: es, files, hn, hps, h => by
      simp only [expandEntries] at h
      cases h1 : expandEntry r p e with
      | error x => rw [h1] at h; cases h
      | ok a =>
        rw [h1] at h
        cases h2 : expandEntries r p es with
        | error x => rw [h2] at h; cases h
        | ok b =>
          rw [h2] at h
          injection h with h
          subst h
          have n1 := expandEntry_nodup r p e a (hps e (by simp)) h1
          rw [List.map_cons, List.nodup_cons] at hn
          have n2 := expandEntries_nodup r p es b hn.2 (fun e he => hps e (by simp [he])) h2
          rw [List.map_append]
          refine List.nodup_append.mpr ⟨n1, n2, ?_⟩
          intro q hq q' hq' hqq
          subst hqq
          obtain ⟨⟨q1, c1⟩, hm1, rfl⟩ := List.mem_map.mp hq
          obtain ⟨⟨q2, c2⟩, hm2, hq2⟩ := List.mem_map.mp hq'
          simp only at hq2
          subst hq2
          obtain ⟨hu1, -⟩ := (expandEntry_mem r p e a h1 q2 c1).mp hm1
          obtain ⟨n, x, hx, hu2, -⟩ := (expandEntries_mem r p es b h2 q2 c2).mp hm2
          obtain ⟨t1, ht1⟩ := under_prefix hu1
          obtain ⟨t2, ht2⟩ := under_prefix hu2
          rw [← ht2, List.append_assoc, List.append_assoc] at ht1
          have := List.append_cancel_left ht1
          injection this with this _
          exact hn.1 (this ▸ List.mem_map_of_mem hx)
  theorem expandEntry_nodup (r : Registry C) (p : Path) : ∀ (e : Str × Node C) (files : List (Path × Option C)), Proper e.2 →
      expandEntry r p e = .ok files → (files.map (·.1)).Nodup
    | (n, x), files, hp, h => expandPath_nodup r (p ++ [n]) x files hp h
end

theorem expandAll_nodup (r : Registry C) (fs : Path → Node C) (ps : List Path) (hp : ∀ p ∈ ps, Proper (fs p))
    (hd : ps.Pairwise fun a b => ¬ a <+: b ∧ ¬ b <+: a) (files : List (Path × Option C))
    (h : expandAll r fs ps = .ok files) : (files.map (·.1)).Nodup := by
  induction ps generalizing files with
  | nil => simp only [expandAll] at h; injection h with h; subst h; simp
  | cons p ps ih =>
    rw [expandAll_cons] at h
    cases h1 : expandPath r p (fs p) with
    | error e => rw [h1] at h; cases h
    | ok a =>
      rw [h1] at h
      cases h2 : expandAll r fs ps with
      | error e => rw [h2] at h; cases h
      | ok b =>
        rw [h2] at h
        injection h with h
        subst h
        rw [List.pairwise_cons] at hd
        rw [List.map_append]
        refine List.nodup_append.mpr ⟨expandPath_nodup r p _ a (hp p (by simp)) h1, ih (fun x hx => hp x (by simp [hx])) hd.2 b h2, ?_⟩
        intro q hq q' hq' hqq
        subst hqq
        obtain ⟨⟨q1, c1⟩, hm1, rfl⟩ := List.mem_map.mp hq
        obtain ⟨⟨q2, c2⟩, hm2, hq2⟩ := List.mem_map.mp hq'
        simp only at hq2
        subst hq2
        obtain ⟨hu1, -⟩ := (expandPath_mem r p _ a h1 q2 c1).mp hm1
        obtain ⟨⟨p', hp', hu2⟩, -⟩ := (expandAll_mem r fs ps b h2 q2 c2).mp hm2
        have hpp := hd.1 p' hp'
        rcases List.prefix_or_prefix_of_prefix (under_prefix hu1) (under_prefix hu2) with hh | hh
        · exact hpp.1 hh
        · exact hpp.2 hh

/-! Reading and merging -/

theorem typeOf_ext {r : Registry C} {q : Path} {ft : FileType C} (h : TypeOf r q ft) :
    ∃ ext, extensionOf q = some ext ∧ r.get ext = some ft := by
  obtain ⟨init, name, ext, hq, he, hg⟩ := h
  exact ⟨ext, (extensionOf_iff q ext).mpr ⟨init, name, hq, he⟩, hg⟩

theorem toLower_toLower (c : Char) : c.toLower.toLower = c.toLower := by
  by_cases h : c.isUpper = true
  · apply toLower_not_upper
    have := toLower_upper h
    simp only [Char.isUpper, decide_eq_true_eq, this, ge_iff_le] at h ⊢
    rintro ⟨h1, h2⟩
    obtain ⟨h3, h4⟩ := h
    rw [UInt32.le_iff_toNat_le] at *
    rw [UInt32.toNat_add] at *
    simp at *
    omega
  · rw [toLower_not_upper h, toLower_not_upper h]

theorem lower_lower (s : Str) : lower (lower s) = lower s := by
  unfold lower
  rw [List.map_map]
  apply List.map_congr_left
  intro c _
  exact toLower_toLower c

theorem readModel_readsAs (r : Registry C) (f : Path × Option C) (hk : known r f.1 = true) (res : Except Err Model) :
    readModel r f.1 f.2 = res ↔ ReadsAs r f res := by
  obtain ⟨ft, hft⟩ := (known_iff r f.1).mp hk
  obtain ⟨ext, he, hg⟩ := typeOf_ext hft
  have hg' : r.get (lower ext) = some ft := by
    rw [← hg]; unfold Registry.get; rw [lower_lower]
  unfold readModel ReadsAs
  simp only [he, hg']
  constructor
  · intro h
    refine ⟨ft, hft, ?_⟩
    cases hc : f.2 with
    | none => rw [hc] at h; exact .inr ⟨rfl, h.symm⟩
    | some c => rw [hc] at h; exact .inl ⟨c, rfl, h.symm⟩
  · rintro ⟨ft', hft', h⟩
    obtain ⟨ext', he', hg''⟩ := typeOf_ext hft'
    rw [he] at he'
    injection he' with he'
    subst he'
    rw [hg] at hg''
    injection hg'' with hg''
    subst hg''
    rcases h with ⟨c, hc, rfl⟩ | ⟨hc, rfl⟩ <;> rw [hc]

theorem readAll_cons (r : Registry C) (f : Path × Option C) (fs : List (Path × Option C)) : readAll r (f :: fs) =
    (match readModel r f.1 f.2 with
     | .error e => .error e
     | .ok a => match readAll r fs with | .error e => .error e | .ok b => .ok (a :: b)) := by
  rw [readAll]
  cases readModel r f.1 f.2 with
  | error e => rfl
  | ok a => cases readAll r fs <;> rfl

theorem readAll_ok (r : Registry C) (files : List (Path × Option C)) (hk : ∀ f ∈ files, known r f.1 = true) (ms : List Model) :
    readAll r files = .ok ms ↔ AllRead r files ms := by
  unfold AllRead
  induction files generalizing ms with
  | nil =>
    simp only [readAll, List.forall₂_nil_left_iff]
    exact ⟨fun h => by injection h with h; exact h.symm, fun h => by rw [h]⟩
  | cons f fs ih =>
    have ih := ih (fun x hx => hk x (by simp [hx]))
    have hf := readModel_readsAs r f (hk f (by simp))
    rw [readAll_cons, List.forall₂_cons_left_iff]
    constructor
    · intro h
      cases h1 : readModel r f.1 f.2 with
      | error e => rw [h1] at h; cases h
      | ok a =>
        rw [h1] at h
        cases h2 : readAll r fs with
        | error e => rw [h2] at h; cases h
        | ok b => rw [h2] at h; injection h with h; exact ⟨a, b, (hf _).mp h1, (ih b).mp h2, h.symm⟩
    · rintro ⟨a, b, h1, h2, rfl⟩
      rw [(hf _).mpr h1, (ih b).mpr h2]

theorem readAll_error (r : Registry C) (files : List (Path × Option C)) (hk : ∀ f ∈ files, known r f.1 = true) (e : Err) :
    readAll r files = .error e ↔ FirstUnread r files e := by
  unfold FirstUnread
  induction files with
  | nil =>
    constructor
    · intro h; cases h
    · rintro ⟨before, f, after, h, -⟩; exact absurd h (by simp)
  | cons f fs ih =>
    have hk' : ∀ x ∈ fs, known r x.1 = true := fun x hx => hk x (by simp [hx])
    have ih := ih hk'
    have hf := readModel_readsAs r f (hk f (by simp))
    rw [readAll_cons]
    constructor
    · intro h
      cases h1 : readModel r f.1 f.2 with
      | error e' =>
        rw [h1] at h; injection h with h; subst h
        exact ⟨[], f, fs, rfl, ⟨[], List.Forall₂.nil⟩, (hf _).mp h1⟩
      | ok a =>
        rw [h1] at h
        cases h2 : readAll r fs with
        | error e' =>
          rw [h2] at h; injection h with h; subst h
          obtain ⟨before, g, after, he, ⟨ms, hms⟩, hg⟩ := ih.mp h2
          exact ⟨f :: before, g, after, by rw [he]; rfl, ⟨a :: ms, List.Forall₂.cons ((hf _).mp h1) hms⟩, hg⟩
        | ok b => rw [h2] at h; cases h
    · rintro ⟨before, g, after, he, ⟨ms, hms⟩, hg⟩
      cases before with
      | nil =>
        injection he with h1 h2
        subst h1
        rw [(hf _).mpr hg]
      | cons x xs =>
        injection he with h1 h2
        subst h1
        cases hms with
        | cons hx hxs =>
          rw [(hf _).mpr hx, ih.mpr ⟨xs, g, after, h2, ⟨_, hxs⟩, hg⟩]

theorem mergeAll_ok (m : Model) (ms : List Model) (r : Model) : mergeAll m ms = .ok r ↔ MergesTo m ms r := by
  induction ms generalizing m with
  | nil =>
    simp only [mergeAll]
    exact ⟨fun h => by injection h with h; rw [h]; exact .done, fun h => by cases h; rfl⟩
  | cons x xs ih =>
    simp only [mergeAll]
    cases h : m.merge x with
    | mk m' res =>
      cases res with
      | error e =>
        simp only
        exact ⟨fun h => (by cases h), fun h2 => (by cases h2 with | step h3 => rw [h] at h3; cases h3)⟩
      | ok u =>
        simp only [ih]
        exact ⟨fun h2 => .step h h2, fun h2 => (by cases h2 with | step h3 h4 => rw [h] at h3; injection h3 with h3; rw [h3]; exact h4)⟩

theorem mergeAll_error (m : Model) (ms : List Model) (e : Err) : mergeAll m ms = .error e ↔ MergeFails m ms e := by
  induction ms generalizing m with
  | nil =>
    simp only [mergeAll]
    exact ⟨fun h => (by cases h), fun h => (by cases h)⟩
  | cons x xs ih =>
    simp only [mergeAll]
    cases h : m.merge x with
    | mk m' res =>
      cases res with
      | error e' =>
        simp only
        constructor
        · intro h2; injection h2 with h2; subst h2; exact .here h
        · intro h2
          cases h2 with
          | here h3 => rw [h] at h3; injection h3 with _ h3; injection h3 with h3; rw [h3]
          | later h3 => rw [h] at h3; cases h3
      | ok u =>
        simp only [ih]
        constructor
        · exact fun h2 => .later h h2
        · intro h2
          cases h2 with
          | here h3 => rw [h] at h3; cases h3
          | later h3 h4 => rw [h] at h3; injection h3 with h3; rw [h3]; exact h4

end Assembler

open Assembler

/-- The models the readers of a registry produce are well formed, of the only version there is. -/
def Spec.GoodReaders (r : Registry C) : Prop := ∀ ext ft, r.get ext = some ft → ∀ c m, ft.reader c = .ok m → WfModel m

theorem assembly_files (a : Assembler C) (fs : Path → Node C) (hr : GoodReaders a.fileTypes) (hl : ∀ p ∈ a.paths, ¬ Unlistable (fs p)) :
    ∃ files : List (Path × Option C), expandAll a.fileTypes fs a.paths = .ok files ∧
      (∀ q c, (q, c) ∈ files ↔ (∃ p ∈ a.paths, Under (fs p) p q c) ∧ ∃ ft, TypeOf a.fileTypes q ft) ∧
      (∀ m, tryFrom a fs = .ok m ↔ ∃ models, AllRead a.fileTypes files models ∧ MergesTo (Model.new .v10) models m) ∧
      (∀ e, tryFrom a fs = .error e ↔ FirstUnread a.fileTypes files e ∨
        ∃ models, AllRead a.fileTypes files models ∧ MergeFails (Model.new .v10) models e) := by
  rcases expandAll_ok a.fileTypes fs a.paths with ⟨files, hf, -⟩ | ⟨-, p, hp, hu⟩
  swap
  · exact absurd hu (hl p hp)
  have hmem := expandAll_mem a.fileTypes fs a.paths files hf
  have hk : ∀ f ∈ files, known a.fileTypes f.1 = true := fun f hfm => ((hmem f.1 f.2).mp hfm).2
  have htf : tryFrom a fs = (match readAll a.fileTypes files with
      | .error e => .error e
      | .ok models => mergeAll (Model.new .v10) models) := by
    unfold tryFrom
    by_cases he : a.isEmpty = true
    · rw [if_pos he]
      have : a.paths = [] := by simpa [Assembler.isEmpty] using he
      rw [this] at hf
      simp only [expandAll] at hf
      injection hf with hf
      subst hf
      rfl
    · rw [if_neg he, hf]
      change (readAll a.fileTypes files >>= fun models => match models with | [] => .ok (Model.new .v10) | m :: ms => mergeAll m ms) = _
      cases hread : readAll a.fileTypes files with
      | error e => rfl
      | ok models =>
        cases models with
        | nil => rfl
        | cons m ms =>
          change mergeAll m ms = mergeAll (Model.new .v10) (m :: ms)
          have hall := (readAll_ok a.fileTypes files hk _).mp hread
          cases hall with
          | cons hx _ =>
            obtain ⟨ft, hft, hcase⟩ := hx
            obtain ⟨ext, -, hg⟩ := typeOf_ext hft
            rcases hcase with ⟨c, -, hc⟩ | ⟨-, hc⟩
            · have hw := hr ext ft hg c m hc.symm
              have hv : m.version = .v10 := by cases m.version; rfl
              have := (C16_merge_empty m hw).2
              rw [hv] at this
              simp only [mergeAll, this]
            · cases hc
  refine ⟨files, hf, fun q c => by rw [hmem q c, known_iff], ?_, ?_⟩
  · intro m
    rw [htf]
    cases hread : readAll a.fileTypes files with
    | error e =>
      simp only
      constructor
      · intro h; cases h
      · rintro ⟨models, h1, -⟩
        rw [(readAll_ok a.fileTypes files hk models).mpr h1] at hread
        cases hread
    | ok models =>
      simp only [mergeAll_ok]
      constructor
      · intro h; exact ⟨models, (readAll_ok a.fileTypes files hk models).mp hread, h⟩
      · rintro ⟨models', h1, h2⟩
        rw [(readAll_ok a.fileTypes files hk models').mpr h1] at hread
        injection hread with hread
        rw [← hread]; exact h2
  · intro e
    rw [htf]
    cases hread : readAll a.fileTypes files with
    | error e' =>
      simp only
      constructor
      · intro h; injection h with h; subst h; exact .inl ((readAll_error a.fileTypes files hk _).mp hread)
      · rintro (h | ⟨models, h1, -⟩)
        · have := (readAll_error a.fileTypes files hk e).mpr h
          rw [hread] at this; injection this with this; rw [this]
        · rw [(readAll_ok a.fileTypes files hk models).mpr h1] at hread
          cases hread
    | ok models =>
      simp only [mergeAll_error]
      constructor
      · intro h; exact .inr ⟨models, (readAll_ok a.fileTypes files hk models).mp hread, h⟩
      · rintro (h | ⟨models', h1, h2⟩)
        · have := (readAll_error a.fileTypes files hk e).mpr h
          rw [hread] at this; cases this
        · rw [(readAll_ok a.fileTypes files hk models').mpr h1] at hread
          injection hread with hread
          rw [← hread]; exact h2

/-- C43: the files assembled are those below the given paths, through directories at any depth, whose extension is
registered; the result is the default model merged with what they read as, one after the other; it fails with the error
of the first that cannot be read, or else of the first that cannot be merged. -/
theorem C43_assembly (a : Assembler C) (fs : Path → Node C) (hr : GoodReaders a.fileTypes) (hl : ∀ p ∈ a.paths, ¬ Unlistable (fs p)) :
    ∃ files : List (Path × Option C),
      (∀ q c, (q, c) ∈ files ↔ (∃ p ∈ a.paths, Under (fs p) p q c) ∧ ∃ ft, TypeOf a.fileTypes q ft) ∧
      (∀ m, tryFrom a fs = .ok m ↔ ∃ models, AllRead a.fileTypes files models ∧ MergesTo (Model.new .v10) models m) ∧
      (∀ e, tryFrom a fs = .error e ↔ FirstUnread a.fileTypes files e ∨
        ∃ models, AllRead a.fileTypes files models ∧ MergeFails (Model.new .v10) models e) :=
  let ⟨files, _, h⟩ := assembly_files a fs hr hl
  ⟨files, h⟩

/-- C43: a directory that cannot be listed, anywhere below the given paths, is a panic and not an error. -/
theorem C43_unlistable_panics (a : Assembler C) (fs : Path → Node C) (p : Path) (hp : p ∈ a.paths) (hu : Unlistable (fs p)) :
    tryFrom a fs = .error .panic := by
  rcases expandAll_ok a.fileTypes fs a.paths with ⟨files, hf, hn⟩ | ⟨hf, -⟩
  · exact absurd hu (hn p hp)
  · unfold tryFrom
    have : a.isEmpty = false := by
      unfold Assembler.isEmpty
      cases h : a.paths with
      | nil => rw [h] at hp; cases hp
      | cons => rfl
    rw [this, hf]
    rfl

/-- C43: no paths, or no file of a known type, gives the default model. -/
theorem C43_nothing_found (a : Assembler C) (fs : Path → Node C) (hl : ∀ p ∈ a.paths, ¬ Unlistable (fs p))
    (hn : ∀ p ∈ a.paths, ∀ q c ft, Under (fs p) p q c → ¬ TypeOf a.fileTypes q ft) : tryFrom a fs = .ok (Model.new .v10) := by
  rcases expandAll_ok a.fileTypes fs a.paths with ⟨files, hf, -⟩ | ⟨-, p, hp, hu⟩
  swap
  · exact absurd hu (hl p hp)
  have hnil : files = [] := by
    cases files with
    | nil => rfl
    | cons f rest =>
      obtain ⟨⟨p, hp, hu⟩, hk⟩ := (expandAll_mem a.fileTypes fs a.paths _ hf f.1 f.2).mp (by simp)
      obtain ⟨ft, hft⟩ := (known_iff _ _).mp hk
      exact absurd hft (hn p hp _ _ ft hu)
  subst hnil
  unfold tryFrom
  rw [hf]
  cases a.isEmpty <;> rfl

/-- C43: when no given path lies below another, every file is read once. -/
theorem C43_each_file_once (a : Assembler C) (fs : Path → Node C) (hp : ∀ p ∈ a.paths, Proper (fs p))
    (hd : a.paths.Pairwise fun a b => ¬ a <+: b ∧ ¬ b <+: a) (files : List (Path × Option C))
    (h : expandAll a.fileTypes fs a.paths = .ok files) : (files.map (·.1)).Nodup :=
  expandAll_nodup a.fileTypes fs a.paths hp hd files h

/-! ### Concrete cases -/

/-- Readers: JSON files hold the model `exModel` if they hold `x`, Smithy files are never readable. -/
def exRegistry : Registry Str :=
  Registry.after [.register ⟨%s"JSON", some %s"application/JSON", fun c => if c = %s"x" then .ok exModel else .error .panic⟩ %s"Json",
    .registerAll ⟨%s"IDL", none, fun _ => .error (.invalidRepresentation %s"bad")⟩ [%s"smithy", %s"SMI"], .remove %s"smi"]

/-- `d` holds a JSON file, a directory with another, and a text file; `e` holds a file nobody can open. -/
def exFs : Path → Node Str := fun p =>
  if p = [%s"d"] then
    .dir (some [(%s"a.json", .file (some %s"x")), (%s"sub", .dir (some [(%s"b.v2.JSON", .file (some %s"x"))])), (%s"c.txt", .file none)])
  else if p = [%s"e.json"] then .file none
  else if p = [%s"f"] then .dir (some [(%s"g", .dir none)])
  else .other

example : ∃ ft, exRegistry.get %s"jsoN" = some ft ∧ exRegistry.getByMimeType %s"Application/json" = some ft := ⟨_, rfl, rfl⟩
example : exRegistry.get %s"smi" = none ∧ exRegistry.contains %s"SMITHY" = true := ⟨rfl, rfl⟩

theorem exRegistry_reads : ∀ ext ft, exRegistry.get ext = some ft → ∀ c m, ft.reader c = .ok m → m = exModel := by
  intro ext ft h c m hm
  have hb : exRegistry.byExtension.map (·.1) = [%s"json", %s"smithy"] := rfl
  by_cases h1 : lower ext = %s"json"
  · have : exRegistry.get ext = some ⟨%s"JSON", some %s"application/JSON", fun c => if c = %s"x" then .ok exModel else .error .panic⟩ := by
      unfold Registry.get; rw [h1]; rfl
    rw [this] at h
    injection h with h
    subst h
    simp only at hm
    split at hm
    · injection hm with hm; exact hm.symm
    · cases hm
  · by_cases h2 : lower ext = %s"smithy"
    · have : exRegistry.get ext = some ⟨%s"IDL", none, fun _ => .error (.invalidRepresentation %s"bad")⟩ := by
        unfold Registry.get; rw [h2]; rfl
      rw [this] at h
      injection h with h
      subst h
      cases hm
    · exfalso
      have : lower ext ∈ exRegistry.byExtension.map (·.1) := (AMap.mem_keys_iff _ _).mpr (Option.isSome_iff_exists.mpr ⟨ft, h⟩)
      rw [hb] at this
      simp only [List.mem_cons, List.not_mem_nil, or_false] at this
      rcases this with h | h
      · exact h1 h
      · exact h2 h

theorem exRegistry_good : GoodReaders exRegistry := fun ext ft h c m hm => by
  rw [exRegistry_reads ext ft h c m hm]; exact exModel_wf

/-- The hypotheses of `C43_assembly` are met, and two files are found. -/
example : ∀ p ∈ [[%s"d"], [%s"q"]], ¬ Unlistable (exFs p) := by
  intro p hp
  simp only [List.mem_cons, List.not_mem_nil, or_false] at hp
  rcases hp with rfl | rfl
  · intro h
    cases h with
    | inside hx hu =>
      simp only [List.mem_cons, List.not_mem_nil, or_false, Prod.mk.injEq] at hx
      rcases hx with ⟨-, rfl⟩ | ⟨-, rfl⟩ | ⟨-, rfl⟩
      · cases hu
      · cases hu with
        | inside hx hu =>
          simp only [List.mem_cons, List.not_mem_nil, or_false, Prod.mk.injEq] at hx
          rw [hx.2] at hu
          cases hu
      · cases hu
  · intro h; cases h

example : (expandAll exRegistry exFs [[%s"d"], [%s"q"]]).toOption.map (·.map (·.1)) =
    some [[%s"d", %s"a.json"], [%s"d", %s"sub", %s"b.v2.JSON"]] := rfl
example : tryFrom ⟨exRegistry, [[%s"e.json"]]⟩ exFs = .error .panic := rfl
example : tryFrom ⟨exRegistry, [[%s"d"], [%s"f"]]⟩ exFs = .error .panic :=
  C43_unlistable_panics _ _ [%s"f"] (by simp) (.inside (n := %s"g") (x := .dir none) (by simp) .here)

/-- C43: a file that is given both by itself and by its directory is read twice. -/
theorem C43_overlapping_paths_read_twice : ∃ (a : Assembler Str) (fs : Path → Node Str) (files : List (Path × Option Str)),
    a.paths.Nodup ∧ expandAll a.fileTypes fs a.paths = .ok files ∧ ¬ (files.map (·.1)).Nodup :=
  ⟨⟨exRegistry, [[%s"d"], [%s"d", %s"a.json"]]⟩,
   fun p => if p = [%s"d"] then exFs p else .file (some %s"x"), _, by decide, rfl, by decide⟩

end Verif
