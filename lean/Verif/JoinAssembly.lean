/-
Property theorems C98 on assembly (atelier-assembler/src/lib.rs:305-341, 403-441): neither the order in which the set of paths is
enumerated nor that in which directories are listed matters, and examples for C97, C98 and C99.
-/
import Verif.JoinGroup
import Verif.AssemblerProps

namespace Verif
open Spec Assembler
variable {C : Type}

/-- Both fail, or both succeed with the same things in some order. -/
def PermRes {α : Type} (a b : Except Err (List α)) : Prop :=
  (a = .error .panic ∧ b = .error .panic) ∨ ∃ x y, a = .ok x ∧ b = .ok y ∧ x.Perm y

theorem PermRes.symm {α : Type} {a b : Except Err (List α)} (h : PermRes a b) : PermRes b a := by
  rcases h with ⟨h1, h2⟩ | ⟨x, y, h1, h2, h3⟩
  · exact .inl ⟨h2, h1⟩
  · exact .inr ⟨y, x, h2, h1, h3.symm⟩

theorem PermRes.trans {α : Type} {a b c : Except Err (List α)} (h : PermRes a b) (h' : PermRes b c) : PermRes a c := by
  rcases h with ⟨h1, h2⟩ | ⟨x, y, h1, h2, h3⟩
  · rcases h' with ⟨-, h5⟩ | ⟨u, v, h4, h5, h6⟩
    · exact .inl ⟨h1, h5⟩
    · rw [h2] at h4; cases h4
  · rcases h' with ⟨h4, -⟩ | ⟨u, v, h4, h5, h6⟩
    · rw [h2] at h4; cases h4
    · rw [h2] at h4; injection h4 with h4; subst h4; exact .inr ⟨x, v, h1, h5, h3.trans h6⟩

/-- One result after the other. -/
def both {α : Type} (a b : Except Err (List α)) : Except Err (List α) :=
  match a with
  | .error e => .error e
  | .ok x => match b with | .error e => .error e | .ok y => .ok (x ++ y)

theorem PermRes.both {α : Type} {a a' b b' : Except Err (List α)} (h : PermRes a a') (h' : PermRes b b') :
    PermRes (both a b) (both a' b') := by
  rcases h with ⟨rfl, rfl⟩ | ⟨x, y, rfl, rfl, h3⟩
  · exact .inl ⟨rfl, rfl⟩
  · rcases h' with ⟨rfl, rfl⟩ | ⟨u, v, rfl, rfl, h6⟩
    · exact .inl ⟨rfl, rfl⟩
    · exact .inr ⟨_, _, rfl, rfl, h3.append h6⟩

theorem PermRes.swap {α : Type} {a b c : Except Err (List α)} (ha : PermRes a a) (hb : PermRes b b) (hc : PermRes c c) :
    PermRes (Verif.both a (Verif.both b c)) (Verif.both b (Verif.both a c)) := by
  rcases ha with ⟨rfl, -⟩ | ⟨x, -, rfl, -⟩ <;> rcases hb with ⟨rfl, -⟩ | ⟨y, -, rfl, -⟩ <;> rcases hc with ⟨rfl, -⟩ | ⟨z, -, rfl, -⟩
  all_goals first
    | exact .inl ⟨rfl, rfl⟩
    | refine .inr ⟨_, _, rfl, rfl, ?_⟩
      rw [← List.append_assoc, ← List.append_assoc]
      exact List.perm_append_comm.append_right _

theorem expandEntries_cons (r : Registry C) (p : Path) (e : Str × Node C) (es : List (Str × Node C)) :
    expandEntries r p (e :: es) = both (expandPath r (p ++ [e.1]) e.2) (expandEntries r p es) := by
  obtain ⟨n, x⟩ := e
  rw [expandEntries, expandEntry]
  cases expandPath r (p ++ [n]) x with
  | error e => rfl
  | ok a => cases expandEntries r p es <;> rfl

theorem permRes_path (r : Registry C) (p : Path) (x : Node C) : PermRes (expandPath r p x) (expandPath r p x) := by
  rcases expandPath_ok r p x with ⟨f, h, -⟩ | ⟨h, -⟩
  · exact .inr ⟨f, f, h, h, .refl _⟩
  · exact .inl ⟨h, h⟩

theorem permRes_entries (r : Registry C) (p : Path) (es : List (Str × Node C)) : PermRes (expandEntries r p es) (expandEntries r p es) := by
  rcases expandEntries_ok r p es with ⟨f, h, -⟩ | ⟨h, -⟩
  · exact .inr ⟨f, f, h, h, .refl _⟩
  · exact .inl ⟨h, h⟩

theorem permRes_order (r : Registry C) (p : Path) {es es' : List (Str × Node C)} (h : es.Perm es') :
    PermRes (expandEntries r p es) (expandEntries r p es') := by
  induction h with
  | nil => exact permRes_entries r p []
  | cons e _ ih => rw [expandEntries_cons, expandEntries_cons]; exact (permRes_path r _ _).both ih
  | swap a b l =>
    simp only [expandEntries_cons]
    exact PermRes.swap (permRes_path r _ _) (permRes_path r _ _) (permRes_entries r p l)
  | trans _ _ h1 h2 => exact h1.trans h2

theorem permRes_tree (r : Registry C) {x y : Node C} (h : SameTree x y) : ∀ p, PermRes (expandPath r p x) (expandPath r p y) := by
  induction h with
  | refl => exact fun p => permRes_path r p _
  | trans _ _ h1 h2 => exact fun p => (h1 p).trans (h2 p)
  | order hp => intro p; simp only [expandPath]; exact permRes_order r p hp
  | @inside before after n x y _ ih =>
    intro p
    simp only [expandPath]
    induction before with
    | nil => simp only [List.nil_append, expandEntries_cons]; exact (ih _).both (permRes_entries r p _)
    | cons e es ih' => simp only [List.cons_append, expandEntries_cons]; exact (permRes_path r _ _).both ih'

theorem expandAll_both (r : Registry C) (fs : Path → Node C) (p : Path) (ps : List Path) :
    expandAll r fs (p :: ps) = both (expandPath r p (fs p)) (expandAll r fs ps) := by
  rw [expandAll_cons]
  cases expandPath r p (fs p) with
  | error e => rfl
  | ok a => cases expandAll r fs ps <;> rfl

theorem permRes_all (r : Registry C) (fs : Path → Node C) (ps : List Path) : PermRes (expandAll r fs ps) (expandAll r fs ps) := by
  rcases expandAll_ok r fs ps with ⟨f, h, -⟩ | ⟨h, -⟩
  · exact .inr ⟨f, f, h, h, .refl _⟩
  · exact .inl ⟨h, h⟩

theorem permRes_paths (r : Registry C) (fs : Path → Node C) {ps ps' : List Path} (h : ps.Perm ps') :
    PermRes (expandAll r fs ps) (expandAll r fs ps') := by
  induction h with
  | nil => exact permRes_all r fs []
  | cons e _ ih => rw [expandAll_both, expandAll_both]; exact (permRes_path r _ _).both ih
  | swap a b l =>
    simp only [expandAll_both]
    exact PermRes.swap (permRes_path r _ _) (permRes_path r _ _) (permRes_all r fs l)
  | trans _ _ h1 h2 => exact h1.trans h2

theorem permRes_trees (r : Registry C) (fs fs' : Path → Node C) (ps : List Path) (h : ∀ p ∈ ps, SameTree (fs p) (fs' p)) :
    PermRes (expandAll r fs ps) (expandAll r fs' ps) := by
  induction ps with
  | nil => exact .inr ⟨[], [], rfl, rfl, .refl _⟩
  | cons p ps ih =>
    rw [expandAll_both, expandAll_both]
    exact (permRes_tree r (h p (by simp)) p).both (ih fun q hq => h q (by simp [hq]))

theorem allRead_perm {r : Registry C} {files files' : List (Path × Option C)} (hp : files.Perm files') :
    ∀ {ms : List Model}, AllRead r files ms → ∃ ms', AllRead r files' ms' ∧ ms.Perm ms' := by
  unfold AllRead
  induction hp with
  | nil => intro ms h; exact ⟨ms, h, .refl _⟩
  | cons f _ ih =>
    intro ms h
    cases h with
    | cons h1 h2 =>
      obtain ⟨ms', h3, h4⟩ := ih h2
      exact ⟨_, .cons h1 h3, h4.cons _⟩
  | swap a b l =>
    intro ms h
    cases h with
    | cons h1 h2 => cases h2 with
      | cons h3 h4 => exact ⟨_, .cons h3 (.cons h1 h4), .swap _ _ _⟩
  | trans _ _ i1 i2 =>
    intro ms h
    obtain ⟨m1, h1, h2⟩ := i1 h
    obtain ⟨m2, h3, h4⟩ := i2 h1
    exact ⟨m2, h3, h2.trans h4⟩

/-- C98: assembling the same paths, enumerated in any order, from the same files, with directories listed in any order, succeeds
both times or neither time, and gives the same model but for the order of elements of arrays. (`hlegal`: no model read has a trait
applied under the id of a member.) -/
theorem C98_assembly (a a' : Assembler C) (fs fs' : Path → Node C) (hr : GoodReaders a.fileTypes)
    (hlegal : ∀ p ∈ a.paths, ∀ q c ft m, Under (fs p) p q (some c) → TypeOf a.fileTypes q ft → ft.reader c = .ok m → LegalModel m)
    (htypes : a'.fileTypes = a.fileTypes) (hpaths : a.paths.Perm a'.paths) (htree : ∀ p ∈ a.paths, SameTree (fs p) (fs' p)) :
    ((∃ m, tryFrom a fs = .ok m) ↔ ∃ m, tryFrom a' fs' = .ok m) ∧
    ∀ m m', tryFrom a fs = .ok m → tryFrom a' fs' = .ok m' → SameButOrder m m' := by
  have hres : PermRes (expandAll a.fileTypes fs a.paths) (expandAll a.fileTypes fs' a'.paths) :=
    (permRes_trees _ fs fs' _ htree).trans (permRes_paths _ fs' hpaths)
  have hempty : a.isEmpty = a'.isEmpty := by
    unfold Assembler.isEmpty
    have := hpaths.length_eq
    cases h : a.paths <;> cases h' : a'.paths <;> simp [h, h'] at this ⊢
  have hpanic : ∀ (b : Assembler C) (gs : Path → Node C), expandAll b.fileTypes gs b.paths = .error .panic → tryFrom b gs = .error .panic := by
    intro b gs h
    have : b.isEmpty = false := by
      cases hp : b.paths with
      | nil => rw [hp] at h; cases h
      | cons => simp [Assembler.isEmpty, hp]
    unfold tryFrom
    rw [if_neg (by simp [this]), h]; rfl
  have hlist : ∀ (b : Assembler C) (gs : Path → Node C) f, expandAll b.fileTypes gs b.paths = .ok f → ∀ p ∈ b.paths, ¬ Unlistable (gs p) := by
    intro b gs f h p hp
    rcases expandAll_ok b.fileTypes gs b.paths with ⟨_, _, h1⟩ | ⟨h1, -⟩
    · exact h1 p hp
    · rw [h] at h1; cases h1
  have hread : ∀ files ms, (∀ q c, (q, c) ∈ files → ∃ p ∈ a.paths, Under (fs p) p q c) → AllRead a.fileTypes files ms →
      ∀ m ∈ ms, WfModel m ∧ LegalModel m := by
    intro files ms hin h
    induction h with
    | nil => simp
    | @cons f m fs ms h1 _ ih =>
      intro x hx
      rcases List.mem_cons.mp hx with rfl | hx
      · obtain ⟨ft, hft, hc⟩ := h1
        obtain ⟨ext, -, hg⟩ := typeOf_ext hft
        rcases hc with ⟨c, hfc, hc⟩ | ⟨-, hc⟩
        · obtain ⟨p, hp, hu⟩ := hin f.1 f.2 (by simp)
          rw [hfc] at hu
          exact ⟨hr ext ft hg c _ hc.symm, hlegal p hp f.1 c ft _ hu hft hc.symm⟩
        · cases hc
      · exact ih (fun q c h => hin q c (by simp [h])) x hx
  rcases hres with ⟨h1, h2⟩ | ⟨f, f', h1, h2, hperm⟩
  · have e1 := hpanic a fs h1
    have e2 := hpanic a' fs' (by rw [htypes]; exact h2)
    rw [e1, e2]
    exact ⟨⟨fun ⟨m, h⟩ => (by cases h), fun ⟨m, h⟩ => (by cases h)⟩, fun m m' h => (by cases h)⟩
  · have h2' : expandAll a'.fileTypes fs' a'.paths = .ok f' := by rw [htypes]; exact h2
    obtain ⟨g, hg, hmem, hok, -⟩ := assembly_files a fs hr (hlist a fs f h1)
    obtain ⟨g', hg', -, hok', -⟩ := assembly_files a' fs' (by rw [htypes]; exact hr) (hlist a' fs' f' h2')
    rw [h1] at hg; injection hg with hg; subst hg
    rw [h2'] at hg'; injection hg' with hg'; subst hg'
    rw [htypes] at hok'
    have hin : ∀ q c, (q, c) ∈ f → ∃ p ∈ a.paths, Under (fs p) p q c := fun q c h => ((hmem q c).mp h).1
    have hin' : ∀ q c, (q, c) ∈ f' → ∃ p ∈ a.paths, Under (fs p) p q c := fun q c h => hin q c (hperm.mem_iff.mpr h)
    have unread : ∀ {files ms ms'}, AllRead a.fileTypes files ms → AllRead a.fileTypes files ms' → ms = ms' := by
      intro files ms ms' h h'
      induction h generalizing ms' with
      | nil => cases h'; rfl
      | cons h1 _ ih =>
        cases h' with
        | cons h2 h3 =>
          rw [ih h3]
          congr 1
          obtain ⟨ft, t1, c1⟩ := h1
          obtain ⟨ft', t2, c2⟩ := h2
          obtain ⟨ext, e1, g1⟩ := typeOf_ext t1
          obtain ⟨ext', e2, g2⟩ := typeOf_ext t2
          rw [e1] at e2; injection e2 with e2; subst e2
          rw [g1] at g2; injection g2 with g2; subst g2
          rcases c1 with ⟨c, k1, k2⟩ | ⟨-, k2⟩
          · rcases c2 with ⟨d, k3, k4⟩ | ⟨-, k4⟩
            · rw [k1] at k3; injection k3 with k3; subst k3
              rw [← k2] at k4; injection k4 with k4; exact k4.symm
            · cases k4
          · cases k2
    refine ⟨?_, fun m m' hm hm' => ?_⟩
    · constructor
      · rintro ⟨m, hm⟩
        obtain ⟨ms, h3, h4⟩ := (hok m).mp hm
        obtain ⟨ms', h5, h6⟩ := allRead_perm hperm h3
        have := (C98_any_order .v10 ms ms' h6 (fun x h => (hread _ _ hin h3 x h).1) (fun x h => (hread _ _ hin h3 x h).2)).1.mp ⟨m, h4⟩
        obtain ⟨m', h7⟩ := this
        exact ⟨m', (hok' m').mpr ⟨ms', h5, h7⟩⟩
      · rintro ⟨m, hm⟩
        obtain ⟨ms, h3, h4⟩ := (hok' m).mp hm
        obtain ⟨ms', h5, h6⟩ := allRead_perm hperm.symm h3
        have := (C98_any_order .v10 ms ms' h6 (fun x h => (hread _ _ hin' h3 x h).1) (fun x h => (hread _ _ hin' h3 x h).2)).1.mp ⟨m, h4⟩
        obtain ⟨m', h7⟩ := this
        exact ⟨m', (hok m').mpr ⟨ms', h5, h7⟩⟩
    · obtain ⟨ms, h3, h4⟩ := (hok m).mp hm
      obtain ⟨ms', h5, h6⟩ := (hok' m').mp hm'
      obtain ⟨ms2, h7, h8⟩ := allRead_perm hperm h3
      rw [unread h7 h5] at h8
      exact (C98_any_order .v10 ms ms' h8 (fun x h => (hread _ _ hin h3 x h).1) (fun x h => (hread _ _ hin h3 x h).2)).2 m m' h4 h6

/-! ### The hypotheses are met -/

def exJTags : ShapeID := ⟨preludeNs, %s"tags", none⟩

/-- A model that only names `T`, one that defines it, and one that tags it. -/
def exJ1 : Model := ⟨.v10, [(%s"k", .array [.boolean true])],
  [(sid (%s"S"), exStruct (%s"S") [(%s"a", sid (%s"T"))]), (sid (%s"T"), ⟨sid (%s"T"), [], .unresolved⟩)]⟩
def exJ2 : Model := ⟨.v10, [(%s"k", .array [.boolean false])],
  [(sid (%s"T"), ⟨sid (%s"T"), [(exJTags, some (.array [.string (%s"x")]))], .simple .string⟩)]⟩
def exJ3 : Model := ⟨.v10, [], [(sid (%s"T"), ⟨sid (%s"T"), [(exJTags, some (.array [.string (%s"y")]))], .unresolved⟩)]⟩

/-- A trait applied under the id of a member (which `add_shape` does not look at in a shape that is new). -/
def exIllegal : Model := ⟨.v10, [], [(sid (%s"T"), ⟨sid (%s"T"), [(⟨%s"ex", %s"t", some (%s"m")⟩, none)], .simple .string⟩)]⟩

theorem wfTraits_one (t : ShapeID) (v : TraitValue) (h : ∀ w, v = some w → w.Wf) : WfTraits [(t, v)] := by
  refine ⟨by unfold AMap.Wf AMap.keys; simp, fun id w hw => ?_⟩
  rw [AMap.get_cons] at hw
  split at hw
  · injection hw with hw; exact h w hw
  · cases hw

theorem wfString (s : Str) : (Value.array [.string s]).Wf := .array fun v h => by
  rw [List.mem_singleton.mp h]; exact .string

theorem wfBool (b : Bool) : (Value.array [.boolean b]).Wf := .array fun v h => by
  rw [List.mem_singleton.mp h]; exact .boolean

theorem wfTags (s : Str) : WfTraits [(exJTags, some (.array [.string s]))] :=
  wfTraits_one _ _ fun w h => by injection h with h; rw [← h]; exact wfString s

theorem exJ1_wf : WfModel exJ1 := by
  have h : exJ1 = (((((Model.new .v10).addMetadata (%s"k") (.array [.boolean true])).1.addShape
      (exStruct (%s"S") [(%s"a", sid (%s"T"))])).1).addShape ⟨sid (%s"T"), [], .unresolved⟩).1 := rfl
  rw [h]
  exact (Reachable.addShape (exModel_wf.shapes (sid (%s"T")) _ rfl)
    (.addShape (exModel_wf.shapes (sid (%s"S")) _ rfl) (.addMetadata _ (wfBool true) (.new .v10)))).wf

theorem exJ2_wf : WfModel exJ2 := by
  have h : exJ2 = ((((Model.new .v10).addMetadata (%s"k") (.array [.boolean false])).1.addShape
      ⟨sid (%s"T"), [(exJTags, some (.array [.string (%s"x")]))], .simple .string⟩).1) := rfl
  rw [h]
  exact (Reachable.addShape (s := ⟨_, _, .simple .string⟩) ⟨wfTags _, trivial⟩ (.addMetadata _ (wfBool false) (.new .v10))).wf

theorem exJ3_wf : WfModel exJ3 := by
  have h : exJ3 = ((Model.new .v10).addShape ⟨sid (%s"T"), [(exJTags, some (.array [.string (%s"y")]))], .unresolved⟩).1 := rfl
  rw [h]
  exact (Reachable.addShape (s := ⟨_, _, .unresolved⟩) ⟨wfTags _, trivial⟩ (.new .v10)).wf

theorem exIllegal_wf : WfModel exIllegal := by
  have h : exIllegal = ((Model.new .v10).addShape ⟨sid (%s"T"), [(⟨%s"ex", %s"t", some (%s"m")⟩, none)], .simple .string⟩).1 := rfl
  rw [h]
  exact (Reachable.addShape (s := ⟨_, _, .simple .string⟩) ⟨wfTraits_one _ _ (fun w h => by cases h), trivial⟩ (.new .v10)).wf

/-- A model whose shapes have no traits, or only tags, is legal. -/
theorem legal_of_entries {m : Model} (h : ∀ e ∈ m.shapes, ∀ t ∈ e.2.traits, t.1.isMember = false) : LegalModel m := by
  intro id s hs t v hv
  exact h (id, s) (AMap.mem_of_get hs) (t, v) (AMap.mem_of_get hv)

theorem exJ_wf : ∀ m ∈ [exJ1, exJ2, exJ3], WfModel m := by
  intro m hm
  simp only [List.mem_cons, List.not_mem_nil, or_false] at hm
  rcases hm with rfl | rfl | rfl
  exacts [exJ1_wf, exJ2_wf, exJ3_wf]

theorem exJ_legal : ∀ m ∈ [exJ1, exJ2, exJ3], LegalModel m := by
  intro m hm
  simp only [List.mem_cons, List.not_mem_nil, or_false] at hm
  rcases hm with rfl | rfl | rfl
  all_goals exact legal_of_entries (by decide)

/-- The three models together: `T` is defined, has both tags, and the key has both elements. -/
def exJoined : Model := ⟨.v10, [(%s"k", .array [.boolean true, .boolean false])],
  [(sid (%s"S"), exStruct (%s"S") [(%s"a", sid (%s"T"))]),
   (sid (%s"T"), ⟨sid (%s"T"), [(exJTags, some (.array [.string (%s"x"), .string (%s"y")]))], .simple .string⟩)]⟩

theorem exJ_merges : MergesTo (Model.new .v10) [exJ1, exJ2, exJ3] exJoined :=
  .step (m' := exJ1) rfl (.step rfl (.step rfl .done))

/-- The hypotheses of `C97_merge_all` are met; what it says of these models. -/
example : Compatible .v10 [exJ1, exJ2, exJ3] ∧ Joins [exJ1, exJ2, exJ3] exJoined :=
  ⟨(C97_merge_all_iff .v10 _ exJ_wf).mp ⟨_, exJ_merges⟩, (C97_merge_all .v10 _ exJ_wf _ exJ_merges).2⟩

/-- Models that are not compatible. -/
example : ¬ Compatible .v10 [exModel, ⟨.v10, [(%s"k", .boolean true)], []⟩, exRight, exMeta, ⟨.v10, [(%s"k", .boolean false)], []⟩] := by
  intro h
  obtain ⟨o, ho⟩ := h.metadata (%s"k")
  have : (([exModel, ⟨.v10, [(%s"k", .boolean true)], []⟩, exRight, exMeta, ⟨.v10, [(%s"k", .boolean false)], []⟩] : List Model).filterMap
      fun x => x.metadataValue (%s"k")) = [.boolean true, .boolean true, .boolean false] := rfl
  rw [this] at ho
  obtain ⟨z, h1, h2⟩ := (joined_step _ _ _ _).mp ho
  cases h1 with
  | equal _ _ =>
    obtain ⟨z, h1, -⟩ := (joined_step _ _ _ _).mp h2
    cases h1 with
    | equal _ h => cases h

/-- C98: the order does show in arrays: the results need not be the same. -/
theorem C98_arrays_in_order : ∃ (ms ms' : List Model) (r r' : Model), ms.Perm ms' ∧ (∀ m ∈ ms, WfModel m) ∧ (∀ m ∈ ms, LegalModel m) ∧
    MergesTo (Model.new .v10) ms r ∧ MergesTo (Model.new .v10) ms' r' ∧ ¬ Alike r r' := by
  refine ⟨[exJ1, exJ2, exJ3], [exJ1, exJ3, exJ2], exJoined,
    ⟨.v10, [(%s"k", .array [.boolean true, .boolean false])], [(sid (%s"S"), exStruct (%s"S") [(%s"a", sid (%s"T"))]),
     (sid (%s"T"), ⟨sid (%s"T"), [(exJTags, some (.array [.string (%s"y"), .string (%s"x")]))], .simple .string⟩)]⟩,
    .cons _ (.swap _ _ _), exJ_wf, exJ_legal, exJ_merges, .step (m' := exJ1) rfl (.step rfl (.step rfl .done)), fun h => ?_⟩
  have := h.traitAt (sid (%s"T")) exJTags
  injection this with this
  injection this with this
  injection this with this
  injection this with this
  injection this with this
  exact absurd this (by decide)

/-- C98: if a model has a trait applied under the id of a member, the order may decide whether the models can be merged. -/
theorem C98_member_trait_order : ∃ (ms ms' : List Model), ms.Perm ms' ∧ (∀ m ∈ ms, WfModel m) ∧
    (∃ r, MergesTo (Model.new .v10) ms r) ∧ ¬ ∃ r, MergesTo (Model.new .v10) ms' r := by
  refine ⟨[exIllegal, exJ3], [exJ3, exIllegal], .swap _ _ _, ?_, ⟨_, .step rfl (.step rfl .done)⟩, ?_⟩
  · intro m hm
    simp only [List.mem_cons, List.not_mem_nil, or_false] at hm
    rcases hm with rfl | rfl
    exacts [exIllegal_wf, exJ3_wf]
  · rintro ⟨r, h⟩
    obtain ⟨h1, h2⟩ := mergesTo_cons.mp h
    obtain ⟨h3, -⟩ := mergesTo_cons.mp h2
    have : ((((Model.new .v10).merge exJ3).1).merge exIllegal).2 ≠ .ok () := by
      intro h; cases h
    exact this h3

/-- The hypotheses of `C99_grouping` are met. -/
example : ∃ x y, MergesTo (Model.new .v10) [exJ1] x ∧ MergesTo (Model.new .v10) [exJ2, exJ3] y ∧
    (x.merge y).2 = .ok () ∧ Alike exJoined (x.merge y).1 :=
  (C99_grouping .v10 [exJ1] [exJ2, exJ3] exJ_wf exJ_legal).1 _ exJ_merges

/-- The hypotheses of `C98_assembly` are met: a directory listed in another order. -/
def exFs' : Path → Node Str := fun p =>
  if p = [%s"d"] then
    .dir (some [(%s"sub", .dir (some [(%s"b.v2.JSON", .file (some %s"x"))])), (%s"c.txt", .file none), (%s"a.json", .file (some %s"x"))])
  else if p = [%s"e.json"] then .file none
  else if p = [%s"f"] then .dir (some [(%s"g", .dir none)])
  else .other

example : (∃ m, tryFrom ⟨exRegistry, [[%s"d"], [%s"q"]]⟩ exFs = .ok m) ∧
    ∀ m m', tryFrom ⟨exRegistry, [[%s"d"], [%s"q"]]⟩ exFs = .ok m → tryFrom ⟨exRegistry, [[%s"q"], [%s"d"]]⟩ exFs' = .ok m' → SameButOrder m m' := by
  refine ⟨⟨_, rfl⟩, (C98_assembly ⟨exRegistry, [[%s"d"], [%s"q"]]⟩ ⟨exRegistry, [[%s"q"], [%s"d"]]⟩ exFs exFs' exRegistry_good ?_ rfl
    (.swap _ _ _) ?_).2⟩
  · intro p _ q c ft m _ ht hm
    obtain ⟨ext, -, hg⟩ := typeOf_ext ht
    have : m = exModel := exRegistry_reads ext ft hg c m hm
    rw [this]
    exact legal_of_entries (by decide)
  · intro p hp
    simp only [List.mem_cons, List.not_mem_nil, or_false] at hp
    rcases hp with rfl | rfl
    · exact .order (List.perm_append_comm (l₁ := [_]) (l₂ := [_, _]))
    · exact .refl

end Verif
