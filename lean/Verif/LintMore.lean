/-
C48, continued: what the issues of the terms linter are in full, with the name of the linter and the place.
-/
import Verif.LintProps

namespace Verif
namespace Spec

/-- The identifier occurs in the model at this id: in the id of a shape, of an applied trait or of the target of a member, or as the name
of a member of the shape. -/
inductive MentionsAt (m : Model) : ShapeID → Str → Prop
  | shape {id s p} : m.shape id = some s → PartOf id p → MentionsAt m id p
  | applied {id s t v p} : m.shape id = some s → s.traits.get t = some v → PartOf t p → MentionsAt m t p
  | member {id s} {ms : AMap Str MemberShape} {n mem} : m.shape id = some s → s.body = .struct ms ∨ s.body = .union ms → ms.get n = some mem →
      MentionsAt m id mem.id
  | target {id s} {ms : AMap Str MemberShape} {n mem p} : m.shape id = some s → s.body = .struct ms ∨ s.body = .union ms → ms.get n = some mem →
      PartOf mem.target p → MentionsAt m mem.target p
  | memberTrait {id s} {ms : AMap Str MemberShape} {n mem t v p} : m.shape id = some s → s.body = .struct ms ∨ s.body = .union ms →
      ms.get n = some mem → mem.traits.get t = some v → PartOf t p → MentionsAt m t p

end Spec

open Spec Terms

theorem visitsId_at {id : ShapeID} {e : ShapeID × Str} (h : e ∈ visitsId id) : e.1 = id ∧ PartOf id e.2 := by
  refine ⟨?_, mem_visitsId.mp ⟨e, h, rfl⟩⟩
  simp only [visitsId, List.mem_map] at h
  obtain ⟨q, -, rfl⟩ := h; rfl

theorem keysVisits_at {ts : Traits} {e : ShapeID × Str} (h : e ∈ (AMap.keys ts).flatMap visitsId) :
    ∃ v, ts.get e.1 = some v ∧ PartOf e.1 e.2 := by
  obtain ⟨t, ht, he⟩ := List.mem_flatMap.mp h
  obtain ⟨v, hv⟩ := Option.isSome_iff_exists.mp ((AMap.mem_keys_iff _ _).mp ht)
  obtain ⟨h1, h2⟩ := visitsId_at he
  rw [h1]; exact ⟨v, hv, h2⟩

theorem visits_at {m : Model} (hm : WfModel m) {e : ShapeID × Str} (he : e ∈ visits m) : MentionsAt m e.1 e.2 := by
  obtain ⟨s, hs, he⟩ := List.mem_flatMap.mp he
  have hg := (mem_shapesList hm _).mp hs
  have here : ∀ {e : ShapeID × Str}, e ∈ visitsId s.id → MentionsAt m e.1 e.2 := fun h => by
    obtain ⟨h1, h2⟩ := visitsId_at h
    rw [h1]; exact .shape hg h2
  simp only [visitsShape, List.mem_append] at he
  rcases he with (he | he) | he
  · exact here he
  · obtain ⟨v, hv, hp⟩ := keysVisits_at he; exact .applied hg hv hp
  · have hmem : ∀ ms : AMap Str MemberShape, AMap.Wf ms → (s.body = .struct ms ∨ s.body = .union ms) →
        e ∈ visitsId s.id ++ (AMap.values ms).flatMap (visitsMember s.id) → MentionsAt m e.1 e.2 := by
      intro ms hw hb he
      rcases List.mem_append.mp he with he | he
      · exact here he
      · obtain ⟨mem, hmem, he⟩ := List.mem_flatMap.mp he
        obtain ⟨⟨n, mem'⟩, hin, rfl⟩ := List.mem_map.mp hmem
        have hget := (AMap.mem_iff_get hw _ _).mp hin
        simp only [visitsMember, List.mem_cons, List.mem_append] at he
        rcases he with rfl | he | he
        · exact .member hg hb hget
        · obtain ⟨h1, h2⟩ := visitsId_at he
          rw [h1]; exact .target hg hb hget h2
        · obtain ⟨v, hv, hp⟩ := keysVisits_at he
          exact .memberTrait hg hb hget hv hp
    have hws := (hm.shapes _ _ hg).2
    split at he
    · next hb => rw [hb] at hws; exact hmem _ hws.nodup (.inl hb) (List.mem_append.mpr (List.mem_append.mp he))
    · next hb => rw [hb] at hws; exact hmem _ hws.nodup (.inr hb) (List.mem_append.mpr (List.mem_append.mp he))
    · cases he

/-- An identifier occurs in the model exactly when it occurs somewhere. -/
theorem mentionsWord_iff {m : Model} (hm : WfModel m) {p : Str} : MentionsWord m p ↔ ∃ l, MentionsAt m l p := by
  constructor
  · intro h
    obtain ⟨e, he, rfl⟩ := (mem_visits hm).mpr h
    exact ⟨e.1, visits_at hm he⟩
  · rintro ⟨l, h⟩
    cases h with
    | shape a b => exact .shape a b
    | applied a b c => exact .applied a b c
    | member a b c => exact .member a b c
    | target a b c d => exact .target a b c d
    | memberTrait a b c d e => exact .memberTrait a b c d e

theorem reports_mem (h : Heck) (l : List (ShapeID × Str)) (c : List Str) (i : Issue) (hi : i ∈ reports h c l) :
    ∃ e ∈ l, e.2 ∉ c ∧ i ∈ report h e := by
  induction l generalizing c with
  | nil => cases hi
  | cons e l ih =>
    rw [reports] at hi
    split at hi
    · obtain ⟨x, hx, h1, h2⟩ := ih _ hi; exact ⟨x, List.mem_cons_of_mem _ hx, h1, h2⟩
    · next hc =>
      rcases List.mem_append.mp hi with hi | hi
      · exact ⟨e, List.mem_cons_self, by simpa using hc, hi⟩
      · obtain ⟨x, hx, h1, h2⟩ := ih _ hi
        exact ⟨x, List.mem_cons_of_mem _ hx, fun hm => h1 (List.mem_cons_of_mem _ hm), h2⟩

/-- C48: each new issue names the linter, is a warning, tells an unwelcome word of an identifier not checked before, and is
attached to an id at which that identifier occurs (which of them, depends on the order of the shapes: `C48_locus_depends_on_order`). -/
theorem C48_issues (h : Heck) (m : Model) (hm : WfModel m) (st : State) : ∃ new, (check h m st).issues = st.issues ++ new ∧
    ∀ i ∈ new, ∃ locus p w, MentionsAt m locus p ∧ p ∉ st.checked ∧ w ∈ splitOn '_' (h.snake p) ∧ Unwelcome w ∧
      i = ⟨%s"UnwelcomeTerms", .warning, termMessage w, some locus⟩ := by
  refine ⟨reports h st.checked (visits m), by rw [check_eq, steps_issues], fun i hi => ?_⟩
  obtain ⟨e, he, hn, hr⟩ := reports_mem h _ _ i hi
  simp only [report, List.mem_map, List.mem_filter] at hr
  obtain ⟨w, ⟨hw, hu⟩, rfl⟩ := hr
  exact ⟨e.1, e.2, w, visits_at hm he, hn, hw, (unwelcome_iff w).mp hu, rfl⟩

end Verif
