/-
C103, for JSON: writing and reading again changes nothing any more, once a model was read.
-/
import Verif.JsonProps

namespace Verif
open Spec

/-- In a model that was read from JSON, every trait has a value, and the members of lists, sets and maps are named `member`. -/
theorem read_roundTrips {j : Json} {m : Model} (hj : WfJson j) (h : JsonReader.model j = .ok m) : RoundTrips m := by
  obtain ⟨o, rfl, ho, _, h1, h2, h3, h4, h5, _⟩ := model_parts hj h
  exact fun id s hs => (h4 id s hs).2.stays

/-- C103: whatever JSON document a model was read from, the model can be written as JSON, and what is read from that is the same
model, which is `==` to the first. -/
theorem C103_json (j : Json) (m : Model) (hj : WfJson j) (h : JsonReader.model j = .ok m) :
    ∃ j' m', JsonWriter.modelToJson m = .ok j' ∧ JsonReader.model j' = .ok m' ∧ SameModel m m' ∧ m.meq m' = true := by
  obtain ⟨hw, hv, hf⟩ := C30_read_model_wf j m hj h
  exact C30_round_trip m hw hv hf (read_roundTrips hj h)

/-- C103: every valid model without NaNs and infinities can be written as JSON and read again any number of times: what is read the
first time (`C30_round_trip_changes` says how it differs from the original) is read every time. -/
theorem C103_json_again (m : Model) (hw : WfModel m) (hv : ValidModel m) (hf : FiniteModel m) (trips : Nat → Model)
    (h0 : trips 0 = m) (ht : ∀ n j, JsonWriter.modelToJson (trips n) = .ok j → JsonReader.model j = .ok (trips (n + 1))) :
    ∀ n, (∃ j, JsonWriter.modelToJson (trips n) = .ok j ∧ JsonReader.model j = .ok (trips (n + 1))) ∧ SameModel (trips 1) (trips (n + 1)) := by
  have hstep : ∀ n, WfModel (trips n) ∧ ValidModel (trips n) ∧ FiniteModel (trips n) ∧ SameModel (jsonNormal (trips n)) (trips (n + 1)) ∧
      RoundTrips (trips (n + 1)) := by
    have one : ∀ n, WfModel (trips n) → ValidModel (trips n) → FiniteModel (trips n) →
        SameModel (jsonNormal (trips n)) (trips (n + 1)) ∧ RoundTrips (trips (n + 1)) ∧
          (WfModel (trips (n + 1)) ∧ ValidModel (trips (n + 1)) ∧ FiniteModel (trips (n + 1))) := by
      intro n a b c
      obtain ⟨j, m', h1, h2, h3⟩ := C30_round_trip_changes (trips n) a b c
      have h4 := ht n j h1
      rw [h2] at h4
      cases h4
      have hj := modelToJson_wf a h1
      exact ⟨h3, read_roundTrips hj h2, C30_read_model_wf j _ hj h2⟩
    intro n
    induction n with
    | zero =>
      rw [← h0] at hw hv hf
      exact ⟨hw, hv, hf, (one 0 hw hv hf).1, (one 0 hw hv hf).2.1⟩
    | succ n ih =>
      obtain ⟨a, b, c, -, -⟩ := ih
      obtain ⟨-, -, a', b', c'⟩ := one n a b c
      exact ⟨a', b', c', (one (n + 1) a' b' c').1, (one (n + 1) a' b' c').2.1⟩
  intro n
  refine ⟨?_, ?_⟩
  · obtain ⟨a, b, c, -, -⟩ := hstep n
    obtain ⟨j, m', h1, -, -⟩ := C30_round_trip_changes (trips n) a b c
    exact ⟨j, h1, ht n j h1⟩
  induction n with
  | zero => exact SameModel.trans (SameModel.symm (jsonNormal_same (hstep 0).2.2.2.2)) (jsonNormal_same (hstep 0).2.2.2.2)
  | succ n ih =>
    exact SameModel.trans ih (SameModel.trans (SameModel.symm (jsonNormal_same (hstep n).2.2.2.2)) (hstep (n + 1)).2.2.2.1)

/-- A model that the first trip changes (its map has members that are not named `member`) and a document. -/
example : WfModel exJsonMap ∧ ValidModel exJsonMap ∧ FiniteModel exJsonMap := exJsonMap_ok

example : ∃ m, JsonReader.model exDoc = .ok m ∧ m.shapes ≠ [] := ⟨_, rfl, fun h => nomatch h⟩

end Verif
