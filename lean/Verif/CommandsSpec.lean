/-
What the command line program must do.
-/
import Verif.Commands
import Verif.ActionsSpec
import Verif.AssemblerSpec
import Verif.PlantUmlSpec
import Verif.JsonSpec

namespace Verif.Spec.Cli
open Verif.Cli
variable {C F : Type}

/-- The command is told to put its output into the file. -/
inductive OutputTo (p : Path) : Command F → Prop
  | convert {files format ns sp} : OutputTo p (.convert files (some p) format ns sp)
  | document {files format sp} : OutputTo p (.document files (some p) format sp)

/-- The other crates write some text for every JSON value and every document, and the set of paths is enumerated in some order. -/
structure Sensible (o : Outside C F) : Prop where
  json : ∀ j, o.prettyJson j ≠ []
  document : ∀ f d, o.render f d ≠ []
  order : ∀ l, (o.order l).Perm l

/-- The path of a file with this extension. -/
def HasType (p : Path) (ext : Str) : Prop := ∃ dir name, p = dir ++ [name] ∧ HasExtension name ext

/-- The validator has something to say about the model. -/
inductive Validation (m : Model) : Issue → Prop
  | unresolved {id s} : m.shape id = some s → s.body = .unresolved → Validation m
      ⟨%s"NoUnresolvedReferences", .error, %s"The model has an unresolved reference to shape '" ++ id.display ++ %s"'", none⟩
  | reference {id s i} : m.shape id = some s → IssueFor m s i → Validation m i

/-- There is nothing to say about the model: it has no placeholders, all its references are to shapes of the right kind in the model or to the
prelude, and its simple shapes have traits. -/
def Impeccable (m : Model) : Prop :=
  ∀ id s, m.shape id = some s → s.body ≠ .unresolved ∧ (∀ place role t, Refers s place role t → ¬ WrongKind m role t ∧ ¬ Dangling m t) ∧
    ∀ t, s.body = .simple t → s.traits ≠ []

/-- Issues whose texts are on one line, with reporters of one word, and about valid ids. -/
def OneLine (i : Issue) : Prop := '\n' ∉ i.message ∧ ' ' ∉ i.reporter ∧ '\n' ∉ i.reporter ∧ ∀ id, i.locus = some id → id.Valid

end Verif.Spec.Cli
