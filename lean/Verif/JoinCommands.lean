/-
Property theorem C98 on the commands (atelier-assembler/src/main.rs, `command_line.rs`): the files given may be given in any order.
-/
import Verif.JoinAssembly
import Verif.CommandsMore

namespace Verif
open Spec Assembler
variable {C F : Type}

theorem registry_legal (o : Cli.Outside C F) (ho : Cli.ReadsWell o) (ext : Str) (ft : FileType C) (h : (Cli.registry o).get ext = some ft)
    (c : C) (m : Model) (hm : ft.reader c = .ok m) : LegalModel m := by
  rcases (Cli.registry_get o ext ft).mp h with ⟨-, rfl⟩ | ⟨-, rfl⟩
  · simp only [Cli.jsonReader] at hm
    split at hm
    · cases hm
    · rename_i j hj
      have := (C30_read_model_wf j m (ho.json c j hj) hm).2.1
      intro id s hs t v hv
      have := ((this id s hs).2.1 t v hv).2
      simp [ShapeID.isMember, this]
  · simp only [Cli.smithyReader] at hm
    split at hm
    · cases hm
    · intro id s hs t v hv
      have := (((C52_read_models o.flt o.enum ho.enum _ m hm).2 id s hs).traits t v hv).1
      simp [ShapeID.isMember, this.2]

/-- C98: commands work on the same model, but for the order of the elements of arrays, when the same files and directories are given
in another order, more than once, or in the search path instead; when the set of paths is enumerated in another order; and when
directories are listed in another order; and they fail to read a model for both or for neither. -/
theorem C98_commands (o o' : Cli.Outside C F) (ho : Cli.ReadsWell o) (ho' : Cli.ReadsWell o') (fs fs' : Path → Node C) (files files' : List Path)
    (sp sp' : Option (List Path)) (hsame : Cli.registry o' = Cli.registry o) (hgiven : ∀ p, Cli.Given files sp p ↔ Cli.Given files' sp' p)
    (htree : ∀ p, Cli.Given files sp p → SameTree (fs p) (fs' p)) :
    ((∃ m, Cli.assembleModel o fs files sp = .ok m) ↔ ∃ m, Cli.assembleModel o' fs' files' sp' = .ok m) ∧
    ∀ m m', Cli.assembleModel o fs files sp = .ok m → Cli.assembleModel o' fs' files' sp' = .ok m' → SameButOrder m m' := by
  obtain ⟨ps, hn, hp, ha⟩ := Cli.assemble_paths o ho fs files sp
  obtain ⟨ps', hn', hp', ha'⟩ := Cli.assemble_paths o' ho' fs' files' sp'
  rw [ha, ha']
  refine C98_assembly ⟨Cli.registry o, ps⟩ ⟨Cli.registry o', ps'⟩ fs fs' (Cli.registry_good o ho) ?_ hsame ?_ ?_
  · intro p _ q c ft m _ ht hm
    obtain ⟨ext, -, hg⟩ := typeOf_ext ht
    exact registry_legal o ho ext ft hg c m hm
  · exact (List.perm_ext_iff_of_nodup hn hn').mpr fun p => by rw [hp, hp', hgiven]
  · intro p h; exact htree p ((hp p).mp h)

/-- The hypotheses are met: a file given by itself, and the same in the search path, twice. -/
example : ∃ m m', Cli.assembleModel Cli.exOutside Cli.exWorld.fs [[%s"a.smithy"]] none = .ok m ∧
    Cli.assembleModel Cli.exOutside Cli.exWorld.fs [] (some [[%s"a.smithy"], [%s"a.smithy"]]) = .ok m' ∧ SameButOrder m m' := by
  have h := C98_commands Cli.exOutside Cli.exOutside Cli.exOutside_reads Cli.exOutside_reads Cli.exWorld.fs Cli.exWorld.fs [[%s"a.smithy"]] []
    none (some [[%s"a.smithy"], [%s"a.smithy"]]) rfl (fun p => by simp [Cli.Given]) (fun _ _ => .refl)
  obtain ⟨m', hm'⟩ := h.1.mp ⟨_, Cli.exSmithy⟩
  exact ⟨_, m', Cli.exSmithy, hm', h.2 _ _ Cli.exSmithy hm'⟩

end Verif
