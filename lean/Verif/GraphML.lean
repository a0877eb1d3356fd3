/-
Model of atelier-describe/src/graphml/writer.rs: GraphML documents of semantic models.

Writing to the output is taken not to fail. The parameter `checked` of the definitions is whether the program was built with
overflow checks (Rust's default for debug builds, not for release builds).
-/
import Verif.Visitor
import Verif.Lines

namespace Verif
namespace GraphML

/-- `VisitorState`, atelier-describe/src/graphml/writer.rs:142-145: `edge_count`, and what was written so far. -/
structure State where
  edgeCount : UInt16
  out : Str
  deriving Repr

/-- `writeln!(state.writer, ..)?`. -/
def line (s : Str) : Step State Err := fun st => ({ st with out := st.out ++ s ++ ['\n'] }, .ok ())

/-- `edge_id`, atelier-describe/src/graphml/writer.rs:456-460, and what is done with the id. -/
def edgeId (checked : Bool) (f : Str → Step State Err) : Step State Err := fun st =>
  if checked && st.edgeCount == 65535 then (st, .error .panic)
  else f (%s"e" ++ showNat st.edgeCount.toNat) { st with edgeCount := st.edgeCount + 1 }

/-- `node`, atelier-describe/src/graphml/writer.rs:412-422. -/
def node (id : ShapeID) (typeStr : Str) : Step State Err :=
  (line (%s"        <node id=\"" ++ id.display ++ %s"\">")).andThen <|
  (line (%s"            <data key=\"type\">" ++ typeStr ++ %s"</data>")).andThen
  (line %s"        </node>")

/-- `member`, atelier-describe/src/graphml/writer.rs:424-439. -/
def member (checked : Bool) (source target : ShapeID) (name : Str) : Step State Err :=
  edgeId checked fun edgeId =>
    (line (%s"        <edge id=\"" ++ edgeId ++ %s"\" source=\"" ++ source.display ++ %s"\" target=\"" ++ target.display ++ %s"\">")).andThen <|
    (line (%s"            <data key=\"member\">" ++ name ++ %s"</data>")).andThen
    (line %s"        </edge>")

/-- The loop body of `traits`, atelier-describe/src/graphml/writer.rs:441-454. -/
def oneTrait (checked : Bool) (id traitId : ShapeID) : Step State Err :=
  edgeId checked fun edgeId =>
    (line (%s"        <edge id=\"" ++ edgeId ++ %s"\" source=\"" ++ id.display ++ %s"\" target=\"" ++ traitId.display ++ %s"\">")).andThen <|
    (line %s"            <data key=\"trait\">true</data>").andThen
    (line %s"        </edge>")

/-- `traits`, atelier-describe/src/graphml/writer.rs:441-454. -/
def traits (checked : Bool) (id : ShapeID) (ts : Traits) : Step State Err := Step.forEach (oneTrait checked id) (AMap.keys ts)

/-- `impl ModelVisitor for GraphMLVisitor`, atelier-describe/src/graphml/writer.rs:247-409; `metadata`, `unresolved_id` and
`member_visitor` are the defaults (atelier-core/src/model/visitor.rs:75-100). -/
def visitor (checked : Bool) : ModelVisitor State Err where
  metadata _ _ := fun s => (s, .ok ())
  simpleShape id ts s := (node id s.display).andThen (traits checked id ts)
  list id ts m := (node id %s"list").andThen <| (traits checked id ts).andThen (member checked id m.target %s"member")
  set id ts m := (node id %s"set").andThen <| (traits checked id ts).andThen (member checked id m.target %s"member")
  map id ts m := (node id %s"map").andThen <| (traits checked id ts).andThen <|
    (member checked id m.1.target %s"key").andThen (member checked id m.2.target %s"value")
  structure_ id ts ms := (node id %s"structure").andThen <| (traits checked id ts).andThen
    (Step.forEach (fun m => member checked id m.target m.id) (AMap.values ms))
  union id ts ms := (node id %s"union").andThen <| (traits checked id ts).andThen
    (Step.forEach (fun m => member checked id m.target m.id) (AMap.values ms))
  operation id ts o := (node id %s"operation").andThen <| (traits checked id ts).andThen <|
    (Step.ifSome (fun t => member checked id t %s"input") o.input).andThen <|
    (Step.ifSome (fun t => member checked id t %s"output") o.output).andThen
    (Step.forEach (fun t => member checked id t %s"errors") o.errors)
  service id ts s :=
    (line (%s"        <node id=\"" ++ id.display ++ %s"\">")).andThen <|
    (line %s"            <data key=\"type\">service</data>").andThen <|
    (line (%s"            <data key=\"version\">" ++ s.version ++ %s"</data>")).andThen <|
    (line %s"        </node>").andThen <| (traits checked id ts).andThen <|
    (Step.forEach (fun t => member checked id t %s"operations") s.operations).andThen
    (Step.forEach (fun t => member checked id t %s"resources") s.resources)
  resource id ts r := (node id %s"resource").andThen <| (traits checked id ts).andThen <|
    (Step.ifSome (fun t => member checked id t %s"create") r.create).andThen <|
    (Step.ifSome (fun t => member checked id t %s"put") r.put).andThen <|
    (Step.ifSome (fun t => member checked id t %s"read") r.read).andThen <|
    (Step.ifSome (fun t => member checked id t %s"update") r.update).andThen <|
    (Step.ifSome (fun t => member checked id t %s"delete") r.delete).andThen <|
    (Step.ifSome (fun t => member checked id t %s"list") r.list).andThen <|
    (Step.forEach (fun t => member checked id t %s"operations") r.operations).andThen <|
    (Step.forEach (fun t => member checked id t %s"collectionOperations") r.collectionOperations).andThen
    (Step.forEach (fun t => member checked id t %s"resources") r.resources)
  unresolvedId _ _ := fun s => (s, .ok ())
  memberVisitor _ := none

/-- `write_keys`, atelier-describe/src/graphml/writer.rs:209-242. -/
def keys : Str :=
  %s"    <key id=\"smithy-version\" for=\"graph\" attr.name=\"smithy.version\" attr.type=\"string\"/>\n" ++
  %s"    <key id=\"type\" for=\"node\" attr.name=\"type\" attr.type=\"string\"/>\n" ++
  %s"    <key id=\"version\" for=\"node\" attr.name=\"version\" attr.type=\"string\"/>\n" ++
  %s"    <key id=\"trait\" for=\"edge\" attr.name=\"trait\" attr.type=\"boolean\"/>\n" ++
  %s"    <key id=\"member\" for=\"edge\" attr.name=\"member\" attr.type=\"string\">\n" ++
  %s"        <default>member</default>\n" ++
  %s"    </key>\n"

/-- `write`, atelier-describe/src/graphml/writer.rs:166-205: what is written before the shapes. -/
def header (m : Model) : Str :=
  %s"<?xml version=\"1.0\" encoding=\"UTF-8\"?>\n" ++
  %s"<graphml xmlns=\"http://graphml.graphdrawing.org/xmlns\"\n" ++
  %s"    xmlns:xsi=\"http://www.w3.org/2001/XMLSchema-instance\"\n" ++
  %s"    xsi:schemaLocation=\"http://graphml.graphdrawing.org/xmlns\n" ++
  %s"        http://graphml.graphdrawing.org/xmlns/1.0/graphml.xsd\">\n" ++
  keys ++
  %s"    <graph id=\"model\" edgedefault=\"directed\">\n" ++
  %s"        <data key=\"smithy.version\">" ++ m.version.display ++ %s"</data>\n"

/-- `write`, atelier-describe/src/graphml/writer.rs:166-205: the text written, if all goes well. -/
def write (checked : Bool) (m : Model) : Except Err Str :=
  match Visitor.walkModel m (visitor checked) ⟨0, header m⟩ with
  | (st, .ok ()) => .ok (st.out ++ %s"    </graph>\n" ++ %s"</graphml>\n")
  | (_, .error e) => .error e

end GraphML
end Verif
