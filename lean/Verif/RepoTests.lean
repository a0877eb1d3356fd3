/-
The tests of the repository that concern what is modelled, evaluated on the model: a check of the model, not of the properties.
Each example names the test it repeats.
-/
import Verif.ApiProgramProps
import Verif.SelectorParser
import Verif.LinesLemmas
import Verif.Actions

namespace Verif.RepoTests
open SelParser IdlParser

/-- What the tests of /repo/atelier-core/tests/core_identity_types.rs ask with `is_ok`. -/
def okay {ε α : Type} : Except ε α → Bool
  | .ok _ => true
  | .error _ => false

/-- Texts without floats, and without characters that are escaped. -/
def fmt : Fmt := ⟨fun _ => [], fun s => '"' :: s ++ ['"']⟩
/-- No float in the texts of /repo/atelier-smithy/tests/smithy_simple_parse_tests.rs. -/
def noFloat : Str → Option F64 := fun _ => none

/-- The lines of a model are these: the ones expected are sorted, and a permutation of those that are pushed. -/
theorem lines_are {m : Model} {expected : List Str} (h : (Lines.unsorted fmt m).isPerm expected = true)
    (hs : expected.Pairwise fun a b => strLe a b = true) : lineForm fmt m = expected := by
  unfold lineForm
  rw [mergeSort_eq_of_perm (List.isPerm_iff.mp h)]
  exact List.mergeSort_of_pairwise hs

/-- The models of /repo/atelier-test/src/parts.rs: a `ModelBuilder`, converted with `try_into`. -/
def built (ns : Str) (cs : List Api.Call) : Except Err Model := do
  (← Api.run .v10 ns cs).build enumFirst

/-- The calls make a model with these lines. -/
def Gives (ns : Str) (cs : List Api.Call) (expected : List Str) : Prop := ∃ m, built ns cs = .ok m ∧ lineForm fmt m = expected

/-- The text is read as the model that the calls make, up to `==`. -/
def ReadAs (text : Str) (ns : Str) (cs : List Api.Call) : Bool :=
  match parseModel noFloat enumFirst text, built ns cs with
  | .ok m, .ok m' => m.meq m'
  | _, _ => false

set_option maxRecDepth 100000

/-! ### atelier-core/tests/core_identity_types.rs -/

/-- `test_identifier_is_valid`, `test_identifier_from_str` -/
example : [%s"a", %s"aBc", %s"_aBc", %s"___aBc", %s"a1", %s"a1c", %s"a_c", %s"a_"].all (fun s => okay (Identifier.fromStr s)) = true ∧
    [%s"", %s"_", %s"1", %s"1a", %s"_1", %s"a!"].any (fun s => okay (Identifier.fromStr s)) = false := ⟨rfl, rfl⟩

/-- `test_namespace_is_valid`, `test_namespace_from_str` -/
example : [%s"aBc", %s"aBc.dEf", %s"aBc.dEf.gHi"].all (fun s => okay (NamespaceID.fromStr s)) = true ∧
    [%s"", %s".aBc", %s"aBc."].any (fun s => okay (NamespaceID.fromStr s)) = false := ⟨rfl, rfl⟩

/-- `test_shape_id_is_valid`, `test_shape_id_from_str` -/
example : [%s"aBc#dEf", %s"aBc.dEf#gHi", %s"aBc#dEf$xYz", %s"aBc.dEf#gHi$xYz"].all (fun s => okay (ShapeID.fromStr s)) = true ∧
    [%s"", %s"aBc", %s"aBc$xYz"].any (fun s => okay (ShapeID.fromStr s)) = false := ⟨rfl, rfl⟩

/-- `test_shape_id_parts` -/
example : ShapeID.fromStr %s"com.example#SomeShapeName" = .ok ⟨%s"com.example", %s"SomeShapeName", none⟩ ∧
    ShapeID.fromStr %s"com.example#SomeShapeName$aMember" = .ok ⟨%s"com.example", %s"SomeShapeName", some %s"aMember"⟩ := ⟨rfl, rfl⟩

/-! ### atelier-test/src/parts.rs, atelier-core/tests/core_line_writer.rs and atelier-smithy/tests/smithy_simple_parse_tests.rs -/

/-- `empty_file` -/
example : (match parseModel noFloat enumFirst [] with | .ok m => m.meq ⟨.v10, [], []⟩ | _ => false) = true := rfl

/-- `namespace_only` -/
example : Gives %s"smithy.waiters" [] [] := ⟨_, rfl, lines_are rfl (by decide)⟩
example : ReadAs %s"namespace smithy.waiters" %s"smithy.waiters" [] = true := rfl

def simpleShapeOnly : List Api.Call := [.shape ⟨%s"WaiterDelay", .simple .integer, []⟩]

/-- `simple_shape_only` -/
example : Gives %s"smithy.waiters" simpleShapeOnly [%s"integer::smithy.waiters#WaiterDelay"] := ⟨_, rfl, lines_are rfl (by decide)⟩
example : ReadAs %s"namespace smithy.waiters\n        \n        integer WaiterDelay" %s"smithy.waiters" simpleShapeOnly = true := rfl

def blockText : List Api.Call :=
  [.shape ⟨%s"FooDelay", .simple .integer, [⟨.prelude (.documentation %s"A wait time for \"foo\" to happen\n        "), []⟩]⟩]

/-- `simple_shape_with_block_text` -/
example : Gives %s"example.foo" blockText [%s"integer::example.foo#FooDelay",
    %s"integer::example.foo#FooDelay::trait::smithy.api#documentation<=\"A wait time for \"foo\" to happen\n        \""] := ⟨_, rfl, lines_are rfl (by decide)⟩
example : ReadAs %s"namespace example.foo\n        @documentation(\"\"\"\n            A wait time for \"foo\" to happen\n        \"\"\")\n        integer FooDelay"
    %s"example.foo" blockText = true := rfl

def blockText2 : List Api.Call :=
  [.shape ⟨%s"FooDelay", .simple .integer, [⟨.prelude (.documentation %s"Do empty \"\" quotes work too?"), []⟩]⟩]

/-- `simple_shape_with_block_text_2` -/
example : Gives %s"example.foo" blockText2 [%s"integer::example.foo#FooDelay",
    %s"integer::example.foo#FooDelay::trait::smithy.api#documentation<=\"Do empty \"\" quotes work too?\""] := ⟨_, rfl, lines_are rfl (by decide)⟩
example : ReadAs %s"namespace example.foo\n        @documentation(\"\"\"Do empty \"\" quotes work too?\"\"\")\n        integer FooDelay"
    %s"example.foo" blockText2 = true := rfl

def withTraits (f : TraitFn) : List Api.Call := [.shape ⟨%s"WaiterDelay", .simple .integer, [⟨.prelude .boxed, []⟩, ⟨.prelude f, []⟩]⟩]
def withTraitsLines : List Str := [%s"integer::smithy.waiters#WaiterDelay", %s"integer::smithy.waiters#WaiterDelay::trait::smithy.api#box<={}",
  %s"integer::smithy.waiters#WaiterDelay::trait::smithy.api#range<={min}=1"]

/-- `simple_shape_with_traits` -/
example : Gives %s"smithy.waiters" (withTraits (.range (some 1) none)) withTraitsLines := ⟨_, rfl, lines_are rfl (by decide)⟩
example : ReadAs %s"namespace smithy.waiters\n        \n        @box\n        @range(min: 1)\n        integer WaiterDelay" %s"smithy.waiters"
    (withTraits (.range (some 1) none)) = true := rfl

/-- `simple_shape_with_traits_and_comments` -/
example : Gives %s"smithy.waiters" (withTraits (.rangeMin 1)) withTraitsLines := ⟨_, rfl, lines_are rfl (by decide)⟩
example : ReadAs %s"// start of the file\n        namespace smithy.waiters // this namespace is added to all shape names\n        \n        @box // it's a boxed, not atomic, value\n        @range(min: 1) // set the minimum value\n        integer WaiterDelay"
    %s"smithy.waiters" (withTraits (.rangeMin 1)) = true := rfl

def withDocs : List Api.Call := [.shape ⟨%s"WaiterName", .simple .string,
  [⟨.prelude (.documentation %s"The name, or identifier, of a waiter."), []⟩, ⟨.prelude (.pattern %s"^[A-Z]+[A-Za-z0-9]*$"), []⟩]⟩]

/-- `simple_shape_with_traits_and_documentation` -/
example : Gives %s"smithy.waiters" withDocs [%s"string::smithy.waiters#WaiterName",
    %s"string::smithy.waiters#WaiterName::trait::smithy.api#documentation<=\"The name, or identifier, of a waiter.\"",
    %s"string::smithy.waiters#WaiterName::trait::smithy.api#pattern<=\"^[A-Z]+[A-Za-z0-9]*$\""] := ⟨_, rfl, lines_are rfl (by decide)⟩
example : ReadAs %s"namespace smithy.waiters\n        \n        /// The name, or identifier, of a waiter.\n        @pattern(\"^[A-Z]+[A-Za-z0-9]*$\")\n        string WaiterName"
    %s"smithy.waiters" withDocs = true := rfl

/-- `service_with_renames` -/
example : Gives %s"smithy.example" [.shape ⟨%s"GetSomething", .operation [], []⟩,
    .shape ⟨%s"MyService", .service %s"2017-02-11" [.operation %s"GetSomething", .rename %s"foo.example#Widget" %s"FooWidget"], []⟩]
    [%s"operation::smithy.example#GetSomething", %s"service::smithy.example#MyService",
     %s"service::smithy.example#MyService::operation=>smithy.example#GetSomething",
     %s"service::smithy.example#MyService::rename::foo.example#Widget<=FooWidget",
     %s"service::smithy.example#MyService::version<=\"2017-02-11\""] := ⟨_, rfl, lines_are rfl (by decide)⟩

/-! ### atelier-core/tests/core_resolver.rs -/

/-- `test_shapeid_resolution_valid` -/
example : Gives %s"smithy.example" [.uses %s"foo.baz#Bar", .shape ⟨%s"MyString", .simple .string, []⟩,
    .shape ⟨%s"MyStructure", .struct [.member %s"a" %s"MyString", .member %s"b" %s"smithy.example#MyString", .member %s"c" %s"Bar", .member %s"d" %s"String",
      .member %s"e" %s"MyBoolean", .member %s"f" %s"InvalidShape"], []⟩, .shape ⟨%s"MyBoolean", .simple .boolean, []⟩]
    [%s"boolean::smithy.example#MyBoolean", %s"string::smithy.example#MyString", %s"structure::smithy.example#MyStructure",
     %s"structure::smithy.example#MyStructure::a=>smithy.example#MyString", %s"structure::smithy.example#MyStructure::b=>smithy.example#MyString",
     %s"structure::smithy.example#MyStructure::c=>foo.baz#Bar", %s"structure::smithy.example#MyStructure::d=>smithy.api#String",
     %s"structure::smithy.example#MyStructure::e=>smithy.example#MyBoolean", %s"structure::smithy.example#MyStructure::f=>smithy.example#InvalidShape",
     %s"unresolved::foo.baz#Bar", %s"unresolved::smithy.example#InvalidShape"] := ⟨_, rfl, lines_are rfl (by decide)⟩

/-! ### atelier-core/tests/core_merge_unresolved.rs -/

def pid (n : Str) : ShapeID := ⟨%s"smithy.api", n, none⟩
def shapeWith (k : ShapeKind) (t : Str) (boxed : Bool) : TopLevelShape :=
  let s := TopLevelShape.new ⟨%s"example", %s"Identifier", none⟩ k
  let ts := (applyWithValue s.traits (pid t) none).1
  ⟨s.id, if boxed then (applyWithValue ts (pid %s"box") none).1 else ts, s.body⟩
def real : Bool → TopLevelShape := shapeWith (.simple .string) %s"sensitive"
def unresolved : Bool → TopLevelShape := shapeWith .unresolved %s"private"

/-- Both are added; how many traits there are then, and if the shape is a placeholder. -/
def addBoth (a b : TopLevelShape) : Option (Nat × Bool) :=
  let (m1, r1) := Model.addShape ⟨.v10, [], []⟩ a
  let (m2, r2) := m1.addShape b
  if okay r1 && okay r2 then (m2.shape ⟨%s"example", %s"Identifier", none⟩).map fun s => (s.traits.length, s.body.isUnresolved) else none

/-- `merge_unresolved_same_left_right`, `merge_unresolved_diff_left_right`, `merge_unresolved_same_left`, `merge_unresolved_diff_left`,
`merge_unresolved_same_right`, `merge_unresolved_diff_right` -/
example : addBoth (unresolved false) (unresolved false) = some (1, true) ∧ addBoth (unresolved false) (unresolved true) = some (2, true) ∧
    addBoth (unresolved false) (real false) = some (2, false) ∧ addBoth (unresolved false) (real true) = some (3, false) ∧
    addBoth (real false) (unresolved false) = some (2, false) ∧ addBoth (real false) (unresolved true) = some (3, false) := by
  refine ⟨?_, ?_, ?_, ?_, ?_, ?_⟩ <;> rfl

/-! ### atelier-core/tests/core_merge_metadata.rs -/

def adding (old new : Value) : Option Value :=
  let (m, r) := Model.addMetadata ⟨.v10, [(%s"name", old)], []⟩ %s"name" new
  if okay r then m.metadataValue %s"name" else none

def int (n : Int) : Value := .number (.integer n)

/-- `merge_concat_arrays`, `merge_same_string`, `merge_same_number`, `merge_same_boolean` -/
example : adding (.array [int 101, int 102]) (.array [int 201, int 202]) = some (.array [int 101, int 102, int 201, int 202]) ∧
    adding (.string %s"example-model") (.string %s"example-model") = some (.string %s"example-model") ∧
    adding (int 101) (int 101) = some (int 101) ∧ adding (.boolean true) (.boolean true) = some (.boolean true) := by
  refine ⟨?_, ?_, ?_, ?_⟩ <;> rfl

/-! ### atelier-core/tests/core_validators.rs -/

def messages (r : Except Err (List Issue)) : List Str := match r with | .ok is => is.map (·.message) | .error _ => []

def validated (a : Action) (cs : List Api.Call) : List Str :=
  match built %s"smithy.example" cs with
  | .ok m => messages (runActions m false [a]).2
  | .error _ => []

/-- `test_correct_type_references` -/
example : (validated correctTypeReferences [.uses %s"foo.baz#Bar",
    .shape ⟨%s"MyStructure", .struct [.member %s"a" %s"MyString", .member %s"b" %s"smithy.example#MyString", .member %s"d" %s"foo.baz#Bar",
      .member %s"e" %s"foo.baz#MyString", .member %s"f" %s"String", .member %s"g" %s"MyBoolean"], [⟨.new %s"documentation", []⟩]⟩,
    .shape ⟨%s"MyString", .simple .string, []⟩, .shape ⟨%s"MyBoolean", .simple .boolean, []⟩]).isPerm
    [%s"smithy.example#MyStructure member e's type (foo.baz#MyString) cannot be resolved to a shape in this model.",
     %s"The simple shape (smithy.example#MyString) is simply a synonym, did you mean to add any constraint traits?",
     %s"The simple shape (smithy.example#MyBoolean) is simply a synonym, did you mean to add any constraint traits?"] = true := rfl

/-- `test_unresolved_references` -/
example : validated noUnresolvedReferences [.uses %s"foo.baz#Bar", .shape ⟨%s"MyBoolean", .simple .boolean, []⟩] =
    [%s"The model has an unresolved reference to shape 'foo.baz#Bar'"] := rfl

/-! ### atelier-smithy/tests/selector_tests.rs -/

/-- `test_spec_shape_types_fail` -/
example : okay (parseSelector noFloat %s"") = false := rfl
/-- `test_spec_shape_types_all` -/
example : okay (parseSelector noFloat %s"*") = true := rfl
/-- `test_spec_shape_types_number` -/
example : okay (parseSelector noFloat %s"number") = true := rfl
/-- `test_spec_shape_types_simple_type` -/
example : okay (parseSelector noFloat %s"simpleType") = true := rfl
/-- `test_spec_shape_types_collection` -/
example : okay (parseSelector noFloat %s"collection") = true := rfl
/-- `test_spec_shape_types_blob` -/
example : okay (parseSelector noFloat %s"blob") = true := rfl
/-- `test_spec_shape_types_boolean` -/
example : okay (parseSelector noFloat %s"boolean") = true := rfl
/-- `test_spec_shape_types_document` -/
example : okay (parseSelector noFloat %s"document") = true := rfl
/-- `test_spec_shape_types_string` -/
example : okay (parseSelector noFloat %s"string") = true := rfl
/-- `test_spec_shape_types_integer` -/
example : okay (parseSelector noFloat %s"integer") = true := rfl
/-- `test_spec_shape_types_byte` -/
example : okay (parseSelector noFloat %s"byte") = true := rfl
/-- `test_spec_shape_types_short` -/
example : okay (parseSelector noFloat %s"short") = true := rfl
/-- `test_spec_shape_types_long` -/
example : okay (parseSelector noFloat %s"long") = true := rfl
/-- `test_spec_shape_types_float` -/
example : okay (parseSelector noFloat %s"float") = true := rfl
/-- `test_spec_shape_types_double` -/
example : okay (parseSelector noFloat %s"double") = true := rfl
/-- `test_spec_shape_types_big_decimal` -/
example : okay (parseSelector noFloat %s"bigDecimal") = true := rfl
/-- `test_spec_shape_types_big_integer` -/
example : okay (parseSelector noFloat %s"bigInteger") = true := rfl
/-- `test_spec_shape_types_timestamp` -/
example : okay (parseSelector noFloat %s"timestamp") = true := rfl
/-- `test_spec_shape_types_list` -/
example : okay (parseSelector noFloat %s"list") = true := rfl
/-- `test_spec_shape_types_set` -/
example : okay (parseSelector noFloat %s"set") = true := rfl
/-- `test_spec_shape_types_map` -/
example : okay (parseSelector noFloat %s"map") = true := rfl
/-- `test_spec_shape_types_structure` -/
example : okay (parseSelector noFloat %s"structure") = true := rfl
/-- `test_spec_shape_types_union` -/
example : okay (parseSelector noFloat %s"union") = true := rfl
/-- `test_spec_shape_types_service` -/
example : okay (parseSelector noFloat %s"service") = true := rfl
/-- `test_spec_shape_types_operation` -/
example : okay (parseSelector noFloat %s"operation") = true := rfl
/-- `test_spec_shape_types_resource` -/
example : okay (parseSelector noFloat %s"resource") = true := rfl
/-- `test_spec_shape_types_member` -/
example : okay (parseSelector noFloat %s"member") = true := rfl
/-- `test_spec_selector_attr_1` -/
example : okay (parseSelector noFloat %s"[trait|deprecated]") = true := rfl
/-- `test_spec_selector_attr_2` -/
example : okay (parseSelector noFloat %s"[trait|enum|(values)|tags|(values)]") = true := rfl
/-- `test_spec_selector_attr_3` -/
example : okay (parseSelector noFloat %s"[id|namespace = 'smithy.example']") = true := rfl
/-- `test_spec_selector_attr_4` -/
example : okay (parseSelector noFloat %s"[trait|since = 2019, 2020]") = true := rfl
/-- `test_spec_selector_attr_5` -/
example : okay (parseSelector noFloat %s"[trait|httpError > 500]") = true := rfl
/-- `test_spec_selector_attr_6` -/
example : okay (parseSelector noFloat %s"[trait|range|min = 1]") = true := rfl
/-- `test_spec_selector_attr_7` -/
example : okay (parseSelector noFloat %s"[trait|documentation|invalid|child = Hi]") = true := rfl
/-- `test_spec_multiple_1` -/
example : okay (parseSelector noFloat %s"string [trait|sensitive]") = true := rfl
/-- `test_spec_id_attribute_1` -/
example : okay (parseSelector noFloat %s"[id = foo.baz#Structure]") = true := rfl
/-- `test_spec_id_attribute_2` -/
example : okay (parseSelector noFloat %s"[id = 'foo.baz#Structure$foo']") = true := rfl
/-- `test_spec_id_attribute_4` -/
example : okay (parseSelector noFloat %s"[id|name = MyShape]") = true := rfl
/-- `test_spec_id_attribute_5` -/
example : okay (parseSelector noFloat %s"[id|member = foo]") = true := rfl
/-- `test_spec_id_attribute_6` -/
example : okay (parseSelector noFloat %s"[id|(length) > 80]") = true := rfl
/-- `test_spec_id_attribute_7` -/
example : okay (parseSelector noFloat %s"[id|member|(length) > 20]") = true := rfl
/-- `test_spec_service_attribute_1` -/
example : okay (parseSelector noFloat %s"[service]") = true := rfl
/-- `test_spec_service_attribute_2` -/
example : okay (parseSelector noFloat %s"service") = true := rfl
/-- `test_spec_service_attribute_3` -/
example : okay (parseSelector noFloat %s"[service = smithy.example#MyService]") = true := rfl
/-- `test_spec_service_attribute_4` -/
example : okay (parseSelector noFloat %s"[service|version ^= '2018-']") = true := rfl
/-- `test_spec_trait_attribute_1` -/
example : okay (parseSelector noFloat %s"[trait|(keys)|namespace = 'smithy.example']") = true := rfl
/-- `test_spec_trait_attribute_2` -/
example : okay (parseSelector noFloat %s"[trait|(values)|tags]") = true := rfl
/-- `test_spec_trait_attribute_3` -/
example : okay (parseSelector noFloat %s"[trait|(length) > 10]") = true := rfl
/-- `test_spec_trait_attribute_4` -/
example : okay (parseSelector noFloat %s"[trait|smithy.api#deprecated]") = true := rfl
/-- `test_spec_trait_attribute_5` -/
example : okay (parseSelector noFloat %s"[trait|deprecated]") = true := rfl
/-- `test_spec_trait_attribute_6` -/
example : okay (parseSelector noFloat %s"[trait|error = client]") = true := rfl
/-- `test_spec_trait_attribute_7` -/
example : okay (parseSelector noFloat %s"[trait|error != client]") = true := rfl
/-- `test_spec_trait_attribute_8` -/
example : okay (parseSelector noFloat %s"[trait|documentation *= TODO, FIXME]") = true := rfl
/-- `test_spec_node_attribute_1` -/
example : okay (parseSelector noFloat %s"[trait|externalDocumentation|(keys) = Homepage]") = true := rfl
/-- `test_spec_node_attribute_2` -/
example : okay (parseSelector noFloat %s"[trait|enum|(values)|tags|(values) = internal]") = true := rfl
/-- `test_spec_node_attribute_3` -/
example : okay (parseSelector noFloat %s"[trait|documentation|(length) < 3]") = true := rfl
/-- `test_spec_node_attribute_4` -/
example : okay (parseSelector noFloat %s"[trait|externalDocumentation|'Reference Docs']") = true := rfl
/-- `test_spec_projection_1` -/
example : okay (parseSelector noFloat %s"service\n[trait|smithy.example#allowedTags]\n$service(*)\n~>\n[trait|tags]\n:not([@: @{trait|tags|(values)} = @{var|service|trait|smithy.example#allowedTags|(values)}])") = true := rfl
/-- `test_spec_projection_2` -/
example : okay (parseSelector noFloat %s"service\n[trait|smithy.example#allowedTags]\n$service(*)\n~>\n[trait|enum]\n:not([@: @{trait|enum|(values)|tags|(values)}\n         = @{var|service|trait|smithy.example#allowedTags|(values)}])") = true := rfl
/-- `test_spec_projection_3` -/
example : okay (parseSelector noFloat %s"service\n[trait|smithy.example#allowedTags]\n$service(*)\n~>\n[trait|enum]\n:not([@: @{trait|enum|(values)|tags|(values)}\n         {<} @{var|service|trait|smithy.example#allowedTags|(values)}])") = true := rfl
/-- `test_spec_context_values_2` -/
example : okay (parseSelector noFloat %s"[trait|trait][@: @{trait|(keys)} = @{id}]") = true := rfl
/-- `test_spec_context_values_3` -/
example : okay (parseSelector noFloat %s"[@trait|enum|(values):\n    @{deprecated} = true &&\n    @{tags|(values)} = \"deprecated\"]") = true := rfl
/-- `test_spec_context_values_4` -/
example : okay (parseSelector noFloat %s"[@trait|idRef:\n    @{failWhenMissing} = true &&\n    @{errorMessage} ?= false]") = true := rfl
/-- `test_spec_context_values_5` -/
example : okay (parseSelector noFloat %s"[@trait|httpApiKeyAuth:\n    @{name} = header &&\n    @{in} != 'x-api-token', 'authorization']") = true := rfl
/-- `test_spec_context_values_6` -/
example : okay (parseSelector noFloat %s"[@trait|httpApiKeyAuth:\n    @{name} = header i &&\n    @{in} != 'x-api-token', 'authorization' i]") = true := rfl
/-- `test_spec_context_values_7` -/
example : okay (parseSelector noFloat %s"[@trait|httpApiKeyAuth:\n    @{name} = header &&\n    @{in} != 'x-api-token', 'authorization' i]") = true := rfl
/-- `test_spec_neighbors_1` -/
example : okay (parseSelector noFloat %s"map > member") = true := rfl
/-- `test_spec_neighbors_2` -/
example : okay (parseSelector noFloat %s"list > member > string") = true := rfl
/-- `test_spec_neighbors_3` -/
example : okay (parseSelector noFloat %s"operation > *") = true := rfl
/-- `test_spec_neighbors_4` -/
example : okay (parseSelector noFloat %s"operation -[input, output]-> structure") = true := rfl
/-- `test_spec_neighbors_5` -/
example : okay (parseSelector noFloat %s"service :test(-[trait]-> [trait|protocolDefinition])") = true := rfl
/-- `test_spec_neighbors_6` -/
example : okay (parseSelector noFloat %s"service ~> operation") = true := rfl
/-- `test_spec_neighbors_7` -/
example : okay (parseSelector noFloat %s"service[trait|aws.protocols#restJson1]\n    ~> operation:not([trait|http])") = true := rfl
/-- `test_spec_neighbors_8` -/
example : okay (parseSelector noFloat %s"string :test(< member < list)") = true := rfl
/-- `test_spec_neighbors_9` -/
example : okay (parseSelector noFloat %s":not([trait|trait]) :not(< *)") = true := rfl
/-- `test_spec_neighbors_10` -/
example : okay (parseSelector noFloat %s"[trait|streaming]\n:test(<)\n:not(< member < structure <-[input, output]- operation)") = true := rfl
/-- `test_spec_neighbors_11` -/
example : okay (parseSelector noFloat %s"[trait|trait] :not(<-[trait]-)") = true := rfl
/-- `test_spec_functions_1` -/
example : okay (parseSelector noFloat %s"list:test(> member > string)") = true := rfl

end Verif.RepoTests
