"""Properties appended as the model grew (C44 on)."""
BLD="atelier-core/src/builder/mod.rs"
def more(p):
    p("C44","Applying traits through the builder",
      "apply adds the trait to the named shape or member and changes nothing else: other entries keep their content, an absent shape becomes an import carrying the trait, and the built model's shape has the trait. (The code violates parts of it: members of shapes added under a local name cannot be reached, apply panics; applying to an absolute id turns it into an import, which changes what local names of the same name stand for.)",
      "every builder, shape id or member id, and trait","The effect depends on every other entry of the builder and on the enumeration order of its hash maps.",
      [BLD+": ModelBuilder::apply, apply_to, apply_to_member, apply_to_shape"])
    p("C45","Model equality is structural",
      "== on models holds exactly when the versions, the metadata, and each shape's id, traits and body are equal, maps compared as finite maps; it is symmetric and transitive, does not depend on the enumeration order of any map, and is reflexive exactly on models without NaN.",
      "every pair (triple) of models","Derived equality over nested hash maps of any size, with floats inside.",
      ["atelier-core/src/model/mod.rs: Model (derived PartialEq)","atelier-core/src/model/shapes/mod.rs: TopLevelShape, ShapeKind","atelier-core/src/model/values.rs: Value"])
    p("C46","The JSON reader accepts exactly JSON ASTs",
      "A document is accepted exactly when it is the JSON AST of a model, and the model returned is that model. (The code violates this: metadata, shapes, traits and members that are not objects are silently dropped, and integers above i64::MAX are changed; it holds for documents without these.)",
      "every JSON document","All documents, including malformed ones.",
      ["atelier-json/src/reader.rs: JsonReader::model, metadata, shapes, shape, members, member, traits, value"])
    p("C47","Naming convention linter is exact",
      "NamingConventions reports an issue for a shape, member or namespace name exactly when the name is not in the case convention asked for it, and reports nothing else. (Relative to the heck crate's conversion, a parameter of the model.)",
      "every model and every case conversion","All models.",["atelier-core/src/action/lint/naming.rs: NamingConventions"])
    p("C48","Unwelcome terms linter is exact",
      "UnwelcomeTerms reports exactly the unwelcome words in identifiers not checked before, each identifier once; checking the same model twice reports nothing new. Which shape an issue is attached to depends on the enumeration order when several shapes share the name.",
      "every model, every linter state and every case conversion","All models and histories of the linter object.",["atelier-core/src/action/lint/terms.rs: UnwelcomeTerms"])
    p("C49","Selector text round trip",
      "Parsing the text of a selector gives back the same selector, so different selectors have different texts, for every selector whose names are identifiers of the selector grammar, whose texts are non-empty and free of double quotes, backslashes and control characters, whose floats are printed with a fraction and read back exactly, and whose comparators are not >= or <=. (Outside of these limits the code violates the round trip: >= and <= are never read by any text, empty text and text with quotes are rejected or changed, integral floats come back as integers.)",
      "every selector within the stated limits, nested to any depth","Selectors nest through functions and variables without bound, and a PEG has no inverse: only an induction over the whole grammar shows that no text is read as something else.",
      ["atelier-core/src/model/selector/mod.rs: Display for Selector, SelectorExpression, AttributeSelector, ScopedAttributeSelector, Key, Value","atelier-smithy/src/selector.pest","atelier-smithy/src/parser/selector.rs: parse_selector"])
    p("C50","The selector parser is total and explains its errors",
      "For every text, parsing ends with one of: a grammar error; a selector in which every list is non-empty, every name is an identifier, and every value stands in the text; a panic, only if the text has a number that is not a readable i64 or f64; an invalid-selector error, only if the text has an identifier that is not a shape type. Writing and reading the result again gives the same selector (given printable quotes and floats).",
      "every text","All strings of any length and nesting.",
      ["atelier-smithy/src/selector.pest","atelier-smithy/src/parser/selector.rs: parse_selector and every parse_selector_*"])
    WR="atelier-smithy/src/writer.rs: SmithyWriter"
    RD="atelier-smithy/src/parser/smithy.rs: parse_model and the parse_* functions"
    GR="atelier-smithy/src/smithy.pest"
    p("C51","Smithy IDL round trip",
      "Writing a model of one namespace as Smithy IDL and reading the text gives the same model. (The code violates this; proved is the exact result for every writable model, that it is the same model when it has no metadata, sets, renames, traits without a value or on members of lists and maps, and that no text at all is read as a model that has one of these.)",
      "every model, namespace and text","Models and texts of any size; that no text stands for a model is a statement about all texts.",
      [WR,RD,GR])
    p("C52","Reading Smithy IDL gives well-formed models",
      "Whatever text the Smithy IDL reader accepts, the model it returns is well-formed: shapes under their own ids, all ids and targets valid and absolute, member names identifiers, map keys unique, service versions not empty.",
      "every text the reader accepts","All texts.",[RD,GR,"atelier-core/src/builder/mod.rs: TryInto<Model> for ModelBuilder"])
    p("C53","Metadata of a Smithy IDL text is in the model",
      "The metadata and the version of an accepted text are those of the model. (Violated: a text without a namespace statement loses everything; quoted keys keep their quotes. Proved: without the word namespace a text is rejected or gives the empty model; every key is an identifier or has its quotes; the round trip of written metadata is in C51.)",
      "every text","All texts.",[RD,GR])
    p("C55","Shapes of a Smithy IDL text are in its namespace",
      "Every shape of a model that was read is in the file's namespace, or its absolute id is written in the text; a statement defines a shape of the file's namespace. (The last clause is violated: after `use b#T`, the statement `structure T {}` defines b#T.)",
      "every text the reader accepts","All texts.",[RD,"atelier-core/src/builder/mod.rs: ModelBuilder"])
    p("C56","The Smithy IDL writer writes one namespace",
      "The text written for a namespace depends only on the shapes of this namespace and on the placeholders.",
      "every model and namespace","All models.",[WR])
    p("C57","Reading Smithy IDL does not panic",
      "Reading a text as Smithy IDL never panics. (Violated: a member of a relative id as a target, service, operation and resource objects with values of the wrong type, and two structures that stand for the same import panic. Proved: a text that panics has a member of a relative id, or one of the words service, operation, resource, use.)",
      "every text","All texts, including those no test author would write.",[RD,GR,"atelier-core/src/builder/mod.rs: TryInto<Model> for ModelBuilder"])
    p("C54","Apply statements of Smithy IDL",
      "An apply statement in a text applies its trait to the shape. (Violated by every text: whatever the shape and the trait, a text in which the grammar finds an apply statement is rejected; the statements that the writer itself writes for placeholders with traits are among them.)",
      "every text the grammar finds an apply statement in","All texts; a test shows one.",[RD,GR])
    p("C58","A name in a value of Smithy IDL is read as that name",
      "Where a value may stand, an identifier is read as the text of that identifier. (Violated: an identifier that starts with true, false or null is split; in an array it is read as two values, elsewhere the text is rejected. Proved: every other identifier is read as itself; every keyword followed by such an identifier is read as two values.)",
      "every identifier, key and namespace","All identifiers.",[RD,GR])
    p("C59","Whitespace and comments of Smithy IDL",
      "Whitespace, commas and comments before the first statement do not change what is read, for whatever follows. A comment on the last line needs its line end: a text with a slash that is not followed by a line end or a quote is rejected.",
      "every text and every blank prefix","All texts, including those that are rejected.",[GR,RD])
    p("C60","String literals of Smithy IDL",
      "A quoted text stands for the string with its escapes decoded. (Violated: every quoted text with escapes is accepted and read with the backslashes in it; proved for all quoted texts, those without a backslash are read as they should be.)",
      "every quoted text","All strings and all combinations of escapes.",[RD,GR])
    p("C61","Documentation comments",
      "Documentation comments before a shape or a member are read as its documentation trait: the lines, without the white space at their start, separated by line ends; one without comments has no such trait, and the comments of one never reach another.",
      "every namespace, every list of simple shapes and structures, every list of lines of documentation for each shape and member","Any number of shapes, members and lines, and all characters that may be in a comment.",[RD+": parse_documentation_text, parse_shape_statement, parse_shape_member_kvp, apply_traits",GR])
    p("C67","Characters of Smithy IDL",
      "Every Unicode character from U+0020 on may be in comments and strings. (Violated: the grammar stops at U+10FFF, so that a text with any character beyond it, such as an emoji, is rejected as a whole, even if it is in a comment. Proved: such texts, and those with other control characters, are always rejected; comments of all other characters change nothing.)",
      "every text and every character","All texts: where the character stands does not matter.",[GR])
    TR="atelier-core/src/builder/traits.rs"
    SH="atelier-core/src/builder/shapes.rs"
    p("C62","Functions for prelude traits",
      "Each function of the builder for a prelude trait makes the trait of that name in the prelude namespace, with a value that has exactly the fields of its arguments; it panics exactly when its arguments are of no use (no bound, an empty text, references that are not an array). (Violated: bounds above i64::MAX become negative; a_trait and unstable make a trait without a value, which cannot be merged with the same trait that has one.)",
      "every function and all arguments","All numbers, texts and maps of arguments.",
      [TR+": boxed, deprecated, documentation, ..., unstable",TR+": prelude_name"])
    p("C63","Builders of values and traits",
      "The value of an array builder is the array of all values pushed in their order; that of an object builder has for each key the last value given; a trait builder has the value of the last setter.",
      "every sequence of calls","Sequences of calls of any length.",
      ["atelier-core/src/builder/values.rs: ArrayBuilder, ObjectBuilder",TR+": TraitBuilder"])
    p("C64","Members of simple types",
      "The helpers of the builders for simple types (string, integer, ...) make a member that targets the prelude shape of that type, whatever else is in the model. (Violated by the helpers of StructureBuilder: they use the relative name, which a shape or an import of that name takes over; the helpers of MemberBuilder are right.)",
      "every simple type, member name and model builder","All model builders: the meaning of a relative name depends on every other entry.",
      [SH+": MemberBuilder::string etc., StructureBuilder::string etc.",BLD+": resolve_shape_name"])
    p("C65","What shape builders record",
      "Whatever the calls to the builder of a service, operation, resource, structure or union: single properties have the value of the last call, lists those of all calls in their order, and maps for each key the last; making it panics exactly when some argument is not a name.",
      "every sequence of calls","Sequences of calls of any length.",
      [SH+": ServiceBuilder, OperationBuilder, ResourceBuilder, StructureBuilder, MemberBuilder"])
    p("C66","Programs of the builder API make valid models",
      "For every program of calls to the builder API, a model that is built is well-formed, all its identifiers are valid, and (with finite numbers) it can be written as JSON and read again, up to the differences of C30. (Violated by programs that import a member of a shape, which nothing refuses: the result can be written but not read.)",
      "every program of calls, of any length and nesting","Programs of any length; the invariant has to hold after every call.",
      [BLD+": ModelBuilder",SH,TR,"atelier-json/src/writer.rs","atelier-json/src/reader.rs"])
    RW="atelier-rdf/src/writer.rs"
    p("C68","The RDF graph describes the model",
      "The graph written for a model has one node for the model, with its version and its shapes, and for every shape the class of its kind, its traits with their values, its members with their targets and traits, and its identifiers; it has no other statement about these nodes. (What the graph does not describe is in C70.)",
      "every well-formed model with valid identifiers and every IRI for it that is not that of one of its shapes","All models: the nodes of different shapes, traits and values must never meet.",
      [RW+": model_to_rdf, RdfWriter","atelier-rdf/src/vocabulary.rs","atelier-rdf/src/urn.rs"])
    p("C69","The RDF graph determines the model",
      "Two models with the same graph (up to the names of blank nodes) are the same model. (Proved up to what C70 says the graph loses: metadata, placeholders, renames, and the order and repetitions of lists; the only statement that can be proved, since these models do have the same graph.)",
      "every two well-formed models","All pairs of models and all renamings of blank nodes.",
      [RW+": model_to_rdf, RdfWriter"])
    p("C70","What the RDF graph loses",
      "The graph of a model has everything that is in the model. (Violated, for all models: metadata, placeholders with their traits, and the renames of services make no difference to the graph, and arrays with the same elements have the same graph whatever their order and repetitions.)",
      "every model, metadata, renames and arrays","Statements about all models: nothing the graph has can tell them apart.",
      [RW+": model_to_rdf, RdfWriter::from_value"])
    p("C71","Reading an RDF graph gives the model",
      "Reading the graph written for a model gives the model. (Violated: it panics for every model that defines a shape; without one, it gives an empty model of the same version. With an IRI other than that of the model it reports an error.)",
      "every well-formed model with valid identifiers","All models.",
      ["atelier-rdf/src/reader.rs: rdf_to_model, RdfReader"])
    GW="atelier-describe/src/graphml/writer.rs"
    p("C72","The GraphML document describes the model",
      "For a model whose service versions need no escapes in XML and which has at most 65535 traits and members, an XML document is written that can be read in one way only, with one node for every defined shape (its id, type, and version if it is a service) and one edge, with an id of its own, for every trait and every member. Two models with the same document define the same shapes, with the same traits and the same members.",
      "every well-formed model with valid identifiers","All models: that the text can be parsed in one way only is a statement about all trees and all texts.",
      [GW+": GraphMLWriter, GraphMLVisitor","atelier-core/src/model/visitor.rs: walk_model"])
    p("C73","Models of any size can be written as GraphML",
      "A GraphML document with distinct edge ids is written for a model of any size. (Violated: the edges are counted with 16 bits, so that with more than 65535 edges the writer panics if built with overflow checks, and writes edges with the same id otherwise.)",
      "every well-formed model","Models with more than 65536 edges, of every form.",
      [GW+": edge_id, VisitorState"])
    p("C74","GraphML documents follow GraphML",
      "Every data element has a declared key, every edge ends at nodes of the document, and the text of a version stays within its element. (Violated: the key of the Smithy version is declared under another name, in every document; edges end at nodes exactly if everything referred to, including all traits, is defined in the model; versions are not escaped, so that a version can make up further shapes.)",
      "every model","All models, all versions and all documents.",
      [GW+": GraphMLWriter::write, write_keys, traits, member, service"])
    p("C75","What the GraphML document loses",
      "The document has everything that is in the model. (Violated, for all models: metadata, placeholders, the values of traits, the traits of members, the renames of services and the identifiers of resources make no difference to the document.)",
      "every model and all other metadata, values, traits, renames and identifiers","Statements about all models.",
      [GW+": GraphMLVisitor"])
    PU="atelier-describe/src/plant_uml/writer.rs"
    p("C76","When PlantUML is written",
      "A PlantUML text is written for a model exactly if every operation that one of its services or resources refers to (as an operation, a collection operation or for a step of the lifecycle) is an operation of the model; otherwise the writer panics.",
      "every well-formed model","All models: a missing operation may be anywhere, and placeholders and other shapes count as missing.",
      [PU+": PlantUmlWriter::write, write_operation, write_service, write_resource"])
    p("C77","PlantUML packages",
      "The text has one package for each namespace of the model, with a drawing of every simple shape, service, resource, structure and union of that namespace: its stereotype, its traits except error and documentation, its members with their targets, its operations with their types, its notes and its associations. (Violated: every package has the drawings of all shapes of the model, whatever their namespaces; the theorem says exactly that.)",
      "every well-formed model that is written","All models with any number of namespaces and shapes.",
      [PU+": PlantUmlWriter::write, write_class, write_data_type, write_service, write_resource"])
    p("C78","What PlantUML tells apart",
      "The text shows for which step of the lifecycle of a resource an operation is, and the elements of traits. (Violated: all six are named create, so that models that differ only in this have the same text; nor do the traits of members, the elements of arrays and objects, renamed shapes and errors make a difference.)",
      "every two models that are alike in this sense","All pairs of models.",
      [PU+": write_resource, write_class_traits"])
    p("C79","PlantUML texts stay in their place",
      "The documentation of a shape is shown as a note. (Violated: that of simple shapes is written as it is, so that a documentation can make up any further string shape of the same namespace.)",
      "all shapes and all documentation","All texts.",
      [PU+": write_data_type"])
    DW="atelier-describe/src/document/writer.rs"
    p("C80","When a document is made",
      "A document about a model is made, unless the value of a documentation trait of a defined shape or of one of its members is not a string: then describe_model panics. A model of that kind can come from a Smithy text.",
      "every well-formed model","All models: the trait may be anywhere, and its value is any value.",
      [DW+": describe_model, describe_documentation"])
    p("C81","What a document is about",
      "The document has the version, the metadata, and for each namespace a part with each of its defined shapes once, in order: heading, documentation, links, table of traits, members, references. (Violated: namespaces that differ only in the case of letters each have a part with the shapes of both, so that these are described twice; the theorems state the exact document for all models.)",
      "every well-formed model","All models with any number of namespaces, shapes, members and traits.",
      [DW+": describe_model, describe_this_model, describe_model_shapes, describe_shape, describe_traits, describe_model_metadata"])
    p("C82","What a document tells apart",
      "Every defined shape, with its documentation, traits, members and references, is in the document, and the document tells models apart. (Violated: the identifiers of resources, the outer steps of paths into the values of traits, and which member the documentation and traits of members belong to make no difference.)",
      "every well-formed model and every pair of models that are alike","All models and all pairs of models.",
      [DW+": describe_shape, trait_value, describe_structure_or_union, describe_resource"])
    p("C83","The links of a document",
      "Every reference to a shape of the same namespace is a link to the heading of that shape, and external documentation is linked at its address. (Violated: labels leave out the namespace, so that they are distinct exactly if all names are; links to undefined shapes lead nowhere; addresses are put in quotes.)",
      "every well-formed model","All models; the theorems say exactly when labels are distinct and when links lead somewhere.",
      [DW+": shape_id_to_label, shape_link, describe_documentation"])
    SB="atelier-core/src/builder/selector.rs"
    p("C84","Selector builders",
      "A program of calls on the selector builders, with functions, definitions and attributes nested to any depth, builds the selector of the expressions it added, in order, where the last path and the last comparison of an attribute count; it panics exactly if there is a function without arguments, a scoped attribute without assertions, or a path of a scoped attribute without a key.",
      "every program of builder calls","All sequences and nestings of calls.",
      [SB+": SelectorBuilder, AttributeBuilder, ScopedAttributeBuilder"])
    p("C85","The texts of selectors that were built",
      "The text of a selector that was built is parsed as that selector. (Violated for comparisons with >= and <=, for comparisons with no values and for relationships without names: no text at all is parsed as the selector that was built. It holds for programs without these whose names and values are those of the grammar.)",
      "every program of builder calls, every text","All programs and all texts.",
      [SB+": SelectorBuilder, AttributeBuilder, ScopedAttributeBuilder","atelier-smithy/src/parser/selector.rs: parse_selector","atelier-core/src/model/selector/mod.rs: Display"])
    p("C86","Comparing with numbers",
      "A comparison of an attribute with numbers has these numbers as values. (Violated for scoped attributes: the values are texts.)",
      "all programs of builder calls, all numbers","All programs and numbers.",
      [SB+": AttributeBuilder::number_greater, ScopedAttributeBuilder::number_greater"])
    CA="cargo-atelier/src/"
    p("C87","Output files",
      "A command of the command line program with an output file puts its output into that file, creating or replacing it; so does write_model_to_file. (Violated, for every input, format and state of the file system: the file is opened for reading only, so the command never succeeds and no file is changed; for JSON the exit status is 0 all the same.)",
      "every command with an output file, every state of the file system, every writer","All inputs, all file systems, all models.",
      [CA+"actions.rs: write_model, document_a_file","atelier-core/src/io/mod.rs: write_model_to_file"])
    p("C88","The exit status",
      "The exit status of the command line program is 0 exactly if the command did what it was asked for, and the model has no errors if it was to be checked. (Violated: validate and lint have status 0 whatever they report, and convert and document of a text that is not JSON have status 0 with no output; all other errors of these are panics.)",
      "every command and every state of the file system","All file systems and files.",
      [CA+"bin/main.rs: main"])
    p("C89","What the program writes to the standard output",
      "Converting prints the JSON AST, the Smithy text of the namespace asked for (or the only one), or the PlantUML text of the assembled model, documenting the document, each after what C93 says is printed while files are read; nothing more if the model cannot be assembled; and no file is changed. A file with the JSON AST of a model is converted to a JSON AST of the same model. The theorems say exactly when there is a panic instead.",
      "every command without an output file, every state of the file system","All file systems and models.",
      [CA+"actions.rs: convert_file_format, document_file, write_model, document_a_file, assemble_model",CA+"bin/main.rs: main"])
    p("C90","Reports of issues",
      "Linting and validating print a report from which, without colours, all issues can be told, with their level, message, reporter and place, in their order.",
      "all lists of issues whose messages are of one line and whose reporters are of one word","All lists of issues of any length and all texts.",
      [CA+"report.rs: report_action_issues, report_issue_no_color",CA+"command_line.rs: check_command_line"])
    p("C91","Standard validation and lint",
      "The standard validation never fails and reports exactly the unresolved shapes, the references to the wrong kind of shape or to none, and simple shapes without traits; it is silent exactly if there is none of these. The standard lint never fails and reports exactly the names that are against their convention and the unwelcome words.",
      "every well-formed model","All models of any size.",
      ["atelier-lib/src/actions.rs: standard_model_validation, standard_model_lint"])
    p("C92","What a command works on",
      "A command of the command line program works on the merge of all files below the paths it is given, by themselves or in the search path, whose extension is json or smithy in any case, each read by the reader for its extension. The model is well-formed whatever is in the files. Validating reports exactly what is wrong with it, and says that there are no issues exactly if nothing is.",
      "every command, every state of the file system, every content of files","All directory trees of any depth, all contents.",
      [CA+"actions.rs: assemble_model, validate_file",CA+"report.rs: report_action_issues","atelier-assembler/src/lib.rs: ModelAssembler"])
    p("C93","Nothing but the output",
      "What a command of the command line program writes to the standard output is its output and nothing else. (Violated: the reader of JSON prints a line for every identifier of every resource it reads, so that a conversion to JSON is not JSON. The theorems say exactly what is printed, and that it is nothing if no JSON file has a resource with identifiers.)",
      "every command, every state of the file system, every content of files","All directory trees of any depth, all contents.",
      ["atelier-json/src/reader.rs: identifiers_hash",CA+"actions.rs: assemble_model"])
    p("C94","A program of the builder API makes what it says",
      "After any sequence of calls of the builder (shapes with bodies, members and traits, uses, references, apply, metadata) the builder has under each name what the last call for that name put there, with the traits applied since; the metadata is for each key the last value given; a shape declared by a name that nothing else in the program has is in the built model, in the namespace of the model, with the body, the members, the targets and the traits that the calls say. A call panics exactly if an argument is not what it asks for, or a trait is applied to a member that is not there; there are no other failures. (Violated: a shape declared under its absolute id is lost when a trait is applied to its name.)",
      "every sequence of calls of the public methods of the builders, of any length and nesting","All programs over an API of some hundred methods.",
      [BLD+": ModelBuilder",SB+": the shape builders","atelier-core/src/builder/traits.rs: TraitBuilder"])
    p("C95","Smithy IDL texts in any layout",
      "A text in the syntax of the Smithy IDL is read as what it says, wherever blank text (spaces, tabs, line ends of any kind, commas, comments) stands and in whatever amount: control statements, metadata, the namespace, imports, and shape statements of all kinds with documentation, traits (plain, with a value, with members), members and values of all kinds. Two texts that say the same in different layouts are read alike. The model has the metadata of the file, and each shape statement is the shape of its name in the namespace of the file, with the body, members, targets and traits it says. A version other than 1 and 1.0 is an error. (Violated: the traits of the member of a list or set, and of the key and value of a map, are lost; keys in quotes keep the quotes in metadata and in objects; escapes are kept as they are written; control statements and metadata without a namespace are lost.)",
      "every text derivable from an independent relational specification of the concrete syntax","All texts: unbounded nesting and length, all layouts.",
      ["atelier-smithy/src/parser/smithy.pest","atelier-smithy/src/parser/smithy.rs: parse_model, parse_idl, parse_shape_statement, parse_node_value, parse_a_trait"])
    p("C96","Nothing but the Smithy IDL is read",
      "A text that the reader accepts is a text in the syntax of the Smithy IDL, and what it is read as is what it says: when a model comes out of a text, either the text consists of control statements and metadata only, without a namespace, and the model is empty, or it is the text of a file, part by part, with documentation, traits, members, values, keys and targets as they are written, and the model is the one built from that: it has the metadata and the version of the file, the shape of each statement, and (when no import ends in the name of a statement) defines no other shapes. (Violated: blank text may be left out between a keyword and a name, between values, and between statements; the value of a trait may be several values, of which only the last counts; a map may have its key or value several times, of which the last counts.)",
      "every text, whether in the syntax or not","All texts: unbounded nesting and length; acceptance of texts outside the syntax cannot be refuted by tests.",
      ["atelier-smithy/src/parser/smithy.pest","atelier-smithy/src/parser/smithy.rs: parse_model, parse_idl, parse_shape_statement, parse_node_value, parse_a_trait"])
    p("C97","Several models merged are what they make together",
      "Models merged one after the other into an empty model succeed exactly if, for each metadata key, each shape id and each trait of each shape, what all of the models have for it fits together: values that are not arrays are equal, definitions agree or are placeholders (and all have the version; and no trait of a shape that is there already is applied under the id of a member). The result then has for each metadata key and each trait the arrays joined in the order of the models, or else the first of the values, and for each id the first definition that is not a placeholder; it has nothing else.",
      "every list of models, of any length","All lists of models of every size; each merge sees what all before it left.",
      ["atelier-core/src/model/mod.rs: Model::merge, add_shape, add_metadata","atelier-assembler/src/lib.rs: TryFrom<&mut ModelAssembler> for Model"])
    p("C98","The order in which models are merged does not matter",
      "Whether several models can be merged does not depend on their order, and the results differ only in the order of the elements of arrays in metadata and traits. So an assembler, and the commands, give the same model up to that order for the same paths pushed in any order, enumerated in any order (they are a hash set), given twice or in the search path, and with directories listed in any order. (Violated: arrays show the order; and a trait applied under the id of a member is accepted or refused depending on the order, which neither reader produces.)",
      "every list of models and every reordering of it; every file tree and every order of listing its directories at any depth","The order is that of a randomly seeded hash set and of the file system; a test sees one of them.",
      ["atelier-core/src/model/mod.rs: Model::merge","atelier-assembler/src/lib.rs: ModelAssembler, expand_file_paths, expand_path, TryFrom<&mut ModelAssembler> for Model"])
    p("C99","Merging does not depend on the grouping",
      "Merging b into a and then c succeeds exactly if merging c into b and the result into a does, with the same result; so any list of models may be cut in two, each part merged on its own and the second result merged into the first.",
      "every three models, and every list of models and every place to cut it","All models and groupings.",
      ["atelier-core/src/model/mod.rs: Model::merge"])
    p("C100","Questions about traits, members and the prelude",
      "The questions that can be asked of a shape or member about prelude traits (is it required, boxed, deprecated, has it documentation, a length, and so on) are each answered yes exactly if the one trait of that name is applied, whatever its value and whatever else is applied: after any history of calls that apply, append and remove traits, exactly if the trait was there or given and not removed since; after a merge exactly if either side had it; and a trait made by a builder function is found by its question and no other. A call that fails takes no trait away. A member is found under exactly its name. The shapes of the prelude are those of its namespace. (Violated: services, operations and resources say that they have members, but none is ever found; ids that are == (they differ in the case of letters of the namespace or trait) are not found, nor are members of structures, whereas in lists, sets and maps members are found in any case of letters.)",
      "every shape and member, every question, every sequence of calls of any length","All sets of traits and all histories of calls.",
      ["atelier-core/src/model/shapes/mod.rs: HasTraits, TopLevelShape","atelier-core/src/prelude.rs: prelude_shape_named, the TRAIT_ constants"])
    p("C101","Making and editing shapes",
      "Whatever calls make a list, set, map, structure or union, and however a shape is then edited in place in a model: a list or set has the member named member and a map made by its constructor has members named key and value, which are found under their names; a structure has each member under its own name, the last one given for it; editing a shape in place changes the one shape and nothing else, and leaves it stored under its own id, with its key once. (Violated: set_member takes a member named MEMBER, which the constructor refuses; Map::from takes members of any names; giving a body to a placeholder with the id of a member makes a model that cannot be merged into an empty one; set_id leaves the shape under its old id.)",
      "every value of the aggregate types that calls can make; every model made by calls of Model and edits in place","All histories of calls of any length.",
      ["atelier-core/src/model/shapes/mod.rs: ListOrSet, Map, StructureOrUnion, TopLevelShape","atelier-core/src/model/mod.rs: Model::shape_mut"])
    p("C102","Errors say what is wrong",
      "When reading a JSON document, reading a Smithy text or building a model fails, the error tells of a fault that is really there, with the text, id or name that is at fault: a value that is missing or has the wrong type at the place that is named, a text that is not an id or an identifier, the id of a member where a shape is expected, an unknown version, a number that does not fit, a name that two imports have, a text that the grammar does not accept. A JSON document with a fault is always refused, as is a builder with a name that cannot be resolved and a text that the grammar does not accept. (Violated: identifiers of a resource that are not an object are reported as a wrong rename.)",
      "every JSON document, every text, every model builder","All inputs: which of the many faults a document can have is reported, at any place and depth.",
      ["atelier-json/src/reader.rs: JsonReader","atelier-smithy/src/parser/smithy.rs: parse_model, parse_idl, parse_node_value","atelier-core/src/builder/mod.rs: TryFrom<&mut ModelBuilder> for Model, resolve_shape_name"])
    p("C103","Writing and reading again settles",
      "What a first trip through a format changes, it changes once: every model that was read from a JSON document is written as JSON and read again as the same model, so that any number of further trips changes nothing; and a model without metadata whose namespace can be written in the Smithy IDL is written and read, and what was read is written and read again as the same model. (Violated for the IDL: keys of metadata are read with their quotes and written in quotes, so that what is written for a model with metadata that was read from the writer's own text is not accepted by the reader.)",
      "every JSON document, every model that can be written, any number of trips","All models and any number of repetitions.",
      ["atelier-json/src/reader.rs: JsonReader","atelier-json/src/writer.rs: JsonWriter","atelier-smithy/src/writer.rs: SmithyWriter","atelier-smithy/src/parser/smithy.rs: parse_model"])
    p("C104","From the Smithy IDL to JSON and back",
      "Every model that is read from a text of the Smithy IDL and has no NaNs and infinities can be written as JSON, and is read from that as it was but for the members of its maps, which are named member (so it comes back the same exactly if it has no maps); and for a model without metadata that can be written in the IDL, IDL to JSON to IDL gives the model that was read from the IDL first, maps included.",
      "every text of the IDL, every model that can be written","All texts and models.",
      ["atelier-json/src/reader.rs: JsonReader","atelier-json/src/writer.rs: JsonWriter","atelier-smithy/src/writer.rs: SmithyWriter","atelier-smithy/src/parser/smithy.rs: parse_model"])
    p("C105","Messages tell errors and issues apart",
      "Two different errors of the library never have the same message: the message of an error tells its kind and its arguments (the text, the id, the key, or the representation, the place and the context), as long as a text that another one follows is without quotes (without that it is violated). In the same way the line printed for an issue tells who reports it, how grave it is, where it is and what it says: the issues that the validators and linters find in any models print the same only if they are the same, and none of them is without a message, so making them never panics.",
      "every error, every issue, every model","All errors with all arguments; all issues of all models.",
      ["atelier-core/src/error.rs: ErrorKind","atelier-core/src/action/mod.rs: ActionIssue, Display for ActionIssue","atelier-core/src/action/validate/mod.rs: CorrectTypeReferences, NoUnresolvedReferences","atelier-core/src/action/lint/mod.rs: NamingConventions, UnwelcomeTerms"])
    p("C106","Validators, linters and queries see only the outline of a model",
      "What the validators, the linters, the question whether a model is complete, and queries of shape types find in a model depends only on its shapes, their kinds and references, the names of the members of structures and unions, and which traits are applied: not on the values of traits, on metadata, on versions and renames of services, or on the order in which anything is stored. Therefore a model that is written as JSON and read again gives the same findings, as does a model that is read from the Smithy IDL and converted to JSON, and one without sets in one namespace that is written in the IDL and read again.",
      "every pair of models with the same outline, every model that can be written, every selector","All models and all orders of their maps; a test compares a few.",
      ["atelier-core/src/action/validate/mod.rs: CorrectTypeReferences, NoUnresolvedReferences","atelier-core/src/action/lint/mod.rs: NamingConventions, UnwelcomeTerms","atelier-query/src/evaluate.rs: query","atelier-json/src/reader.rs: JsonReader","atelier-json/src/writer.rs: JsonWriter","atelier-smithy/src/writer.rs: SmithyWriter"])
    p("C107","Exactly which accepted Smithy IDL texts fail, and with what error",
      "Reading a text that the grammar of the Smithy IDL accepts fails exactly if one of its parts is wrong: a number that is not representable; an unknown version in the control section (of the last version statement); a list or set without exactly one member named member; a map with a member other than key and value, or without one of them; a service without a version that is a text; an unknown property of a service, operation or resource, or one whose value is not an array of names, a name or an object of identifiers and names as it should be; an apply statement; a trait with both a value and members; a trait or a member with a name that is relative and has a member. The error is the error of one of these faults (unexpected content, with the name of the function that reads the list, map, statement or trait at fault, and the name of an unknown property; the number format, the version, or, for missing versions and what should be names, a panic). Without any of them the result is the empty model if there is no namespace, and otherwise that of building what is in the file.",
      "every text that the grammar accepts","All texts, of any length and nesting, with any number of faults.",
      ["atelier-smithy/src/parser/smithy.rs: parse_model, parse_idl, parse_shape_statements, parse_list_statement, parse_map_statement, parse_service_statement, parse_operation_statement, parse_resource_statement, parse_a_trait, parse_shape_member_kvp, parse_node_value","atelier-smithy/src/smithy.pest"])
    p("C108","What is written does not depend on the order of hash maps",
      "A model is held in hash maps, which are enumerated in another order in every run. For the same model in any two orders: the JSON documents are the same but for the order of the entries of objects, and the very same once these are sorted; the GraphML documents have the same nodes and the same edges up to order and the ids of edges; the texts in the Smithy IDL are read as the same model; the diagrams have the same packages; the documents about the model have the same titles and links; all of them are refused for one order if and only if they are for the other. (Violated for RDF: the identifiers of a resource are numbered in the order of enumeration, so the graphs of the same model are the same, up to blank nodes, if and only if that order is.)",
      "every pair of models that are the same up to the order of their maps at any depth","All orders of all maps: a test runs in one of them.",
      ["atelier-json/src/writer.rs: JsonWriter","atelier-rdf/src/writer.rs: RdfWriter, model_to_rdf","atelier-describe/src/graphml/writer.rs: GraphMLWriter","atelier-describe/src/plant_uml/writer.rs: PlantUmlWriter","atelier-smithy/src/writer.rs: SmithyWriter","atelier-describe/src/document/writer.rs: describe_model"])
    p("C109","Commands work together: converting first makes no difference",
      "The output of cargo atelier convert to JSON, put in a file, is accepted by every command, and the model they work on is the one that was converted, but for what JSON does not keep (valueless traits have an empty object, members of lists, sets and maps are named member). validate and lint report the same about that file as about the original files (by reporter, level and shape or message), and converting it to JSON once more prints the very same text. The output of a conversion to the Smithy IDL is read as what the IDL keeps of the model. The order of the entries of objects in a JSON file makes no difference to what is read. Files that can be put together can still be put together after each is converted to JSON by itself, to what a conversion of all of them at once gives. (All of it as long as nothing is printed for identifiers of resources, C93.)",
      "every file system, all input files and search paths, every model that can be assembled, every order of the entries of JSON objects","All models and files: two runs of a program are related, over all inputs of the first.",
      ["cargo-atelier/src/bin/main.rs: main","cargo-atelier/src/actions.rs: convert_file_format, assemble_model, lint_file, validate_file","atelier-json/src/reader.rs: JsonReader","atelier-json/src/writer.rs: JsonWriter","atelier-core/src/model/mod.rs: Model::merge"])
    p("C110","The options of the command line say what the program does",
      "The program runs the sub-command that is given, on the files given with -i and those of the search path, and with the output file, format and namespace given; the format of convert is json unless json, smithy or uml is given, and that of document is markdown unless another one that exists is given. The search path is none without -d and -s, the default one with -d, and the one in the environment variable that is named with -s; no other variable is looked at (so -d does not take the variable SMITHY_PATH that its help promises). The program stops before it does anything exactly if both -d and -s are given, or a format that does not exist. Output is in color unless --no-color is given; with it, and for convert and document always, nothing of the styles is printed. How verbose logging is makes no difference to what is written.",
      "every command line, every file system and environment","All combinations of options, with all their values.",
      ["cargo-atelier/src/command_line.rs: parse, make_search_path","cargo-atelier/src/lib.rs: Command, FileFormat","cargo-atelier/src/bin/main.rs: main"])
    p("C111","A target that fails gets a beginning of the text, and its failure is reported",
      "A model can be written to any target (a file, a socket, a buffer), and a target can fail at any point. Whatever the target does, the writers of the line-oriented form, the Smithy IDL, GraphML and PlantUML give it the same text, from its beginning, in order, each part once and nothing after a failure. So what has arrived is always a beginning of that text; success is reported only if all of it arrived; a failure of the target is reported as that failure, and is one the target reported. A target with room for n characters gets exactly the first n, and failure is reported exactly if the text is longer. Only GraphML (no more numbers for edges) and PlantUML (an operation that is not there) fail by themselves, and then after all they had to write before.",
      "every model, every target with any behaviour and state, every point of failure","All targets, which can fail at any write after any number of characters; a test tries a few.",
      ["atelier-core/src/io/mod.rs: ModelWriter, write_model_to_string","atelier-core/src/io/lines.rs: LineOrientedWriter","atelier-smithy/src/writer.rs: SmithyWriter","atelier-describe/src/graphml/writer.rs: GraphMLWriter","atelier-describe/src/plant_uml/writer.rs: PlantUmlWriter"])
    p("C112","A source that fails gives no model, and pieces make no difference",
      "A model can be read from any source of bytes, which gives them in any pieces (cut anywhere, also within a character), can be interrupted, and can fail at any point. Reading the Smithy IDL ends exactly if the source comes to its end or fails. If the source fails, its failure is reported and there is no model, even if all that came before is a complete text. Otherwise the result depends only on the bytes together: bytes that are not UTF-8 are an error, and the bytes of a text give what the text gives. The same holds for JSON, but that a text can be refused before the source ends or fails. Reading from a string gives what the text gives. Expected also: a text that was cut off is refused. Violated for the Smithy IDL: a target that has no more room can leave exactly the text of the model without its last shapes, or with a shorter name for one of them, which is read without an error.",
      "every source with any behaviour and state, every way of cutting the bytes, every text, every parser of JSON that takes one byte after the other","All sources: all pieces, interruptions and points of failure.",
      ["atelier-core/src/io/mod.rs: ModelReader, read_model_from_string","atelier-smithy/src/reader.rs: SmithyReader","atelier-json/src/reader.rs: JsonReader","atelier-smithy/src/writer.rs: SmithyWriter"])
    p("C113","Names in the builder API",
      "In the builder API a name is a text: a shape id (ns#Shape or ns#Shape$member) is a qualified name, an identifier is a relative one, every other text is an error that names the text, in particular a relative name with a member (Shape$member). A name that was read is printed as it was written, every name with valid parts can be read back from what is printed, so different names are printed differently. A name is either relative or qualified; the relative ones have neither namespace nor member; and namespace, shape name and member together are the text. A name equals a shape id, or an identifier, exactly if both are written the same but for the case of letters.",
      "every text, every name, every pair of a name and a shape id or an identifier","All texts and names.",
      ["atelier-core/src/builder/id.rs: ShapeName"])
    p("C114","Selectors can be taken apart, compared and edited in place",
      "After any setters each part of a selector is what the last setter for it says, and a list of parts (the path of a key, the values of a comparison, the assertions of a scoped attribute, the arguments of a function, the expressions of a selector) is what was in it and what was added, in order, without what was taken away since; other parts do not matter. Two selectors are == exactly if they have the same expressions at any depth, with equal texts, numbers and settings, and names and ids that are the same but for the case of letters. Constructors make what they are named after. Each value, segment, expression and projection answers yes to exactly one question about its kind and is taken apart into exactly what it was made from. (Violated: selectors that differ in the case of a name, and are printed differently, are ==, and removing one removes the other, whereas a NaN is never removed. Setters can take all arguments from a function and all assertions from a scoped attribute, which the constructors refuse; no text at all is read as such a selector. string_starts_with compares with a text that has what is printed for the value, with quotes; assertions made with a number compare with its text.)",
      "every part of a selector, every sequence of setters, every pair of selectors, every value","All sequences of calls, all selectors of any depth, all texts and numbers.",
      ["atelier-core/src/model/selector/mod.rs: Selector, SelectorExpression, AttributeSelector, AttributeComparison, Key, KeyPathSegment, Value, ScopedAttributeSelector, ScopedAttributeAssertion, ScopedValue, NeighborSelector, Function, VariableDefinition, VariableReference","atelier-query/src/projection.rs: Projection","atelier-core/src/macros.rs: array_member"])
