{"id": "C01", "title": "Identifier syntax is decided exactly", "statement": "Identifier::from_str(s) succeeds exactly when s is zero or more underscores, then an ASCII letter, then any number of ASCII letters, digits or underscores; on success to_string() gives back s unchanged, and is_valid(s) agrees with from_str(s).is_ok().", "quantifier": "every string s", "why_tests_cant": "The set of strings is infinite; a handful of accepted and rejected samples cannot pin the language down.", "anchors": ["atelier-core/src/model/identity.rs: Identifier::from_str, Identifier::is_valid, RE_IDENTIFIER, Display for Identifier"]}
{"id": "C02", "title": "Namespace syntax is a dotted list of identifiers", "statement": "NamespaceID::from_str(s) succeeds exactly when s is one or more valid identifiers joined by '.', and split() on the parsed value yields exactly those identifiers in order; this is the same language as the namespace part accepted inside a ShapeID.", "quantifier": "every string s and every non-empty list of identifiers", "why_tests_cant": "Both the accepting and the rejecting direction range over all strings.", "anchors": ["atelier-core/src/model/identity.rs: NamespaceID::from_str, NamespaceID::is_valid, NamespaceID::split, RE_NAMESPACE, RE_SHAPE_ID"]}
{"id": "C03", "title": "ShapeID text round-trips and is unambiguous", "statement": "For every ShapeID built from valid components, ShapeID::from_str(id.to_string()) returns exactly its three components; for every string s accepted by from_str, to_string() of the result is s. Two ShapeIDs with valid components that print the same are the same, and from_str(s) succeeds exactly when s matches the documented grammar namespace#name($member)?.", "quantifier": "every ShapeID with valid components; every string", "why_tests_cant": "Round-tripping and injectivity are statements about all identifiers.", "anchors": ["atelier-core/src/model/identity.rs: ShapeID::from_str, Display for ShapeID, RE_SHAPE_ID"]}
{"id": "C04", "title": "Identity equality is case-insensitive and an equivalence", "statement": "== on Identifier, NamespaceID and ShapeID is reflexive, symmetric and transitive; it ignores ASCII letter case and nothing else; a ShapeID and its member ids are never equal.", "quantifier": "every pair and triple of ids made of ASCII text", "why_tests_cant": "Equivalence laws quantify over all pairs and triples.", "anchors": ["atelier-core/src/model/identity.rs: PartialEq for Identifier, PartialEq for NamespaceID, ShapeID (derived PartialEq)"]}
{"id": "C05", "title": "Equality and hashing of ids (HashMap key contract)", "statement": "Expected: two ShapeIDs (or Identifiers) that are == feed the same data to the hasher, so that a model looked up with an equal id finds the same shape. The code violates this: equality ignores case, hashing does not. Exactly: whatever the hash function and the order of the table, looking up an id gives what is stored under the identical id, or what is stored under an id that is == to it; and each of these does happen for some hash function and order. When no other key of the table is == to the id, the result is what is stored under the identical id.", "quantifier": "every pair of ids; every hash function", "why_tests_cant": "The failure depends on the hash seed; a test can pass or fail by luck.", "anchors": ["atelier-core/src/model/identity.rs: derive(Hash) vs PartialEq for Identifier / NamespaceID / ShapeID", "atelier-core/src/model/mod.rs: Model::shape"]}
{"id": "C06", "title": "Id navigation helpers are coherent", "statement": "shape_only() removes exactly the member part and is idempotent; make_member(m) sets exactly the member part; id.is_valid_member(other) holds exactly when id has no member, other has one and other.shape_only() == id; ShapeID::shape/member build the id whose components are the given strings, and panic exactly when one of them is not valid.", "quantifier": "every id and every component string", "why_tests_cant": "Laws over all ids.", "anchors": ["atelier-core/src/model/identity.rs: ShapeID::shape_only, make_member, make_shape, is_valid_member, is_in_same_namespace, shape, member"]}
{"id": "C07", "title": "URN encoding of shape ids is a bijection onto its image", "statement": "iri_to_shape(shape_to_iri(id)) = Ok(id) for every valid id, whose IRI is the text urn:smithy:{namespace}:{name}(/{member})?; distinct ids get distinct IRIs. Whenever iri_to_shape(iri) = Ok(id) for an IRI without authority, query and fragment (a URN has none; others are ignored when reading), the id is valid and shape_to_iri(id) is that IRI. is_shape_iri accepts exactly the IRIs with scheme urn and the path of the IRI of a valid id. The error for all others says exactly why: another scheme, a path that does not begin with smithy:, a character that does not belong there, or no valid shape id.", "quantifier": "every shape id with valid components; every IRI", "why_tests_cant": "Injectivity and inverse laws range over all ids.", "anchors": ["atelier-rdf/src/urn.rs: shape_to_iri, iri_to_shape"]}
{"id": "C08", "title": "Keyword tables are inverse pairs", "statement": "For Version, Simple names, selector ShapeType, selector Comparator and the command line FileFormat: parsing the printed form gives back the value; a string is accepted only if it is the printed form of some value (or, for Version, the documented abbreviation '1').", "quantifier": "every value of each enumeration and every string", "why_tests_cant": "The rejecting direction ranges over all strings.", "anchors": ["atelier-core/src/lib.rs: Version", "atelier-core/src/model/shapes/simple.rs: Display for Simple", "atelier-core/src/model/selector/mod.rs: ShapeType, Comparator", "cargo-atelier/src/lib.rs: FileFormat"]}
{"id": "C09", "title": "Node value equality", "statement": "== on values is symmetric and does not depend on the order in which object keys were inserted; a value is equal to itself exactly when it contains no NaN anywhere.", "quantifier": "every node value, however deeply nested", "why_tests_cant": "Values are an unbounded recursive type.", "anchors": ["atelier-core/src/model/values.rs: Value, Number (derived PartialEq)"]}
{"id": "C10", "title": "Metadata conflict resolution", "statement": "add_metadata(k, v): a new key is stored; if both old and new are arrays the stored array becomes old ++ new; if old == v nothing changes; every other case is MergeMetadataConflict and nothing changes. No other key is affected in any case.", "quantifier": "every model, key and value", "why_tests_cant": "All states and values, including nested ones.", "anchors": ["atelier-core/src/model/mod.rs: Model::add_metadata"]}
{"id": "C11", "title": "Membership predicates against lookup", "statement": "Expected: has_shape(id) iff shape(id) is Some, has_metadata_value(k) iff metadata_value(k) is Some, has_member(m) iff member(m) is Some, has_identifier(n) iff identifier(n) is Some. The code violates all four, for every model and key: each is true exactly when the lookup finds nothing. has_trait, TopLevelShape::has_member, has_metadata and has_shapes agree with their lookups.", "quantifier": "every model/shape and key", "why_tests_cant": "The claim is an equivalence for all states and keys.", "anchors": ["atelier-core/src/model/mod.rs: has_shape, has_metadata_value", "atelier-core/src/model/shapes/aggregate.rs: StructureOrUnion::has_member", "atelier-core/src/model/shapes/service.rs: Resource::has_identifier"]}
{"id": "C12", "title": "Trait conflict resolution", "statement": "apply_with_value(t, v): a member id is rejected; a new trait is stored with its value; two array values are concatenated; equal values are kept; anything else is MergeTraitConflict with the element unchanged. Other traits are never affected.", "quantifier": "every element, trait id and optional value", "why_tests_cant": "All states and values.", "anchors": ["atelier-core/src/model/shapes/mod.rs: apply_with_value, merge_traits, append_traits"]}
{"id": "C13", "title": "Shape conflict resolution", "statement": "add_shape(s) on a model: if the id is new the shape is stored as is; if the stored shape is a definition of another type, or with other members/targets/properties, the result is MergeShapeConflict and the model is unchanged; a stored definition is never replaced by another body; a definition replaces an unresolved placeholder; traits are combined by the trait rules. Other shapes, metadata and the version are never affected.", "quantifier": "every model and shape", "why_tests_cant": "All states.", "anchors": ["atelier-core/src/model/mod.rs: Model::add_shape, copy_traits", "atelier-core/src/model/shapes/mod.rs: TopLevelShape::equal_without_traits"]}
{"id": "C14", "title": "When add_shape and merge panic", "statement": "Expected: add_shape reports every conflict as an error value and never panics. Exactly: add_shape panics iff the model has a structure and the new shape is a structure of the same id (or both are unions), with equally many members, and the stored members, in the order of their table, agree with the new ones up to one that the new shape does not have. So for given contents, a panic is possible for some order iff some stored member is missing in the new shape, and happens for every order iff moreover all members they share agree. In all other cases there is no panic.", "quantifier": "every model and shape, every enumeration order", "why_tests_cant": "A panic hidden in one shape combination is found only by considering all of them.", "anchors": ["atelier-core/src/model/shapes/mod.rs: equal_without_traits (unwrap on r.member(k))", "atelier-core/src/model/mod.rs: Model::add_shape"]}
{"id": "C15", "title": "A successful merge keeps everything and invents nothing", "statement": "After a.merge(b) succeeds, the metadata keys are exactly the union, the shape ids are exactly the union, each metadata value is a's, b's or the concatenation, each shape defined in a keeps its body, and each shape only defined in b has b's body; the version is unchanged.", "quantifier": "every pair of models", "why_tests_cant": "All pairs of models of every size.", "anchors": ["atelier-core/src/model/mod.rs: Model::merge"]}
{"id": "C16", "title": "The empty model is neutral for merge", "statement": "Merging an empty model of the same version into m succeeds and leaves m unchanged; merging m into an empty model of the same version succeeds and gives m, provided m's own ids are legal.", "quantifier": "every model", "why_tests_cant": "All models.", "anchors": ["atelier-core/src/model/mod.rs: Model::merge, Model::new"]}
{"id": "C17", "title": "Merge does not depend on hash iteration order", "statement": "Whether a.merge(b) succeeds, and the resulting model when it does, do not depend on the order in which b's metadata, shapes and traits are enumerated (randomly seeded HashMaps).", "quantifier": "every pair of models and every enumeration order of every map in b", "why_tests_cant": "Iteration order is random per process; tests see a few orders only.", "anchors": ["atelier-core/src/model/mod.rs: Model::merge, copy_traits"]}
{"id": "C18", "title": "What a failed merge leaves behind", "statement": "Expected: if merge returns an error the receiving model is the same as before. The code violates this. Exactly: when merging b into a fails with an error (or a panic), there is a first entry of b, going through metadata and then shapes and their traits in the order of the tables, that cannot be combined with a's entry; the error names this entry; and what is left is the result of merging into a the part of b before that entry. A failed add_metadata changes nothing.", "quantifier": "every pair of models", "why_tests_cant": "The damage depends on the failing element and on iteration order.", "anchors": ["atelier-core/src/model/mod.rs: Model::merge, add_shape, copy_traits"]}
{"id": "C19", "title": "Merge order of models does not matter for definitions", "statement": "If a.merge(b) and b.merge(a) both succeed they define the same shape ids with the same bodies up to ==, the same traits and the same metadata keys, with the same values but for the order of concatenated arrays; success of one implies success of the other, if the traits in the receiving model are applied under shape ids.", "quantifier": "every pair of models (for success: whose traits are applied under ids of shapes, not of members)", "why_tests_cant": "All pairs.", "anchors": ["atelier-core/src/model/mod.rs: Model::merge"]}
{"id": "C20", "title": "Merging a model into itself", "statement": "Expected: m.merge(m.clone()) succeeds and changes nothing. Exactly: it succeeds iff no metadata or trait value is in conflict with itself (a NaN in a place where values must be equal) and ids are legal; when it succeeds, every array that is the value of metadata or of a trait is doubled; it succeeds and changes nothing iff moreover all such arrays are empty.", "quantifier": "every model", "why_tests_cant": "All models.", "anchors": ["atelier-core/src/model/mod.rs: Model::merge, add_metadata, add_shape"]}
{"id": "C21", "title": "Completeness after merge", "statement": "is_complete() is true exactly when unresolved_shape_names() is empty; after a successful a.merge(b) a shape is unresolved exactly when some side has a placeholder for it and no side defines it, so the merged model is complete exactly when every placeholder of either side is defined by the other.", "quantifier": "every pair of models", "why_tests_cant": "All pairs.", "anchors": ["atelier-core/src/model/mod.rs: is_complete, unresolved_shape_names, shape_names, merge"]}
{"id": "C22", "title": "Shapes are stored under their own id", "statement": "In every model reachable from Model::new by add_shape, remove_shape, add_metadata, remove_metadata and merge (failed calls included), shape(id) = Some(s) implies s.id() is id, ids are unique, and only unresolved placeholders have member ids; shape_names and unresolved_shape_names partition the stored ids.", "quantifier": "every sequence of operations", "why_tests_cant": "Unbounded operation histories.", "anchors": ["atelier-core/src/model/mod.rs: Model::new, add_shape, remove_shape, merge, shape_names, unresolved_shape_names"]}
{"id": "C23", "title": "Collection members of services, operations and resources", "statement": "add_x appends one element, append_xs appends all in order, remove_x removes exactly the elements equal to the given id (all of them) and keeps the order of the rest, set_xs replaces; add/set from a shape only accept shapes of the right kind and otherwise change nothing.", "quantifier": "every sequence of calls", "why_tests_cant": "Unbounded histories.", "anchors": ["atelier-core/src/macros.rs: array_member, optional_member, hash_member", "atelier-core/src/model/shapes/service.rs: Service, Operation, Resource"]}
{"id": "C24", "title": "Name resolution in the model builder", "statement": "A qualified name resolves to itself; a local name resolves to the unique `uses` import of that name, else to the shape of that name defined in the builder (default namespace), else to the prelude shape (or trait) of that name, else to the default namespace, recorded as unresolved; two imports of one name are AmbiguousShape.", "quantifier": "every builder state and name", "why_tests_cant": "All import/definition combinations.", "anchors": ["atelier-core/src/builder/mod.rs: resolve_shape_name, resolve_shape_name_inner"]}
{"id": "C25", "title": "Built models contain only absolute shape ids", "statement": "Building succeeds only if every name mentioned in the builder stands for an id, and if they all do it succeeds or panics (C14). The model has the version and the metadata given; every shape is stored under its own id; the ids are exactly those that the entries of the builder stand for, and the ids guessed for unknown names. An id with a member part occurs only as a placeholder, for an import of a member: another entry whose name stands for a member is dropped. An entry that is the only one for its id gives the shape with all its content.", "quantifier": "every builder, every order in which its tables are enumerated", "why_tests_cant": "All builders.", "anchors": ["atelier-core/src/builder/mod.rs: TryInto<Model> for ModelBuilder"]}
{"id": "C26", "title": "References in built models are accounted for", "statement": "For a shape target written as a local name that is neither imported, defined locally, nor a prelude name, the built model has an unresolved placeholder for it, hence is_complete() is false unless a definition with that id was added.", "quantifier": "every builder", "why_tests_cant": "All builders.", "anchors": ["atelier-core/src/builder/mod.rs: ModelBuilder try_from, resolve_shape_name, unresolved"]}
{"id": "C27", "title": "The type of a built shape", "statement": "Expected: a shape declared in the builder as a list/set/map/structure/... has that type in the model. Exactly: every defined shape of a built model has the type that the first entry of the builder for its id declares, except that a set has become a list, always.", "quantifier": "every builder", "why_tests_cant": "All builders.", "anchors": ["atelier-core/src/builder/mod.rs: make_set, make_shape"]}
{"id": "C28", "title": "What building does with conflicts", "statement": "Expected: if metadata or shapes in the builder conflict, building returns an error. The code violates this. Exactly: building never reports a conflict; the shapes of the entries are added in turn, those that conflict with what is already there being dropped without an error, so that a defined id has the definition of the first entry for it; adding a second entry or metadata value under the same name to the builder replaces the first; when no two entries stand for the same id nothing is lost.", "quantifier": "every builder", "why_tests_cant": "All builders.", "anchors": ["atelier-core/src/builder/mod.rs: TryInto<Model> for ModelBuilder"]}
{"id": "C29", "title": "Duplicate traits in a builder", "statement": "Expected: a trait applied twice through the builder is combined by the trait conflict rules. Exactly: of the traits of an entry with the same id, the last one replaces the others without an error, whatever their values; so the rules are broken exactly by repeated traits, and entries without repeated traits keep all their traits.", "quantifier": "every list of applied traits", "why_tests_cant": "All lists.", "anchors": ["atelier-core/src/builder/mod.rs: make_traits"]}
{"id": "C30", "title": "What comes back from a JSON AST", "statement": "Expected: reading the JSON AST written for a model gives back an equal model. Exactly: every valid model without NaNs and infinities is written as a JSON AST of it, and reading that gives the model with the members of lists, sets and maps named 'member' and an empty object as the value of each valueless trait; so the model comes back as it was iff its list, set and map members are named 'member' (for maps made by the builder or the IDL reader they are not) and all traits have values.", "quantifier": "every model", "why_tests_cant": "All models of every size and nesting.", "anchors": ["atelier-json/src/writer.rs: JsonWriter, Visitor", "atelier-json/src/reader.rs: JsonReader, ParserReader"]}
{"id": "C31", "title": "When the JSON AST reader panics", "statement": "Expected: for every JSON value the reader returns a model or an error. Exactly: the reader panics iff the version is \"1.0\" or \"1\" and, going through the shapes in the order of the document, it comes to a service whose version is the empty text, with a valid id, all shapes before which could be read; in all other cases it returns a model or an error.", "quantifier": "every JSON value", "why_tests_cant": "All JSON documents.", "anchors": ["atelier-json/src/reader.rs: model, shape, service"]}
{"id": "C32", "title": "JSON values round-trip", "statement": "Reading back the JSON written for a node value gives the same value, at any nesting depth (finite floats); writing panics on NaN and infinities; an unsigned JSON integer above i64::MAX is not preserved.", "quantifier": "every node value; every JSON number", "why_tests_cant": "All nestings and all 64-bit integers.", "anchors": ["atelier-json/src/writer.rs: from_value", "atelier-json/src/reader.rs: value"]}
{"id": "C33", "title": "Line-oriented form is canonical", "statement": "make_line_oriented_form(model) is sorted and does not depend on the enumeration order of any map in the model, so models with the same contents give identical lines; the written form is these lines. (Models that are only == may differ in the case of target ids, and then have different lines.)", "quantifier": "every model and every enumeration order", "why_tests_cant": "HashMap order is random.", "anchors": ["atelier-core/src/io/lines.rs: make_line_oriented_form"]}
{"id": "C34", "title": "Line-oriented form mentions everything", "statement": "For every shape, member, property, applied trait, and leaf of a trait or metadata value of the model there is a line for it; conversely each line comes from one of those, and their number is the number of these. The lines determine the shapes, their types, members, targets and traits. Exactly: two models without `<` in metadata keys and `}` in object keys have the same lines if and only if they have the same metadata and the same shapes, up to numbers that are printed alike (1 and 1.0), the order of map entries, and the order of the targets of services, operations and resources; without that restriction on keys different values can have the same lines.", "quantifier": "every model; for what the lines determine: well-formed models with valid ids, and the members of lists, sets and maps called member, key and value", "why_tests_cant": "All models.", "anchors": ["atelier-core/src/io/lines.rs: make_line_oriented_form, from_*"]}
{"id": "C35", "title": "Unresolved references are reported exactly", "statement": "NoUnresolvedReferences reports one error per unresolved shape and nothing else; it reports nothing exactly when is_complete().", "quantifier": "every model", "why_tests_cant": "All models.", "anchors": ["atelier-core/src/action/validate/mod.rs: NoUnresolvedReferences"]}
{"id": "C36", "title": "Reference type checking is sound and complete", "statement": "CorrectTypeReferences reports an error exactly when some member/operation/resource/service reference targets, inside the model, a shape of a kind not allowed there; a reference to a shape not in the model is reported as a warning unless it is in the prelude namespace; each reference is reported at most once per occurrence.", "quantifier": "every model", "why_tests_cant": "All models.", "anchors": ["atelier-core/src/action/validate/mod.rs: CorrectTypeReferences"]}
{"id": "C37", "title": "Action runners collect issues in order; what fail_fast does", "statement": "run_validation_actions / run_linter_actions return the concatenation of the issues of all actions in order, or the first failure. Expected: with fail_fast they stop after the first action that reports an error. Exactly: fail_fast changes nothing, neither the result nor which actions are run; the expected result is the actual one when only the last action reports errors.", "quantifier": "every list of actions and every model", "why_tests_cant": "All action lists.", "anchors": ["atelier-core/src/action/mod.rs / lint/mod.rs / validate/mod.rs: run_linter_actions, run_validation_actions"]}
{"id": "C38", "title": "The level of linter issues", "statement": "Expected: linter issues have level Info, as documented. Exactly: all issues of NamingConventions have level Info, and all issues of UnwelcomeTerms have level Warning.", "quantifier": "every model", "why_tests_cant": "All models.", "anchors": ["atelier-core/src/action/lint/mod.rs", "atelier-core/src/action/lint/terms.rs"]}
{"id": "C39", "title": "Model visitor completeness", "statement": "walk_model calls the visitor once for every metadata entry, then once for every top-level shape with the callback for its kind, and stops at the first callback error, returning it.", "quantifier": "every model and visitor", "why_tests_cant": "All models and all error points.", "anchors": ["atelier-core/src/model/visitor.rs: walk_model"]}
{"id": "C40", "title": "Query evaluation", "statement": "Evaluating a selector of shape-type expressions returns exactly the resolved shape names whose kind satisfies every expression; evaluation order of the expressions does not matter; unresolved shapes are never returned.", "quantifier": "every model and every list of shape-type expressions", "why_tests_cant": "All models and selectors.", "anchors": ["atelier-query/src/evaluate.rs: query, query_one, match_by_shape_type"]}
{"id": "C41", "title": "What the shape type classes match", "statement": "Expected: number matches exactly the numeric simple types, collection exactly lists and sets, simpleType exactly simple shapes, each other type its shapes. Exactly: number matches the numeric simple types except byte and long; collection matches lists, sets and maps; every other shape type matches exactly the shapes it is documented to match.", "quantifier": "every shape", "why_tests_cant": "Finite table times all shapes.", "anchors": ["atelier-query/src/evaluate.rs: match_by_shape_type", "atelier-core/src/model/selector/mod.rs: ShapeType docs"]}
{"id": "C42", "title": "File type registry behaves like a case-insensitive map", "statement": "After any sequence of registrations and removals, get and contains by extension give the last registration for that extension ignoring case, and the extensions listed are those, in lower case, each once; removing returns what was there and leaves other extensions as they are; looking up a MIME type gives the last file type registered with it (by register, not register_all), and removing an extension does not change that.", "quantifier": "every sequence of registry operations", "why_tests_cant": "Unbounded histories.", "anchors": ["atelier-assembler/src/lib.rs: FileTypeRegistry"]}
{"id": "C43", "title": "Assembly is the sequential merge of the files", "statement": "An assembler has the paths of its search path and those pushed, each once. Model::try_from(assembler) is the default model merged with the model of each file at or below these paths that has a registered extension, each read by the reader for it; it fails exactly with the first read or merge that fails; files with other extensions are skipped; with no paths or no such files it is the default model; a directory that cannot be listed makes it panic. (A file that two of the paths lead to is read twice.)", "quantifier": "every file tree, registry and list of paths", "why_tests_cant": "All file trees.", "anchors": ["atelier-assembler/src/lib.rs: ModelAssembler, TryFrom<ModelAssembler> for Model"]}
{"id": "C44", "title": "Applying traits through the builder", "statement": "Expected: apply adds the trait to the named shape or member and changes nothing else. Exactly: a text stands for an absolute id, or for what a relative name stands for in the builder. Applied to a shape id, the trait is added after those of the entry under that absolute id, or, where there is none (or nothing by the relative name is known), an import with this trait is put there, which changes what relative names of that name stand for; applied to a member id, it is added to that member of the entry under the absolute id of the shape. No other entry changes. There is never an error value; apply panics iff the text is no name, or stands for no single id, or is a member id and there is no such entry with such a member (members of shapes added under a local name cannot be reached). A trait applied to a shape that is defined under its local name is in the built model, with the definition's traits and body, when the definition does not have that trait already.", "quantifier": "every builder, shape id or member id, and trait", "why_tests_cant": "The effect depends on every other entry of the builder and on the enumeration order of its hash maps.", "anchors": ["atelier-core/src/builder/mod.rs: ModelBuilder::apply, apply_to, apply_to_member, apply_to_shape"]}
{"id": "C45", "title": "Model equality is structural", "statement": "== on models holds exactly when the versions, the metadata, and each shape's id, traits and body are equal, maps compared as finite maps; it is symmetric and transitive, does not depend on the enumeration order of any map, and is reflexive exactly on models without NaN.", "quantifier": "every pair (triple) of models", "why_tests_cant": "Derived equality over nested hash maps of any size, with floats inside.", "anchors": ["atelier-core/src/model/mod.rs: Model (derived PartialEq)", "atelier-core/src/model/shapes/mod.rs: TopLevelShape, ShapeKind", "atelier-core/src/model/values.rs: Value"]}
{"id": "C46", "title": "Which documents the JSON reader accepts", "statement": "Expected: the JSON reader accepts exactly the JSON ASTs of valid models and returns the model that is written. Exactly: the reader takes every document for a tidy one: parts that should be objects and are not (metadata, shapes, traits, members) are left out, the version \"1\" is \"1.0\", and integers are reduced to the range of i64. It accepts the document iff the tidy one is the JSON AST of a valid model, and returns that model, up to C30. Documents that are tidy are accepted as they are.", "quantifier": "every JSON document", "why_tests_cant": "All documents, including malformed ones.", "anchors": ["atelier-json/src/reader.rs: JsonReader::model, metadata, shapes, shape, members, member, traits, value"]}
{"id": "C47", "title": "Naming convention linter is exact", "statement": "NamingConventions reports an issue for a shape, member or namespace name exactly when the name is not in the case convention asked for it, and reports nothing else. (Relative to the heck crate's conversion, a parameter of the model.)", "quantifier": "every model and every case conversion", "why_tests_cant": "All models.", "anchors": ["atelier-core/src/action/lint/naming.rs: NamingConventions"]}
{"id": "C48", "title": "Unwelcome terms linter is exact", "statement": "UnwelcomeTerms reports exactly the unwelcome words in identifiers not checked before, each identifier once; checking the same model twice reports nothing new. Which shape an issue is attached to depends on the enumeration order when several shapes share the name.", "quantifier": "every model, every linter state and every case conversion", "why_tests_cant": "All models and histories of the linter object.", "anchors": ["atelier-core/src/action/lint/terms.rs: UnwelcomeTerms"]}
{"id": "C49", "title": "Selector text round trip", "statement": "Parsing the text of a selector gives back the same selector exactly if the selector can be written: it is one of the grammar (names are identifiers of the selector grammar, lists of values, assertions, arguments, relationships and expressions are not empty, comparators are not >= or <=), its texts are non-empty and free of double quotes, backslashes and control characters, its integers are in the range of i64, and its floats are printed with a fraction and read back exactly; different selectors that can be written have different texts. (So outside of these limits the code violates the round trip: >= and <= are never read from any text, empty text and text with quotes are rejected or changed, integral floats come back as integers. Exactness assumes that floats without a fraction are printed without dots and quotes.)", "quantifier": "every selector, nested to any depth", "why_tests_cant": "Selectors nest through functions and variables without bound, and a PEG has no inverse: only an induction over the whole grammar shows that no text is read as something else.", "anchors": ["atelier-core/src/model/selector/mod.rs: Display for Selector, SelectorExpression, AttributeSelector, ScopedAttributeSelector, Key, Value", "atelier-smithy/src/selector.pest", "atelier-smithy/src/parser/selector.rs: parse_selector"]}
{"id": "C50", "title": "The selector parser is total and explains its errors", "statement": "For every text, parsing ends with one of: a grammar error; a selector in which every list is non-empty, every name is an identifier, and every value stands in the text; a panic, only if the text has a number that is not a readable i64 or f64; an invalid-selector error, only if the text has an identifier that is not a shape type. Writing and reading the result again gives the same selector (given printable quotes and floats).", "quantifier": "every text", "why_tests_cant": "All strings of any length and nesting.", "anchors": ["atelier-smithy/src/selector.pest", "atelier-smithy/src/parser/selector.rs: parse_selector and every parse_selector_*"]}
{"id": "C51", "title": "What comes back from Smithy IDL", "statement": "Expected: writing a model of one namespace as Smithy IDL and reading the text gives the same model. Exactly, for every model whose namespace can be written (its names are in the syntax of the IDL; targets and traits that are written by a bare name are what that name stands for in the file; no value is null; texts need no escapes; floats have a fraction; metadata values are not objects; placeholders have no traits): the text is read, as the model with the metadata under keys with quotes around them, the placeholders, and the shapes of the namespace without renames and without traits on the members of lists and maps, sets being lists, and traits without a value having an empty object; this is the same model iff there is no metadata and nothing to lose. No text at all is read as a model with a set, a rename, a trait without a value, a trait on a placeholder or on the member of a list or map, or a metadata key that is neither an identifier nor quoted; and structures whose members differ only in the namespaces of the targets have the same text.", "quantifier": "every model that can be written, every namespace, every text", "why_tests_cant": "Models and texts of any size; that no text stands for a model is a statement about all texts.", "anchors": ["atelier-smithy/src/writer.rs: SmithyWriter", "atelier-smithy/src/parser/smithy.rs: parse_model and the parse_* functions", "atelier-smithy/src/smithy.pest"]}
{"id": "C52", "title": "Reading Smithy IDL gives well-formed models", "statement": "Whatever text the Smithy IDL reader accepts, the model it returns is well-formed: shapes under their own ids, all ids and targets valid and absolute, member names identifiers, map keys unique, service versions not empty.", "quantifier": "every text the reader accepts", "why_tests_cant": "All texts.", "anchors": ["atelier-smithy/src/parser/smithy.rs: parse_model and the parse_* functions", "atelier-smithy/src/smithy.pest", "atelier-core/src/builder/mod.rs: TryInto<Model> for ModelBuilder"]}
{"id": "C53", "title": "Metadata and version of a Smithy IDL text", "statement": "Expected: the metadata and the version of an accepted text are those of the model. Exactly: an accepted text starts with control statements and metadata statements; if it ends there, without a namespace statement, the model is empty and all metadata is lost; otherwise the metadata of the model is that of the statements, for each key the last, with the quotes of quoted keys kept, and the version, if given as a text, is 1 or 1.0.", "quantifier": "every text the reader accepts", "why_tests_cant": "All texts.", "anchors": ["atelier-smithy/src/parser/smithy.rs: parse_model and the parse_* functions", "atelier-smithy/src/smithy.pest"]}
{"id": "C55", "title": "Which shapes a Smithy IDL text defines", "statement": "Expected: a statement defines a shape of the file's namespace. Exactly: a model that is read defines the ids that the names of its statements stand for, and no others: the name in the file's namespace, or, when exactly one import ends in that name (up to case), the imported id; a text with a statement for which there are several such imports is not read. Every shape of the model is in the file's namespace or has its absolute id written in the text.", "quantifier": "every text the reader accepts", "why_tests_cant": "All texts.", "anchors": ["atelier-smithy/src/parser/smithy.rs: parse_model and the parse_* functions", "atelier-core/src/builder/mod.rs: ModelBuilder"]}
{"id": "C56", "title": "The Smithy IDL writer writes one namespace", "statement": "The text written for a namespace depends only on the shapes of this namespace and on the placeholders.", "quantifier": "every model and namespace", "why_tests_cant": "All models.", "anchors": ["atelier-smithy/src/writer.rs: SmithyWriter"]}
{"id": "C57", "title": "When reading Smithy IDL panics", "statement": "Expected: reading a text as Smithy IDL never panics. Exactly: a text can only panic if it has a member of a relative id, or one of the words service, operation, resource and use; for each of these there is a text that does panic: such a member as a target, service, operation and resource objects with values of the wrong type, and two structures that stand for the same import.", "quantifier": "every text", "why_tests_cant": "All texts, including those no test author would write.", "anchors": ["atelier-smithy/src/parser/smithy.rs: parse_model and the parse_* functions", "atelier-smithy/src/smithy.pest", "atelier-core/src/builder/mod.rs: TryInto<Model> for ModelBuilder"]}
{"id": "C54", "title": "Apply statements of Smithy IDL", "statement": "Expected: an apply statement in a text applies its trait to the shape. Exactly: every text in which the grammar finds an apply statement is rejected, whatever the trait, the shape and the rest of the text; the simplest apply statements, for all names, are among these.", "quantifier": "every text the grammar finds an apply statement in", "why_tests_cant": "All texts; a test shows one.", "anchors": ["atelier-smithy/src/parser/smithy.rs: parse_model and the parse_* functions", "atelier-smithy/src/smithy.pest"]}
{"id": "C58", "title": "How a name in a value of Smithy IDL is read", "statement": "Expected: where a value may stand, an identifier is read as the text of that identifier. Exactly: every identifier that does not start with true, false or null is read as itself; one that is such a keyword followed by another identifier is, in an array, read as two values, the keyword and the rest; as the value of a metadata statement, it makes the whole text be rejected (unless the rest is the name namespace: then the text may be read as another namespace); so does the name of the input of an operation.", "quantifier": "every identifier, key, name of an operation and namespace", "why_tests_cant": "All identifiers.", "anchors": ["atelier-smithy/src/parser/smithy.rs: parse_model and the parse_* functions", "atelier-smithy/src/smithy.pest"]}
{"id": "C59", "title": "Whitespace and comments of Smithy IDL", "statement": "Whitespace, commas and comments before the first statement do not change what is read, for whatever follows. A comment on the last line needs its line end: a text with a slash that is not followed by a line end or a quote is rejected.", "quantifier": "every text and every blank prefix", "why_tests_cant": "All texts, including those that are rejected.", "anchors": ["atelier-smithy/src/smithy.pest", "atelier-smithy/src/parser/smithy.rs: parse_model and the parse_* functions"]}
{"id": "C60", "title": "String literals of Smithy IDL", "statement": "Expected: a quoted text stands for the string with its escapes decoded. Exactly: a quoted text of plain characters and escapes is read as what is written between the quotes, backslashes included; so texts without a backslash are read as they should be, and the others with the backslashes in them.", "quantifier": "every quoted text", "why_tests_cant": "All strings and all combinations of escapes.", "anchors": ["atelier-smithy/src/parser/smithy.rs: parse_model and the parse_* functions", "atelier-smithy/src/smithy.pest"]}
{"id": "C61", "title": "Documentation comments", "statement": "Documentation comments before a shape or a member are read as its documentation trait: the lines, without the white space at their start, separated by line ends; one without comments has no such trait, and the comments of one never reach another.", "quantifier": "every namespace, every list of simple shapes and structures, every list of lines of documentation for each shape and member", "why_tests_cant": "Any number of shapes, members and lines, and all characters that may be in a comment.", "anchors": ["atelier-smithy/src/parser/smithy.rs: parse_model and the parse_* functions: parse_documentation_text, parse_shape_statement, parse_shape_member_kvp, apply_traits", "atelier-smithy/src/smithy.pest"]}
{"id": "C67", "title": "Characters of Smithy IDL", "statement": "Expected: every Unicode character from U+0020 on may be in comments and strings. Exactly: a text with a character beyond U+10FFF (such as an emoji), or a control character other than tabs and line ends, is rejected as a whole, wherever the character stands; a comment of any other characters, put before a text, changes nothing.", "quantifier": "every text and every character", "why_tests_cant": "All texts: where the character stands does not matter.", "anchors": ["atelier-smithy/src/smithy.pest"]}
{"id": "C62", "title": "Functions for prelude traits", "statement": "Each function of the builder for a prelude trait makes the trait of that name in the prelude namespace, with a value that has exactly the fields of its arguments; it panics exactly when its arguments are of no use (no bound, an empty text, references that are not an array). Expected: bounds are kept, and annotations have a value. Exactly: bounds are cast from u64 to i64, so that those above i64::MAX are negative; a_trait and unstable, and only they, make a trait without a value, which cannot be merged with the same trait that has one.", "quantifier": "every function and all arguments", "why_tests_cant": "All numbers, texts and maps of arguments.", "anchors": ["atelier-core/src/builder/traits.rs: boxed, deprecated, documentation, ..., unstable", "atelier-core/src/builder/traits.rs: prelude_name"]}
{"id": "C63", "title": "Builders of values and traits", "statement": "The value of an array builder is the array of all values pushed in their order; that of an object builder has for each key the last value given; a trait builder has the value of the last setter.", "quantifier": "every sequence of calls", "why_tests_cant": "Sequences of calls of any length.", "anchors": ["atelier-core/src/builder/values.rs: ArrayBuilder, ObjectBuilder", "atelier-core/src/builder/traits.rs: TraitBuilder"]}
{"id": "C64", "title": "Members of simple types", "statement": "Expected: the helpers of the builders for simple types (string, integer, ...) make a member that targets the prelude shape of that type, whatever else is in the model. Exactly: those of MemberBuilder do; those of StructureBuilder use the relative name of the prelude shape, so the member targets the imported shape of that name if exactly one is imported (nothing, if there are several), else the model's own shape of that name, and only else the prelude shape.", "quantifier": "every simple type, member name and model builder", "why_tests_cant": "All model builders: the meaning of a relative name depends on every other entry.", "anchors": ["atelier-core/src/builder/shapes.rs: MemberBuilder::string etc., StructureBuilder::string etc.", "atelier-core/src/builder/mod.rs: resolve_shape_name"]}
{"id": "C65", "title": "What shape builders record", "statement": "Whatever the calls to the builder of a service, operation, resource, structure or union: single properties have the value of the last call, lists those of all calls in their order, and maps for each key the last; making it panics exactly when some argument is not a name.", "quantifier": "every sequence of calls", "why_tests_cant": "Sequences of calls of any length.", "anchors": ["atelier-core/src/builder/shapes.rs: ServiceBuilder, OperationBuilder, ResourceBuilder, StructureBuilder, MemberBuilder"]}
{"id": "C66", "title": "Programs of the builder API make valid models", "statement": "For every program of calls to the builder API, a model that is built is well-formed. If no call imports a member of a shape, all its identifiers are valid, and when the numbers given to the calls are finite so are its numbers, and it can be written as JSON and read again, up to the differences of C30. Nothing refuses imports of members: there are programs with one whose model has invalid identifiers, and can be written but not read.", "quantifier": "every program of calls, of any length and nesting", "why_tests_cant": "Programs of any length; the invariant has to hold after every call.", "anchors": ["atelier-core/src/builder/mod.rs: ModelBuilder", "atelier-core/src/builder/shapes.rs", "atelier-core/src/builder/traits.rs", "atelier-json/src/writer.rs", "atelier-json/src/reader.rs"]}
{"id": "C68", "title": "The RDF graph describes the model", "statement": "The graph written for a model has one node for the model, with its version and its shapes, and for every shape the class of its kind, its traits with their values, its members with their targets and traits, and its identifiers; it has no other statement about these nodes. (What the graph does not describe is in C70.)", "quantifier": "every well-formed model with valid identifiers and every IRI for it that is not that of one of its shapes", "why_tests_cant": "All models: the nodes of different shapes, traits and values must never meet.", "anchors": ["atelier-rdf/src/writer.rs: model_to_rdf, RdfWriter", "atelier-rdf/src/vocabulary.rs", "atelier-rdf/src/urn.rs"]}
{"id": "C69", "title": "The RDF graph determines the model", "statement": "The RDF graphs of two models are the same, up to the names of blank nodes, if and only if the models have the same version and the same defined shapes with the same members, properties and traits, and enumerate the identifiers of each resource in the same order. What is ignored in this: metadata, placeholders, the renames of services, the order of lists, and the repetitions of their elements that are neither arrays nor objects (a repeated array or object has a node of its own).", "quantifier": "every two well-formed models with valid identifiers, whose map members are named key and value, and any IRI that is not that of a shape", "why_tests_cant": "All pairs of models and all renamings of blank nodes.", "anchors": ["atelier-rdf/src/writer.rs: model_to_rdf, RdfWriter"]}
{"id": "C70", "title": "What the RDF graph loses", "statement": "Expected: the graph of a model has everything that is in the model. The code violates this for all models: changing the metadata, removing the placeholders with their traits, and changing the renames of services does not change the graph at all, and arrays of texts with the same elements have the same graph, up to the names of blank nodes, whatever their order and repetitions.", "quantifier": "every model, metadata, renames and arrays", "why_tests_cant": "Statements about all models: nothing the graph has can tell them apart.", "anchors": ["atelier-rdf/src/writer.rs: model_to_rdf, RdfWriter::from_value"]}
{"id": "C71", "title": "What reading an RDF graph gives", "statement": "Expected: reading the graph written for a model gives the model. Exactly: reading it, with the IRI it was written with or without one, panics iff the model defines a shape, and otherwise gives an empty model of the same version; with any other IRI there is an error. A graph with two models and no IRI given, or with two versions of a model, is an error.", "quantifier": "every well-formed model with valid identifiers", "why_tests_cant": "All models.", "anchors": ["atelier-rdf/src/reader.rs: rdf_to_model, RdfReader"]}
{"id": "C72", "title": "The GraphML document describes the model", "statement": "For a model whose service versions need no escapes in XML and which has at most 65535 traits and members, an XML document is written that can be read in one way only, with one node for every defined shape (its id, type, and version if it is a service) and one edge, with an id of its own, for every trait and every member. Two models with the same document define the same shapes, with the same traits and the same members. Exactly: two models have the same document if and only if the shapes they define are alike one by one, in the order of enumeration: the same ids, types, versions of services, ids of applied traits, names of members and their targets. (So metadata, trait values, traits of members, the identifiers of resources, renames and placeholders are not told.)", "quantifier": "every well-formed model with valid identifiers", "why_tests_cant": "All models: that the text can be parsed in one way only is a statement about all trees and all texts.", "anchors": ["atelier-describe/src/graphml/writer.rs: GraphMLWriter, GraphMLVisitor", "atelier-core/src/model/visitor.rs: walk_model"]}
{"id": "C73", "title": "Models of any size as GraphML", "statement": "Expected: a GraphML document with distinct edge ids is written for a model of any size. Exactly: edges are counted with 16 bits; a program with overflow checks writes a document if there are at most 65535 edges, and otherwise panics; a program without them always writes a document that describes the model, in which the ids of edges are distinct iff there are at most 65536.", "quantifier": "every well-formed model with valid identifiers whose service versions need no escapes", "why_tests_cant": "Models with more than 65536 edges, of every form.", "anchors": ["atelier-describe/src/graphml/writer.rs: edge_id, VisitorState"]}
{"id": "C74", "title": "How GraphML documents keep to GraphML", "statement": "Expected: every data element has a declared key, every edge ends at nodes of the document, and the text of a version stays within its element. Exactly: no document that is written has all keys declared (that of the Smithy version is not); all edges end at nodes iff everything that shapes refer to, including all traits, is defined in the model; for any service and version there is another version that makes up any further string shape in the document.", "quantifier": "every well-formed model with valid identifiers whose service versions need no escapes; for the versions, every service, version and further shape", "why_tests_cant": "All models, all versions and all documents.", "anchors": ["atelier-describe/src/graphml/writer.rs: GraphMLWriter::write, write_keys, traits, member, service"]}
{"id": "C75", "title": "What the GraphML document loses", "statement": "Expected: the document has everything that is in the model. The code violates this for all models: changing the metadata, removing the placeholders, and changing the values of traits, the traits of members, the renames of services and the identifiers of resources, everywhere in the model, does not change the document.", "quantifier": "every model and all other metadata, values, traits, renames and identifiers", "why_tests_cant": "Statements about all models.", "anchors": ["atelier-describe/src/graphml/writer.rs: GraphMLVisitor"]}
{"id": "C76", "title": "When PlantUML is written", "statement": "A PlantUML text is written for a model exactly if every operation that one of its services or resources refers to (as an operation, a collection operation or for a step of the lifecycle) is an operation of the model; otherwise the writer panics.", "quantifier": "every well-formed model", "why_tests_cant": "All models: a missing operation may be anywhere, and placeholders and other shapes count as missing.", "anchors": ["atelier-describe/src/plant_uml/writer.rs: PlantUmlWriter::write, write_operation, write_service, write_resource"]}
{"id": "C77", "title": "PlantUML packages", "statement": "Expected: the text has one package for each namespace of the model, with a drawing of every simple shape, service, resource, structure and union of that namespace: its stereotype, its traits except error and documentation, its members with their targets, its operations with their types, its notes and its associations. Exactly: it has one package for each namespace, but every package has these drawings for all shapes of the model, whatever their namespaces.", "quantifier": "every well-formed model that is written", "why_tests_cant": "All models with any number of namespaces and shapes.", "anchors": ["atelier-describe/src/plant_uml/writer.rs: PlantUmlWriter::write, write_class, write_data_type, write_service, write_resource"]}
{"id": "C78", "title": "What PlantUML tells apart", "statement": "Expected: the text shows for which step of the lifecycle of a resource an operation is, and the elements of traits. Exactly: models that differ only in the steps of lifecycles (with the operations in the same order), in the traits of members, lists, sets, maps and operations, in the elements of arrays and objects, in renames, in the errors of operations and in metadata have the same text. And what is told is exactly this: two models that are written (with valid ids, and without line breaks in the texts of traits, the versions of services and the documentation of simple shapes) have the same text if and only if they have the same namespaces and, for the drawn shapes in their order, the same pictures: the id, the stereotype, the traits other than error and documentation with values that are shown alike, the members and identifiers with their targets, the version, the operations with the names of their types (for those of a lifecycle only these), resources and documentation.", "quantifier": "every two models that are alike in this sense", "why_tests_cant": "All pairs of models.", "anchors": ["atelier-describe/src/plant_uml/writer.rs: write_resource, write_class_traits"]}
{"id": "C79", "title": "PlantUML texts stay in their place", "statement": "Expected: the documentation of a shape is shown as a note. The code violates this: that of simple shapes is written as it is, so that for any documentation and any further string shape of the same namespace there is another documentation with which the text is that of the model with both shapes.", "quantifier": "all shapes and all documentation", "why_tests_cant": "All texts.", "anchors": ["atelier-describe/src/plant_uml/writer.rs: write_data_type"]}
{"id": "C80", "title": "When a document is made", "statement": "A document about a model is made, unless the value of a documentation trait of a defined shape or of one of its members is not a string: then describe_model panics. A model of that kind can come from a Smithy text.", "quantifier": "every well-formed model", "why_tests_cant": "All models: the trait may be anywhere, and its value is any value.", "anchors": ["atelier-describe/src/document/writer.rs: describe_model, describe_documentation"]}
{"id": "C81", "title": "What a document is about", "statement": "Expected: the document has the version, the metadata, and for each namespace a part with each of its defined shapes once, in order: heading, documentation, links, table of traits, members, references. Exactly: the document has the version, the metadata, and for each namespace such a description of all shapes whose namespace is the same up to case, in order; so each defined shape has exactly one heading if no two namespaces differ only in case, and otherwise the shapes of these have several.", "quantifier": "every well-formed model", "why_tests_cant": "All models with any number of namespaces, shapes, members and traits.", "anchors": ["atelier-describe/src/document/writer.rs: describe_model, describe_this_model, describe_model_shapes, describe_shape, describe_traits, describe_model_metadata"]}
{"id": "C82", "title": "What a document tells apart", "statement": "Expected: every defined shape, with its documentation, traits, members and references, is in the document, and the document tells models apart. Exactly: all that a defined shape refers to (except through identifiers of resources) and all documentation of shapes and members is in the document; models that differ only in the identifiers of resources, in values of traits with the same rows in the table, or in which member documentation and traits belong to, have the same document; and two models with the same document (none with namespaces that differ only in the case of letters) have the same shapes of the same types, with the same documentation, names of traits, members, references, versions and renames, and metadata with the same keys that is shown the same way.", "quantifier": "every well-formed model and every pair of models that are alike", "why_tests_cant": "All models and all pairs of models.", "anchors": ["atelier-describe/src/document/writer.rs: describe_shape, trait_value, describe_structure_or_union, describe_resource"]}
{"id": "C83", "title": "The links of a document", "statement": "Expected: every reference to a shape of the same namespace is a link to the heading of that shape, and external documentation is linked at its address. Exactly: there is a link to a label iff a defined shape refers to a shape with that label in the same namespace, up to case; all links lead to headings iff each of these has the name of a defined shape, in whatever namespace; headings have distinct labels iff all defined shapes have distinct names and no two namespaces differ only in case; the links for external documentation are to the addresses in quotes, never to the addresses.", "quantifier": "every well-formed model", "why_tests_cant": "All models; the theorems say exactly when labels are distinct and when links lead somewhere.", "anchors": ["atelier-describe/src/document/writer.rs: shape_id_to_label, shape_link, describe_documentation"]}
{"id": "C84", "title": "Selector builders", "statement": "A program of calls on the selector builders, with functions, definitions and attributes nested to any depth, builds the selector of the expressions it added, in order, where the last path and the last comparison of an attribute count; it panics exactly if there is a function without arguments, a scoped attribute without assertions, or a path of a scoped attribute without a key.", "quantifier": "every program of builder calls", "why_tests_cant": "All sequences and nestings of calls.", "anchors": ["atelier-core/src/builder/selector.rs: SelectorBuilder, AttributeBuilder, ScopedAttributeBuilder"]}
{"id": "C85", "title": "The texts of selectors that were built", "statement": "Expected: the text of a selector that was built is parsed as that selector. Exactly: it is, for programs whose names and values are those of the grammar, without comparisons with >= and <=, comparisons with no values and relationships without names; for a selector that was built with one of these, no text at all is parsed as that selector.", "quantifier": "every program of builder calls, every text", "why_tests_cant": "All programs and all texts.", "anchors": ["atelier-core/src/builder/selector.rs: SelectorBuilder, AttributeBuilder, ScopedAttributeBuilder", "atelier-smithy/src/parser/selector.rs: parse_selector", "atelier-core/src/model/selector/mod.rs: Display"]}
{"id": "C86", "title": "Comparing with numbers", "statement": "Expected: a comparison of an attribute with numbers has these numbers as values. Exactly: a comparison of an attribute has the numbers given as values; one of a scoped attribute has in every selector that is built the text of the number, and never the number.", "quantifier": "all programs of builder calls, all numbers", "why_tests_cant": "All programs and numbers.", "anchors": ["atelier-core/src/builder/selector.rs: AttributeBuilder::number_greater, ScopedAttributeBuilder::number_greater"]}
{"id": "C87", "title": "Output files", "statement": "Expected: a command of the command line program with an output file puts its output into that file, creating or replacing it; so does write_model_to_file. Exactly: whatever the input, the format and the state of the file system, a command with an output file does not succeed, no file is changed, and nothing is printed but what is printed while files are read; for JSON and a file that exists the exit status is 0 all the same. write_model_to_file fails for every writer that writes something, and changes nothing.", "quantifier": "every command with an output file, every state of the file system, every writer", "why_tests_cant": "All inputs, all file systems, all models.", "anchors": ["cargo-atelier/src/actions.rs: write_model, document_a_file", "atelier-core/src/io/mod.rs: write_model_to_file"]}
{"id": "C88", "title": "The exit status", "statement": "Expected: the exit status of the command line program is 0 exactly if the command did what it was asked for, and the model has no errors if it was to be checked. Exactly: that of validate and lint is 0 iff the model can be assembled, whatever they report, 1 iff that gives an error, 101 iff it panics; that of convert and document is 0 or 101, never 1: it is 0, with no output, for a file with the ending json that is not JSON, 101 for a Smithy file that is not UTF-8; with an output file, when a model was assembled, it is 101 if the file cannot be opened and, if it can, 101 for Smithy and UML and 0 for JSON.", "quantifier": "every command and every state of the file system", "why_tests_cant": "All file systems and files.", "anchors": ["cargo-atelier/src/bin/main.rs: main"]}
{"id": "C89", "title": "What the program writes to the standard output", "statement": "Converting prints the JSON AST, the Smithy text of the namespace asked for (or the only one), or the PlantUML text of the assembled model, documenting the document, each after what C93 says is printed while files are read; nothing more if the model cannot be assembled; and no file is changed. A file with the JSON AST of a model is converted to a JSON AST of the same model. The theorems say exactly when there is a panic instead.", "quantifier": "every command without an output file, every state of the file system", "why_tests_cant": "All file systems and models.", "anchors": ["cargo-atelier/src/actions.rs: convert_file_format, document_file, write_model, document_a_file, assemble_model", "cargo-atelier/src/bin/main.rs: main"]}
{"id": "C90", "title": "Reports of issues", "statement": "Linting and validating print a report from which, without colours, all issues can be told, with their level, message, reporter and place, in their order.", "quantifier": "all lists of issues whose messages are of one line and whose reporters are of one word", "why_tests_cant": "All lists of issues of any length and all texts.", "anchors": ["cargo-atelier/src/report.rs: report_action_issues, report_issue_no_color", "cargo-atelier/src/command_line.rs: check_command_line"]}
{"id": "C91", "title": "Standard validation and lint", "statement": "The standard validation never fails and reports exactly the unresolved shapes, the references to the wrong kind of shape or to none, and simple shapes without traits; it is silent exactly if there is none of these. The standard lint never fails and reports exactly the names that are against their convention and the unwelcome words.", "quantifier": "every well-formed model", "why_tests_cant": "All models of any size.", "anchors": ["atelier-lib/src/actions.rs: standard_model_validation, standard_model_lint"]}
{"id": "C92", "title": "What a command works on", "statement": "A command of the command line program works on the merge of all files below the paths it is given, by themselves or in the search path, whose extension is json or smithy in any case, each read by the reader for its extension. The model is well-formed whatever is in the files. Validating reports exactly what is wrong with it, and says that there are no issues exactly if nothing is.", "quantifier": "every command, every state of the file system, every content of files", "why_tests_cant": "All directory trees of any depth, all contents.", "anchors": ["cargo-atelier/src/actions.rs: assemble_model, validate_file", "cargo-atelier/src/report.rs: report_action_issues", "atelier-assembler/src/lib.rs: ModelAssembler"]}
{"id": "C93", "title": "What else is written to the standard output", "statement": "Expected: what a command of the command line program writes to the standard output is its output and nothing else. Exactly: while files are read, in some order, one line is printed for each identifier of each resource of each JSON file, up to the place of an error if there is one, and nothing if there are no such identifiers; so a conversion to JSON of a file with such an identifier gives these lines before the JSON, which is then not the JSON of the model.", "quantifier": "every command, every state of the file system, every content of files", "why_tests_cant": "All directory trees of any depth, all contents.", "anchors": ["atelier-json/src/reader.rs: identifiers_hash", "cargo-atelier/src/actions.rs: assemble_model"]}
{"id": "C94", "title": "A program of the builder API makes what it says", "statement": "After any sequence of calls of the builder (shapes with bodies, members and traits, uses, references, apply, metadata) the builder has under each name what the last call for that name put there, if no later call applies a trait to it; each call, coming after any others, does exactly what it says; the metadata is for each key the last value given; a shape declared by a name that nothing else in the program has is in the built model, in the namespace of the model, with the body, the members, the targets and the traits that the calls say. A call panics exactly if it cannot do anything: an argument is not what it asks for, or a trait is applied to what is not there; there are no other failures. A shape declared under its absolute id is lost when a trait is applied to its name alone, and nothing else has that name.", "quantifier": "every sequence of calls of the public methods of the builders, of any length and nesting", "why_tests_cant": "All programs over an API of some hundred methods.", "anchors": ["atelier-core/src/builder/mod.rs: ModelBuilder", "atelier-core/src/builder/selector.rs: the shape builders", "atelier-core/src/builder/traits.rs: TraitBuilder"]}
{"id": "C95", "title": "Smithy IDL texts in any layout", "statement": "A text in the syntax of the Smithy IDL is read as what it says, wherever blank text (spaces, tabs, line ends of any kind, commas, comments) stands and in whatever amount: control statements, metadata, the namespace, imports, and shape statements of all kinds with documentation, traits (plain, with a value, with members), members and values of all kinds. Two texts that say the same in different layouts are read alike. The model has the metadata of the file, and each shape statement, when no other has its name and no import ends in it, is the shape of its name in the namespace of the file, with the body, members, targets and traits it says. A version other than 1 and 1.0 is an error. What the texts say is what the code makes of them: the traits of the member of a list or set, and of the key and value of a map, are left out, keys in quotes keep the quotes in metadata and in objects, escapes are kept as they are written, and control statements and metadata without a namespace give the empty model.", "quantifier": "every text derivable from an independent relational specification of the concrete syntax", "why_tests_cant": "All texts: unbounded nesting and length, all layouts.", "anchors": ["atelier-smithy/src/parser/smithy.pest", "atelier-smithy/src/parser/smithy.rs: parse_model, parse_idl, parse_shape_statement, parse_node_value, parse_a_trait"]}
{"id": "C96", "title": "Nothing but the Smithy IDL is read", "statement": "Expected: a text that the reader accepts is a text in the syntax of the Smithy IDL, and what it is read as is what it says. Exactly: when a model comes out of a text, either the text consists of control statements and metadata only, without a namespace, and the model is empty, or it is the text of a file, part by part, with documentation, traits, members, values, keys and targets as they are written, and the model is the one built from that: it has the metadata and the version of the file, the shape of each statement, and (when no import ends in the name of a statement) defines no other shapes. Beyond the syntax of C95, blank text may be left out between a keyword and a name, between values, and between statements; the value of a trait may be several values, of which only the last counts; a map may have its key or value several times, of which the last counts.", "quantifier": "every text, whether in the syntax or not", "why_tests_cant": "All texts: unbounded nesting and length; acceptance of texts outside the syntax cannot be refuted by tests.", "anchors": ["atelier-smithy/src/parser/smithy.pest", "atelier-smithy/src/parser/smithy.rs: parse_model, parse_idl, parse_shape_statement, parse_node_value, parse_a_trait"]}
{"id": "C97", "title": "Several models merged are what they make together", "statement": "Models merged one after the other into an empty model succeed exactly if, for each metadata key, each shape id and each trait of each shape, what all of the models have for it fits together: values that are not arrays are equal, definitions agree or are placeholders (and all have the version; and no trait of a shape that is there already is applied under the id of a member). The result then has for each metadata key and each trait the arrays joined in the order of the models, or else the first of the values, and for each id the first definition that is not a placeholder; it has nothing else.", "quantifier": "every list of models, of any length", "why_tests_cant": "All lists of models of every size; each merge sees what all before it left.", "anchors": ["atelier-core/src/model/mod.rs: Model::merge, add_shape, add_metadata", "atelier-assembler/src/lib.rs: TryFrom<&mut ModelAssembler> for Model"]}
{"id": "C98", "title": "The order in which models are merged does not matter", "statement": "Whether several models can be merged does not depend on their order, and the results differ only in the order of the elements of arrays in metadata and traits. So an assembler, and the commands, give the same model up to that order for the same paths pushed in any order, enumerated in any order (they are a hash set), given twice or in the search path, and with directories listed in any order. (Violated: arrays show the order; and a trait applied under the id of a member is accepted or refused depending on the order, which neither reader produces.)", "quantifier": "every list of models and every reordering of it; every file tree and every order of listing its directories at any depth", "why_tests_cant": "The order is that of a randomly seeded hash set and of the file system; a test sees one of them.", "anchors": ["atelier-core/src/model/mod.rs: Model::merge", "atelier-assembler/src/lib.rs: ModelAssembler, expand_file_paths, expand_path, TryFrom<&mut ModelAssembler> for Model"]}
{"id": "C99", "title": "Merging does not depend on the grouping", "statement": "Merging b into a and then c succeeds exactly if merging c into b and the result into a does, with the same content, provided no trait of a shape is applied under the id of a member (no reader makes such a model); so any list of models may be cut in two, each part merged on its own and the second result merged into the first.", "quantifier": "every three models, and every list of models and every place to cut it", "why_tests_cant": "All models and groupings.", "anchors": ["atelier-core/src/model/mod.rs: Model::merge"]}
{"id": "C100", "title": "Questions about traits, members and the prelude", "statement": "The questions that can be asked of a shape or member about prelude traits (is it required, boxed, deprecated, has it documentation, a length, and so on) are each answered yes exactly if the one trait of that name is applied, whatever its value and whatever else is applied: after any history of calls that apply, append and remove traits, exactly if the trait was there or given and not removed since; after a merge exactly if either side had it; and a trait made by a builder function is found by its question and no other. A call that fails takes no trait away. A member is found under exactly its name. The shapes of the prelude are those of its namespace. (Violated: services, operations and resources say that they have members, but none is ever found; ids that are == (they differ in the case of letters of the namespace or trait) are not found, nor are members of structures, whereas in lists, sets and maps members are found in any case of letters.)", "quantifier": "every shape and member, every question, every sequence of calls of any length", "why_tests_cant": "All sets of traits and all histories of calls.", "anchors": ["atelier-core/src/model/shapes/mod.rs: HasTraits, TopLevelShape", "atelier-core/src/prelude.rs: prelude_shape_named, the TRAIT_ constants"]}
{"id": "C101", "title": "Making and editing shapes", "statement": "Whatever calls make a list, set, map, structure or union, and however a shape is then edited in place in a model: a list or set has the member named member and a map made by its constructor has members named key and value, which are found under their names; a structure has each member under its own name, the last one given for it; editing a shape in place changes the one shape and nothing else, and leaves it stored under its own id, with its key once. (Violated: set_member takes a member named MEMBER, which the constructor refuses; Map::from takes members of any names; giving a body to a placeholder with the id of a member makes a model that cannot be merged into an empty one; set_id leaves the shape under its old id.)", "quantifier": "every value of the aggregate types that calls can make; every model made by calls of Model and edits in place", "why_tests_cant": "All histories of calls of any length.", "anchors": ["atelier-core/src/model/shapes/mod.rs: ListOrSet, Map, StructureOrUnion, TopLevelShape", "atelier-core/src/model/mod.rs: Model::shape_mut"]}
{"id": "C102", "title": "Errors say what is wrong", "statement": "When reading a JSON document, reading a Smithy text or building a model fails, the error tells of a fault that is really there, with the text, id or name that is at fault: a value that is missing or has the wrong type at the place that is named, a text that is not an id or an identifier, the id of a member where a shape is expected, an unknown version, a number that does not fit, a name that two imports have, a text that the grammar does not accept. A JSON document with a fault is always refused, as is a builder with a name that cannot be resolved and a text that the grammar does not accept. (Violated: identifiers of a resource that are not an object are reported as a wrong rename.)", "quantifier": "every JSON document, every text, every model builder", "why_tests_cant": "All inputs: which of the many faults a document can have is reported, at any place and depth.", "anchors": ["atelier-json/src/reader.rs: JsonReader", "atelier-smithy/src/parser/smithy.rs: parse_model, parse_idl, parse_node_value", "atelier-core/src/builder/mod.rs: TryFrom<&mut ModelBuilder> for Model, resolve_shape_name"]}
{"id": "C103", "title": "Writing and reading again settles", "statement": "What a first trip through a format changes, it changes once: every model that was read from a JSON document is written as JSON and read again as the same model, so that any number of further trips changes nothing; and a model without metadata whose namespace can be written in the Smithy IDL is written and read, and what was read is written and read again as the same model. (Violated for the IDL: keys of metadata are read with their quotes and written in quotes, so that what is written for a model with metadata that was read from the writer's own text is not accepted by the reader.)", "quantifier": "every JSON document, every model that can be written, any number of trips", "why_tests_cant": "All models and any number of repetitions.", "anchors": ["atelier-json/src/reader.rs: JsonReader", "atelier-json/src/writer.rs: JsonWriter", "atelier-smithy/src/writer.rs: SmithyWriter", "atelier-smithy/src/parser/smithy.rs: parse_model"]}
{"id": "C104", "title": "From the Smithy IDL to JSON and back", "statement": "Every model that is read from a text of the Smithy IDL and has no NaNs and infinities can be written as JSON, and is read from that as it was but for the members of its maps, which are named member (so it comes back the same exactly if it has no maps); and for a model without metadata that can be written in the IDL, IDL to JSON to IDL gives the model that was read from the IDL first, maps included.", "quantifier": "every text of the IDL, every model that can be written", "why_tests_cant": "All texts and models.", "anchors": ["atelier-json/src/reader.rs: JsonReader", "atelier-json/src/writer.rs: JsonWriter", "atelier-smithy/src/writer.rs: SmithyWriter", "atelier-smithy/src/parser/smithy.rs: parse_model"]}
{"id": "C105", "title": "Messages tell errors and issues apart", "statement": "Two different errors of the library never have the same message: the message of an error tells its kind and its arguments (the text, the id, the key, or the representation, the place and the context), as long as a text that another one follows is without quotes (without that it is violated). In the same way the line printed for an issue, whose reporter is one word and whose place is a valid id, tells who reports it, how grave it is, where it is and what it says: the issues that the validators and linters find in any models print the same only if they are the same, and none of them is without a message, so making them never panics.", "quantifier": "every error, every issue, every model", "why_tests_cant": "All errors with all arguments; all issues of all models.", "anchors": ["atelier-core/src/error.rs: ErrorKind", "atelier-core/src/action/mod.rs: ActionIssue, Display for ActionIssue", "atelier-core/src/action/validate/mod.rs: CorrectTypeReferences, NoUnresolvedReferences", "atelier-core/src/action/lint/mod.rs: NamingConventions, UnwelcomeTerms"]}
{"id": "C106", "title": "Validators, linters and queries see only the outline of a model", "statement": "What the validators, the linters, the question whether a model is complete, and queries of shape types find in a model depends only on its shapes, their kinds and references, the names of the members of structures and unions, and which traits are applied: not on the values of traits, on metadata, on versions and renames of services, or on the order in which anything is stored. Therefore a model that is written as JSON and read again gives the same findings, as does a model that is read from the Smithy IDL and converted to JSON, and one without sets in one namespace that is written in the IDL and read again.", "quantifier": "every pair of models with the same outline, every model that can be written, every selector", "why_tests_cant": "All models and all orders of their maps; a test compares a few.", "anchors": ["atelier-core/src/action/validate/mod.rs: CorrectTypeReferences, NoUnresolvedReferences", "atelier-core/src/action/lint/mod.rs: NamingConventions, UnwelcomeTerms", "atelier-query/src/evaluate.rs: query", "atelier-json/src/reader.rs: JsonReader", "atelier-json/src/writer.rs: JsonWriter", "atelier-smithy/src/writer.rs: SmithyWriter"]}
{"id": "C107", "title": "Exactly which accepted Smithy IDL texts fail, and with what error", "statement": "Reading a text that the grammar of the Smithy IDL accepts fails exactly if one of its parts is wrong: a number that is not representable; an unknown version in the control section (of the last version statement); a list or set without exactly one member named member; a map with a member other than key and value, or without one of them; a service without a version that is a text; an unknown property of a service, operation or resource, or one whose value is not an array of names, a name or an object of identifiers and names as it should be; an apply statement; a trait with both a value and members; a trait or a member with a name that is relative and has a member. The error is the error of one of these faults (unexpected content, with the name of the function that reads the list, map, statement or trait at fault, and the name of an unknown property; the number format, the version, or, for missing versions and what should be names, a panic). Without any of them the result is the empty model if there is no namespace, and otherwise that of building what is in the file.", "quantifier": "every text that the grammar accepts", "why_tests_cant": "All texts, of any length and nesting, with any number of faults.", "anchors": ["atelier-smithy/src/parser/smithy.rs: parse_model, parse_idl, parse_shape_statements, parse_list_statement, parse_map_statement, parse_service_statement, parse_operation_statement, parse_resource_statement, parse_a_trait, parse_shape_member_kvp, parse_node_value", "atelier-smithy/src/smithy.pest"]}
{"id": "C108", "title": "What is written does not depend on the order of hash maps", "statement": "A model is held in hash maps, which are enumerated in another order in every run. For the same model in any two orders: the JSON documents are the same but for the order of the entries of objects, and the very same once these are sorted; the GraphML documents have the same nodes and the same edges up to order and the ids of edges; the texts in the Smithy IDL are read as the same model; the diagrams have the same packages; the documents about the model have the same titles and links; all of them are refused for one order if and only if they are for the other. (Violated for RDF: the identifiers of a resource are numbered in the order of enumeration, so the graphs of the same model are the same, up to blank nodes, if and only if that order is.)", "quantifier": "every pair of models that are the same up to the order of their maps at any depth", "why_tests_cant": "All orders of all maps: a test runs in one of them.", "anchors": ["atelier-json/src/writer.rs: JsonWriter", "atelier-rdf/src/writer.rs: RdfWriter, model_to_rdf", "atelier-describe/src/graphml/writer.rs: GraphMLWriter", "atelier-describe/src/plant_uml/writer.rs: PlantUmlWriter", "atelier-smithy/src/writer.rs: SmithyWriter", "atelier-describe/src/document/writer.rs: describe_model"]}
{"id": "C109", "title": "Commands work together: converting first makes no difference", "statement": "The output of cargo atelier convert to JSON, put in a file, is accepted by every command, and the model they work on is the one that was converted, but for what JSON does not keep (valueless traits have an empty object, members of lists, sets and maps are named member). validate and lint report the same about that file as about the original files (by reporter, level and shape or message), and converting it to JSON once more prints the very same text. The output of a conversion to the Smithy IDL is read as what the IDL keeps of the model. The order of the entries of objects in a JSON file makes no difference to what is read. Files that can be put together can still be put together after each is converted to JSON by itself, to what a conversion of all of them at once gives. (All of it as long as nothing is printed for identifiers of resources, C93.)", "quantifier": "every file system, all input files and search paths, every model that can be assembled, every order of the entries of JSON objects", "why_tests_cant": "All models and files: two runs of a program are related, over all inputs of the first.", "anchors": ["cargo-atelier/src/bin/main.rs: main", "cargo-atelier/src/actions.rs: convert_file_format, assemble_model, lint_file, validate_file", "atelier-json/src/reader.rs: JsonReader", "atelier-json/src/writer.rs: JsonWriter", "atelier-core/src/model/mod.rs: Model::merge"]}
{"id": "C110", "title": "The options of the command line say what the program does", "statement": "The program runs the sub-command that is given, on the files given with -i and those of the search path, and with the output file, format and namespace given; the format of convert is json unless json, smithy or uml is given, and that of document is markdown unless another one that exists is given. The search path is none without -d and -s, the default one with -d, and the one in the environment variable that is named with -s; no other variable is looked at (so -d does not take the variable SMITHY_PATH that its help promises). The program stops before it does anything exactly if both -d and -s are given, or a format that does not exist. Output is in color unless --no-color is given; with it, and for convert and document always, nothing of the styles is printed. How verbose logging is makes no difference to what is written.", "quantifier": "every command line, every file system and environment", "why_tests_cant": "All combinations of options, with all their values.", "anchors": ["cargo-atelier/src/command_line.rs: parse, make_search_path", "cargo-atelier/src/lib.rs: Command, FileFormat", "cargo-atelier/src/bin/main.rs: main"]}
{"id": "C111", "title": "A target that fails gets a beginning of the text, and its failure is reported", "statement": "A model can be written to any target (a file, a socket, a buffer), and a target can fail at any point. Whatever the target does, the writers of the line-oriented form, the Smithy IDL, GraphML and PlantUML give it the same text, from its beginning, in order, each part once and nothing after a failure. So what has arrived is always a beginning of that text; success is reported only if all of it arrived; a failure of the target is reported as that failure, and is one the target reported. A target with room for n characters gets exactly the first n, and failure is reported exactly if the text is longer. Only GraphML (no more numbers for edges) and PlantUML (an operation that is not there) fail by themselves, and then after all they had to write before.", "quantifier": "every model, every target with any behaviour and state, every point of failure", "why_tests_cant": "All targets, which can fail at any write after any number of characters; a test tries a few.", "anchors": ["atelier-core/src/io/mod.rs: ModelWriter, write_model_to_string", "atelier-core/src/io/lines.rs: LineOrientedWriter", "atelier-smithy/src/writer.rs: SmithyWriter", "atelier-describe/src/graphml/writer.rs: GraphMLWriter", "atelier-describe/src/plant_uml/writer.rs: PlantUmlWriter"]}
{"id": "C112", "title": "A source that fails gives no model, and pieces make no difference", "statement": "A model can be read from any source of bytes, which gives them in any pieces (cut anywhere, also within a character), can be interrupted, and can fail at any point. Reading the Smithy IDL ends exactly if the source comes to its end or fails. If the source fails, its failure is reported and there is no model, even if all that came before is a complete text. Otherwise the result depends only on the bytes together: bytes that are not UTF-8 are an error, and the bytes of a text give what the text gives. The same holds for JSON, but that a text can be refused before the source ends or fails. Reading from a string gives what the text gives. Expected also: a text that was cut off is refused. Violated for the Smithy IDL: a target that has no more room can leave exactly the text of the model without its last shapes, or with a shorter name for one of them, which is read without an error.", "quantifier": "every source with any behaviour and state, every way of cutting the bytes, every text, every parser of JSON that takes one byte after the other", "why_tests_cant": "All sources: all pieces, interruptions and points of failure.", "anchors": ["atelier-core/src/io/mod.rs: ModelReader, read_model_from_string", "atelier-smithy/src/reader.rs: SmithyReader", "atelier-json/src/reader.rs: JsonReader", "atelier-smithy/src/writer.rs: SmithyWriter"]}
{"id": "C113", "title": "Names in the builder API", "statement": "In the builder API a name is a text: a shape id (ns#Shape or ns#Shape$member) is a qualified name, an identifier is a relative one, every other text is an error that names the text, in particular a relative name with a member (Shape$member). A name that was read is printed as it was written, every name with valid parts can be read back from what is printed, so different names are printed differently. A name is either relative or qualified; the relative ones have neither namespace nor member; and namespace, shape name and member together are the text. A name equals a shape id, or an identifier, exactly if both are written the same but for the case of letters.", "quantifier": "every text, every name, every pair of a name and a shape id or an identifier", "why_tests_cant": "All texts and names.", "anchors": ["atelier-core/src/builder/id.rs: ShapeName"]}
{"id": "C114", "title": "Selectors can be taken apart, compared and edited in place", "statement": "After any setters each part of a selector is what the last setter for it says, and a list of parts (the path of a key, the values of a comparison, the assertions of a scoped attribute, the arguments of a function, the expressions of a selector) is what was in it and what was added, in order, without what was taken away since; other parts do not matter. Two selectors are == exactly if they have the same expressions at any depth, with equal texts, numbers and settings, and names and ids that are the same but for the case of letters. Constructors make what they are named after. Each value, segment, expression and projection answers yes to exactly one question about its kind and is taken apart into exactly what it was made from. (Violated: selectors that differ in the case of a name, and are printed differently, are ==, and removing one removes the other, whereas a NaN is never removed. Setters can take all arguments from a function and all assertions from a scoped attribute, which the constructors refuse; no text at all is read as such a selector. string_starts_with compares with a text that has what is printed for the value, with quotes; assertions made with a number compare with its text.)", "quantifier": "every part of a selector, every sequence of setters, every pair of selectors, every value", "why_tests_cant": "All sequences of calls, all selectors of any depth, all texts and numbers.", "anchors": ["atelier-core/src/model/selector/mod.rs: Selector, SelectorExpression, AttributeSelector, AttributeComparison, Key, KeyPathSegment, Value, ScopedAttributeSelector, ScopedAttributeAssertion, ScopedValue, NeighborSelector, Function, VariableDefinition, VariableReference", "atelier-query/src/projection.rs: Projection", "atelier-core/src/macros.rs: array_member"]}
