"""Statements that were made exact after the proofs: they replace those in gen_properties*.py.
Where the code does not do what a user expects, the statement says first what is expected, then exactly what happens."""
S = {}
def s(i, text, quantifier=None): S[i] = (text, quantifier)

s("C05", "Expected: two ShapeIDs (or Identifiers) that are == feed the same data to the hasher, so that a model looked up with an equal id finds the same shape. The code violates this: equality ignores case, hashing does not. Exactly: whatever the hash function and the order of the table, looking up an id gives what is stored under the identical id, or what is stored under an id that is == to it; and each of these does happen for some hash function and order. When no other key of the table is == to the id, the result is what is stored under the identical id.")
s("C11", "Expected: has_shape(id) iff shape(id) is Some, has_metadata_value(k) iff metadata_value(k) is Some, has_member(m) iff member(m) is Some, has_identifier(n) iff identifier(n) is Some. The code violates all four, for every model and key: each is true exactly when the lookup finds nothing. has_trait, TopLevelShape::has_member, has_metadata and has_shapes agree with their lookups.")
s("C14", "Expected: add_shape reports every conflict as an error value and never panics. Exactly: add_shape panics iff the model has a structure and the new shape is a structure of the same id (or both are unions), with equally many members, and the stored members, in the order of their table, agree with the new ones up to one that the new shape does not have. So for given contents, a panic is possible for some order iff some stored member is missing in the new shape, and happens for every order iff moreover all members they share agree. In all other cases there is no panic.", "every model and shape, every enumeration order")
s("C18", "Expected: if merge returns an error the receiving model is the same as before. The code violates this. Exactly: when merging b into a fails with an error (or a panic), there is a first entry of b, going through metadata and then shapes and their traits in the order of the tables, that cannot be combined with a's entry; the error names this entry; and what is left is the result of merging into a the part of b before that entry. A failed add_metadata changes nothing.")
s("C20", "Expected: m.merge(m.clone()) succeeds and changes nothing. Exactly: it succeeds iff no metadata or trait value is in conflict with itself (a NaN in a place where values must be equal) and ids are legal; when it succeeds, every array that is the value of metadata or of a trait is doubled; it succeeds and changes nothing iff moreover all such arrays are empty.")
s("C27", "Expected: a shape declared in the builder as a list/set/map/structure/... has that type in the model. Exactly: every defined shape of a built model has the type that the first entry of the builder for its id declares, except that a set has become a list, always.")
s("C28", "Expected: if metadata or shapes in the builder conflict, building returns an error. The code violates this. Exactly: building never reports a conflict; the shapes of the entries are added in turn, those that conflict with what is already there being dropped without an error, so that a defined id has the definition of the first entry for it; adding a second entry or metadata value under the same name to the builder replaces the first; when no two entries stand for the same id nothing is lost.")
s("C29", "Expected: a trait applied twice through the builder is combined by the trait conflict rules. Exactly: of the traits of an entry with the same id, the last one replaces the others without an error, whatever their values; so the rules are broken exactly by repeated traits, and entries without repeated traits keep all their traits.")
s("C30", "Expected: reading the JSON AST written for a model gives back an equal model. Exactly: every valid model without NaNs and infinities is written as a JSON AST of it, and reading that gives the model with the members of lists, sets and maps named 'member' and an empty object as the value of each valueless trait; so the model comes back as it was iff its list, set and map members are named 'member' (for maps made by the builder or the IDL reader they are not) and all traits have values.")
s("C31", "Expected: for every JSON value the reader returns a model or an error. Exactly: the reader panics iff the version is \"1.0\" or \"1\" and, going through the shapes in the order of the document, it comes to a service whose version is the empty text, with a valid id, all shapes before which could be read; in all other cases it returns a model or an error.")
s("C33", "make_line_oriented_form(model) is sorted and does not depend on the enumeration order of any map in the model, so models with the same contents give identical lines; the written form is these lines. (Models that are only == may differ in the case of target ids, and then have different lines.)")
s("C37", "run_validation_actions / run_linter_actions return the concatenation of the issues of all actions in order, or the first failure. Expected: with fail_fast they stop after the first action that reports an error. Exactly: fail_fast changes nothing, neither the result nor which actions are run; the expected result is the actual one when only the last action reports errors.")
s("C38", "Expected: linter issues have level Info, as documented. Exactly: all issues of NamingConventions have level Info, and all issues of UnwelcomeTerms have level Warning.")
s("C41", "Expected: number matches exactly the numeric simple types, collection exactly lists and sets, simpleType exactly simple shapes, each other type its shapes. Exactly: number matches the numeric simple types except byte and long; collection matches lists, sets and maps; every other shape type matches exactly the shapes it is documented to match.")
s("C46", "Expected: the JSON reader accepts exactly the JSON ASTs of valid models and returns the model that is written. Exactly: the reader takes every document for a tidy one: parts that should be objects and are not (metadata, shapes, traits, members) are left out, the version \"1\" is \"1.0\", and integers are reduced to the range of i64. It accepts the document iff the tidy one is the JSON AST of a valid model, and returns that model, up to C30. Documents that are tidy are accepted as they are.")
s("C44", "Expected: apply adds the trait to the named shape or member and changes nothing else. Exactly: a text stands for an absolute id, or for what a relative name stands for in the builder. Applied to a shape id, the trait is added after those of the entry under that absolute id, or, where there is none (or nothing by the relative name is known), an import with this trait is put there, which changes what relative names of that name stand for; applied to a member id, it is added to that member of the entry under the absolute id of the shape. No other entry changes. There is never an error value; apply panics iff the text is no name, or stands for no single id, or is a member id and there is no such entry with such a member (members of shapes added under a local name cannot be reached). A trait applied to a shape that is defined under its local name is in the built model, with the definition's traits and body, when the definition does not have that trait already.")
s("C51", "Expected: writing a model of one namespace as Smithy IDL and reading the text gives the same model. Exactly, for every model whose namespace can be written (its names are in the syntax of the IDL; targets and traits that are written by a bare name are what that name stands for in the file; no value is null; texts need no escapes; floats have a fraction; metadata values are not objects; placeholders have no traits): the text is read, as the model with the metadata under keys with quotes around them, the placeholders, and the shapes of the namespace without renames and without traits on the members of lists and maps, sets being lists, and traits without a value having an empty object; this is the same model iff there is no metadata and nothing to lose. No text at all is read as a model with a set, a rename, a trait without a value, a trait on a placeholder or on the member of a list or map, or a metadata key that is neither an identifier nor quoted; and structures whose members differ only in the namespaces of the targets have the same text.", "every model that can be written, every namespace, every text")
s("C53", "Expected: the metadata and the version of an accepted text are those of the model. Exactly: an accepted text starts with control statements and metadata statements; if it ends there, without a namespace statement, the model is empty and all metadata is lost; otherwise the metadata of the model is that of the statements, for each key the last, with the quotes of quoted keys kept, and the version, if given as a text, is 1 or 1.0.", "every text the reader accepts")
s("C54", "Expected: an apply statement in a text applies its trait to the shape. Exactly: every text in which the grammar finds an apply statement is rejected, whatever the trait, the shape and the rest of the text; the simplest apply statements, for all names, are among these.")
s("C55", "Expected: a statement defines a shape of the file's namespace. Exactly: a model that is read defines the ids that the names of its statements stand for, and no others: the name in the file's namespace, or, when exactly one import ends in that name (up to case), the imported id; a text with a statement for which there are several such imports is not read. Every shape of the model is in the file's namespace or has its absolute id written in the text.")
s("C57", "Expected: reading a text as Smithy IDL never panics. Exactly: a text can only panic if it has a member of a relative id, or one of the words service, operation, resource and use; for each of these there is a text that does panic: such a member as a target, service, operation and resource objects with values of the wrong type, and two structures that stand for the same import.")
s("C58", "Expected: where a value may stand, an identifier is read as the text of that identifier. Exactly: every identifier that does not start with true, false or null is read as itself; one that is such a keyword followed by another identifier is, in an array, read as two values, the keyword and the rest; as the value of a metadata statement, it makes the whole text be rejected (unless the rest is the name namespace: then the text may be read as another namespace); so does the name of the input of an operation.", "every identifier, key, name of an operation and namespace")
s("C60", "Expected: a quoted text stands for the string with its escapes decoded. Exactly: a quoted text of plain characters and escapes is read as what is written between the quotes, backslashes included; so texts without a backslash are read as they should be, and the others with the backslashes in them.")
s("C62", "Each function of the builder for a prelude trait makes the trait of that name in the prelude namespace, with a value that has exactly the fields of its arguments; it panics exactly when its arguments are of no use (no bound, an empty text, references that are not an array). Expected: bounds are kept, and annotations have a value. Exactly: bounds are cast from u64 to i64, so that those above i64::MAX are negative; a_trait and unstable, and only they, make a trait without a value, which cannot be merged with the same trait that has one.")
s("C64", "Expected: the helpers of the builders for simple types (string, integer, ...) make a member that targets the prelude shape of that type, whatever else is in the model. Exactly: those of MemberBuilder do; those of StructureBuilder use the relative name of the prelude shape, so the member targets the imported shape of that name if exactly one is imported (nothing, if there are several), else the model's own shape of that name, and only else the prelude shape.")
s("C66", "For every program of calls to the builder API, a model that is built is well-formed. If no call imports a member of a shape, all its identifiers are valid, and when the numbers given to the calls are finite so are its numbers, and it can be written as JSON and read again, up to the differences of C30. Nothing refuses imports of members: there are programs with one whose model has invalid identifiers, and can be written but not read.")
s("C67", "Expected: every Unicode character from U+0020 on may be in comments and strings. Exactly: a text with a character beyond U+10FFF (such as an emoji), or a control character other than tabs and line ends, is rejected as a whole, wherever the character stands; a comment of any other characters, put before a text, changes nothing.")
s("C69", "Two models with the same graph, up to the names of blank nodes, have the same version and the same defined shapes with the same members, properties and traits: only metadata, placeholders, the renames of services and the order and repetitions of lists can differ (and these do get lost: C70).", "every two well-formed models with valid identifiers, whose map members are named key and value")
s("C70", "Expected: the graph of a model has everything that is in the model. The code violates this for all models: changing the metadata, removing the placeholders with their traits, and changing the renames of services does not change the graph at all, and arrays of texts with the same elements have the same graph, up to the names of blank nodes, whatever their order and repetitions.")
s("C71", "Expected: reading the graph written for a model gives the model. Exactly: reading it, with the IRI it was written with or without one, panics iff the model defines a shape, and otherwise gives an empty model of the same version; with any other IRI there is an error. A graph with two models and no IRI given, or with two versions of a model, is an error.")
s("C73", "Expected: a GraphML document with distinct edge ids is written for a model of any size. Exactly: edges are counted with 16 bits; a program with overflow checks writes a document if there are at most 65535 edges, and otherwise panics; a program without them always writes a document that describes the model, in which the ids of edges are distinct iff there are at most 65536.", "every well-formed model with valid identifiers whose service versions need no escapes")
s("C74", "Expected: every data element has a declared key, every edge ends at nodes of the document, and the text of a version stays within its element. Exactly: no document that is written has all keys declared (that of the Smithy version is not); all edges end at nodes iff everything that shapes refer to, including all traits, is defined in the model; for any service and version there is another version that makes up any further string shape in the document.")
s("C75", "Expected: the document has everything that is in the model. The code violates this for all models: changing the metadata, removing the placeholders, and changing the values of traits, the traits of members, the renames of services and the identifiers of resources, everywhere in the model, does not change the document.")
s("C77", "Expected: the text has one package for each namespace of the model, with a drawing of every simple shape, service, resource, structure and union of that namespace: its stereotype, its traits except error and documentation, its members with their targets, its operations with their types, its notes and its associations. Exactly: it has one package for each namespace, but every package has these drawings for all shapes of the model, whatever their namespaces.")
s("C78", "Expected: the text shows for which step of the lifecycle of a resource an operation is, and the elements of traits. Exactly: models that differ only in the steps of lifecycles (with the operations in the same order), in the traits of members, lists, sets, maps and operations, in the elements of arrays and objects, in renames, in the errors of operations and in metadata have the same text. And what is told is exactly this: two models that are written (with valid ids, and without line breaks in the texts of traits, the versions of services and the documentation of simple shapes) have the same text if and only if they have the same namespaces and, for the drawn shapes in their order, the same pictures: the id, the stereotype, the traits other than error and documentation with values that are shown alike, the members and identifiers with their targets, the version, the operations with the names of their types (for those of a lifecycle only these), resources and documentation.")
s("C79", "Expected: the documentation of a shape is shown as a note. The code violates this: that of simple shapes is written as it is, so that for any documentation and any further string shape of the same namespace there is another documentation with which the text is that of the model with both shapes.")
s("C81", "Expected: the document has the version, the metadata, and for each namespace a part with each of its defined shapes once, in order: heading, documentation, links, table of traits, members, references. Exactly: the document has the version, the metadata, and for each namespace such a description of all shapes whose namespace is the same up to case, in order; so each defined shape has exactly one heading if no two namespaces differ only in case, and otherwise the shapes of these have several.")
s("C82", "Expected: every defined shape, with its documentation, traits, members and references, is in the document, and the document tells models apart. Exactly: all that a defined shape refers to (except through identifiers of resources) and all documentation of shapes and members is in the document; models that differ only in the identifiers of resources, in values of traits with the same rows in the table, or in which member documentation and traits belong to, have the same document; and two models with the same document (none with namespaces that differ only in the case of letters) have the same shapes of the same types, with the same documentation, names of traits, members, references, versions and renames, and metadata with the same keys that is shown the same way.")
s("C83", "Expected: every reference to a shape of the same namespace is a link to the heading of that shape, and external documentation is linked at its address. Exactly: there is a link to a label iff a defined shape refers to a shape with that label in the same namespace, up to case; all links lead to headings iff each of these has the name of a defined shape, in whatever namespace; headings have distinct labels iff all defined shapes have distinct names and no two namespaces differ only in case; the links for external documentation are to the addresses in quotes, never to the addresses.")
s("C85", "Expected: the text of a selector that was built is parsed as that selector. Exactly: it is, for programs whose names and values are those of the grammar, without comparisons with >= and <=, comparisons with no values and relationships without names; for a selector that was built with one of these, no text at all is parsed as that selector.")
s("C86", "Expected: a comparison of an attribute with numbers has these numbers as values. Exactly: a comparison of an attribute has the numbers given as values; one of a scoped attribute has in every selector that is built the text of the number, and never the number.")
s("C87", "Expected: a command of the command line program with an output file puts its output into that file, creating or replacing it; so does write_model_to_file. Exactly: whatever the input, the format and the state of the file system, a command with an output file does not succeed, no file is changed, and nothing is printed but what is printed while files are read; for JSON and a file that exists the exit status is 0 all the same. write_model_to_file fails for every writer that writes something, and changes nothing.")
s("C88", "Expected: the exit status of the command line program is 0 exactly if the command did what it was asked for, and the model has no errors if it was to be checked. Exactly: that of validate and lint is 0 iff the model can be assembled, whatever they report, 1 iff that gives an error, 101 iff it panics; that of convert and document is 0 or 101, never 1: it is 0, with no output, for a file with the ending json that is not JSON, 101 for a Smithy file that is not UTF-8; with an output file, when a model was assembled, it is 101 if the file cannot be opened and, if it can, 101 for Smithy and UML and 0 for JSON.")
s("C93", "Expected: what a command of the command line program writes to the standard output is its output and nothing else. Exactly: while files are read, in some order, one line is printed for each identifier of each resource of each JSON file, up to the place of an error if there is one, and nothing if there are no such identifiers; so a conversion to JSON of a file with such an identifier gives these lines before the JSON, which is then not the JSON of the model.")
s("C94", "After any sequence of calls of the builder (shapes with bodies, members and traits, uses, references, apply, metadata) the builder has under each name what the last call for that name put there, if no later call applies a trait to it; each call, coming after any others, does exactly what it says; the metadata is for each key the last value given; a shape declared by a name that nothing else in the program has is in the built model, in the namespace of the model, with the body, the members, the targets and the traits that the calls say. A call panics exactly if it cannot do anything: an argument is not what it asks for, or a trait is applied to what is not there; there are no other failures. A shape declared under its absolute id is lost when a trait is applied to its name alone, and nothing else has that name.")
s("C95", "A text in the syntax of the Smithy IDL is read as what it says, wherever blank text (spaces, tabs, line ends of any kind, commas, comments) stands and in whatever amount: control statements, metadata, the namespace, imports, and shape statements of all kinds with documentation, traits (plain, with a value, with members), members and values of all kinds. Two texts that say the same in different layouts are read alike. The model has the metadata of the file, and each shape statement, when no other has its name and no import ends in it, is the shape of its name in the namespace of the file, with the body, members, targets and traits it says. A version other than 1 and 1.0 is an error. What the texts say is what the code makes of them: the traits of the member of a list or set, and of the key and value of a map, are left out, keys in quotes keep the quotes in metadata and in objects, escapes are kept as they are written, and control statements and metadata without a namespace give the empty model.")
s("C96", "Expected: a text that the reader accepts is a text in the syntax of the Smithy IDL, and what it is read as is what it says. Exactly: when a model comes out of a text, either the text consists of control statements and metadata only, without a namespace, and the model is empty, or it is the text of a file, part by part, with documentation, traits, members, values, keys and targets as they are written, and the model is the one built from that: it has the metadata and the version of the file, the shape of each statement, and (when no import ends in the name of a statement) defines no other shapes. Beyond the syntax of C95, blank text may be left out between a keyword and a name, between values, and between statements; the value of a trait may be several values, of which only the last counts; a map may have its key or value several times, of which the last counts.")

T = {
 "C05": "Equality and hashing of ids (HashMap key contract)",
 "C11": "Membership predicates against lookup",
 "C14": "When add_shape and merge panic",
 "C18": "What a failed merge leaves behind",
 "C27": "The type of a built shape",
 "C28": "What building does with conflicts",
 "C29": "Duplicate traits in a builder",
 "C30": "What comes back from a JSON AST",
 "C31": "When the JSON AST reader panics",
 "C37": "Action runners collect issues in order; what fail_fast does",
 "C38": "The level of linter issues",
 "C41": "What the shape type classes match",
 "C46": "Which documents the JSON reader accepts",
 "C51": "What comes back from Smithy IDL",
 "C53": "Metadata and version of a Smithy IDL text",
 "C55": "Which shapes a Smithy IDL text defines",
 "C57": "When reading Smithy IDL panics",
 "C58": "How a name in a value of Smithy IDL is read",
 "C71": "What reading an RDF graph gives",
 "C73": "Models of any size as GraphML",
 "C74": "How GraphML documents keep to GraphML",
 "C93": "What else is written to the standard output",
}
s("C34", "For every shape, member, property, applied trait, and leaf of a trait or metadata value of the model there is a line for it; conversely each line comes from one of those, and their number is the number of these. The lines determine the shapes, their types, members, targets and traits. Exactly: two models without `<` in metadata keys and `}` in object keys have the same lines if and only if they have the same metadata and the same shapes, up to numbers that are printed alike (1 and 1.0), the order of map entries, and the order of the targets of services, operations and resources; without that restriction on keys different values can have the same lines.")
s("C72", "For a model whose service versions need no escapes in XML and which has at most 65535 traits and members, an XML document is written that can be read in one way only, with one node for every defined shape (its id, type, and version if it is a service) and one edge, with an id of its own, for every trait and every member. Two models with the same document define the same shapes, with the same traits and the same members. Exactly: two models have the same document if and only if the shapes they define are alike one by one, in the order of enumeration: the same ids, types, versions of services, ids of applied traits, names of members and their targets. (So metadata, trait values, traits of members, the identifiers of resources, renames and placeholders are not told.)")
s("C69", "The RDF graphs of two models are the same, up to the names of blank nodes, if and only if the models have the same version and the same defined shapes with the same members, properties and traits, and enumerate the identifiers of each resource in the same order. What is ignored in this: metadata, placeholders, the renames of services, the order of lists, and the repetitions of their elements that are neither arrays nor objects (a repeated array or object has a node of its own).", "every two well-formed models with valid identifiers, whose map members are named key and value, and any IRI that is not that of a shape")
s("C07", "iri_to_shape(shape_to_iri(id)) = Ok(id) for every valid id, whose IRI is the text urn:smithy:{namespace}:{name}(/{member})?; distinct ids get distinct IRIs. Whenever iri_to_shape(iri) = Ok(id) for an IRI without authority, query and fragment (a URN has none; others are ignored when reading), the id is valid and shape_to_iri(id) is that IRI. is_shape_iri accepts exactly the IRIs with scheme urn and the path of the IRI of a valid id. The error for all others says exactly why: another scheme, a path that does not begin with smithy:, a character that does not belong there, or no valid shape id.", "every shape id with valid components; every IRI")
s("C19", "If a.merge(b) and b.merge(a) both succeed they define the same shape ids with the same bodies up to ==, the same traits and the same metadata keys, with the same values but for the order of concatenated arrays; success of one implies success of the other, if the traits in the receiving model are applied under shape ids.", "every pair of models (for success: whose traits are applied under ids of shapes, not of members)")
s("C25", "Building succeeds only if every name mentioned in the builder stands for an id, and if they all do it succeeds or panics (C14). The model has the version and the metadata given; every shape is stored under its own id; the ids are exactly those that the entries of the builder stand for, and the ids guessed for unknown names. An id with a member part occurs only as a placeholder, for an import of a member: another entry whose name stands for a member is dropped. An entry that is the only one for its id gives the shape with all its content.", "every builder, every order in which its tables are enumerated")
s("C21", "is_complete() is true exactly when unresolved_shape_names() is empty; after a successful a.merge(b) a shape is unresolved exactly when some side has a placeholder for it and no side defines it, so the merged model is complete exactly when every placeholder of either side is defined by the other.", "every pair of models")
s("C34", "For every shape, member, property, applied trait, and leaf of a trait or metadata value of the model there is a line for it; conversely each line comes from one of those, and their number is the number of these. The lines determine the shapes, their types, members, targets and traits. Exactly: two models without `<` in metadata keys and `}` in object keys have the same lines if and only if they have the same metadata and the same shapes, up to numbers that are printed alike (1 and 1.0), the order of map entries, and the order of the targets of services, operations and resources; without that restriction on keys different values can have the same lines.", "every model; for what the lines determine: well-formed models with valid ids, and the members of lists, sets and maps called member, key and value")
s("C74", "Expected: every data element has a declared key, every edge ends at nodes of the document, and the text of a version stays within its element. Exactly: no document that is written has all keys declared (that of the Smithy version is not); all edges end at nodes iff everything that shapes refer to, including all traits, is defined in the model; for any service and version there is another version that makes up any further string shape in the document.", "every well-formed model with valid identifiers whose service versions need no escapes; for the versions, every service, version and further shape")
s("C99", "Merging b into a and then c succeeds exactly if merging c into b and the result into a does, with the same content, provided no trait of a shape is applied under the id of a member (no reader makes such a model); so any list of models may be cut in two, each part merged on its own and the second result merged into the first.", "every three models, and every list of models and every place to cut it")
s("C105", "Two different errors of the library never have the same message: the message of an error tells its kind and its arguments (the text, the id, the key, or the representation, the place and the context), as long as a text that another one follows is without quotes (without that it is violated). In the same way the line printed for an issue, whose reporter is one word and whose place is a valid id, tells who reports it, how grave it is, where it is and what it says: the issues that the validators and linters find in any models print the same only if they are the same, and none of them is without a message, so making them never panics.", "every error, every issue, every model")
s("C49", "Parsing the text of a selector gives back the same selector exactly if the selector can be written: it is one of the grammar (names are identifiers of the selector grammar, lists of values, assertions, arguments, relationships and expressions are not empty, comparators are not >= or <=), its texts are non-empty and free of double quotes, backslashes and control characters, its integers are in the range of i64, and its floats are printed with a fraction and read back exactly; different selectors that can be written have different texts. (So outside of these limits the code violates the round trip: >= and <= are never read from any text, empty text and text with quotes are rejected or changed, integral floats come back as integers. Exactness assumes that floats without a fraction are printed without dots and quotes.)", "every selector, nested to any depth")
s("C42", "After any sequence of registrations and removals, get and contains by extension give the last registration for that extension ignoring case, and the extensions listed are those, in lower case, each once; removing returns what was there and leaves other extensions as they are; looking up a MIME type gives the last file type registered with it (by register, not register_all), and removing an extension does not change that.", "every sequence of registry operations")
s("C43", "An assembler has the paths of its search path and those pushed, each once. Model::try_from(assembler) is the default model merged with the model of each file at or below these paths that has a registered extension, each read by the reader for it; it fails exactly with the first read or merge that fails; files with other extensions are skipped; with no paths or no such files it is the default model; a directory that cannot be listed makes it panic. (A file that two of the paths lead to is read twice.)", "every file tree, registry and list of paths")
