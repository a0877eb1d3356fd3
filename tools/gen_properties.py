#!/usr/bin/env python3
"""Writes ../properties.jsonl (one JSON object per line)."""
import json, os
P = []
def p(id, title, statement, quantifier, why, anchors):
    P.append(dict(id=id, title=title, statement=statement, quantifier=quantifier, why_tests_cant=why, anchors=anchors))

ID="atelier-core/src/model/identity.rs"; MOD="atelier-core/src/model/mod.rs"; SH="atelier-core/src/model/shapes/mod.rs"
AG="atelier-core/src/model/shapes/aggregate.rs"; SV="atelier-core/src/model/shapes/service.rs"; VAL="atelier-core/src/model/values.rs"
BLD="atelier-core/src/builder/mod.rs"; JR="atelier-json/src/reader.rs"; JW="atelier-json/src/writer.rs"

p("C01","Identifier syntax is decided exactly",
  "Identifier::from_str(s) succeeds exactly when s is zero or more underscores, then an ASCII letter, then any number of ASCII letters, digits or underscores; on success to_string() gives back s unchanged, and is_valid(s) agrees with from_str(s).is_ok().",
  "every string s","The set of strings is infinite; a handful of accepted and rejected samples cannot pin the language down.",
  [ID+": Identifier::from_str, Identifier::is_valid, RE_IDENTIFIER, Display for Identifier"])
p("C02","Namespace syntax is a dotted list of identifiers",
  "NamespaceID::from_str(s) succeeds exactly when s is one or more valid identifiers joined by '.', and split() on the parsed value yields exactly those identifiers in order; this is the same language as the namespace part accepted inside a ShapeID.",
  "every string s and every non-empty list of identifiers","Both the accepting and the rejecting direction range over all strings.",
  [ID+": NamespaceID::from_str, NamespaceID::is_valid, NamespaceID::split, RE_NAMESPACE, RE_SHAPE_ID"])
p("C03","ShapeID text round-trips and is unambiguous",
  "For every ShapeID built from valid components, ShapeID::from_str(id.to_string()) returns exactly its three components; for every string s accepted by from_str, to_string() of the result is s. Two ShapeIDs with valid components that print the same are the same, and from_str(s) succeeds exactly when s matches the documented grammar namespace#name($member)?.",
  "every ShapeID with valid components; every string","Round-tripping and injectivity are statements about all identifiers.",
  [ID+": ShapeID::from_str, Display for ShapeID, RE_SHAPE_ID"])
p("C04","Identity equality is case-insensitive and an equivalence",
  "== on Identifier, NamespaceID and ShapeID is reflexive, symmetric and transitive; it ignores ASCII letter case and nothing else; a ShapeID and its member ids are never equal.",
  "every pair and triple of ids made of ASCII text","Equivalence laws quantify over all pairs and triples.",
  [ID+": PartialEq for Identifier, PartialEq for NamespaceID, ShapeID (derived PartialEq)"])
p("C05","Equal ids hash equally (HashMap key contract)",
  "If two ShapeIDs (or Identifiers) are == then they feed the same data to the hasher, so that a model looked up with an equal id finds the same shape. (The code violates this: equality ignores case, hashing does not.)",
  "every pair of ids; every hash function","The failure depends on the hash seed; a test can pass or fail by luck.",
  [ID+": derive(Hash) vs PartialEq for Identifier / NamespaceID / ShapeID", MOD+": Model::shape"])
p("C06","Id navigation helpers are coherent",
  "shape_only() removes exactly the member part and is idempotent; make_member(m) sets exactly the member part; id.is_valid_member(other) holds exactly when id has no member, other has one and other.shape_only() == id; ShapeID::shape/member build the id whose components are the given strings, and panic exactly when one of them is not valid.",
  "every id and every component string","Laws over all ids.",
  [ID+": ShapeID::shape_only, make_member, make_shape, is_valid_member, is_in_same_namespace, shape, member"])
p("C07","URN encoding of shape ids is a bijection onto its image",
  "iri_to_shape(shape_to_iri(id)) = Ok(id) for every valid id, and whenever iri_to_shape(iri) = Ok(id) for an IRI with scheme 'urn', shape_to_iri(id) is that IRI; distinct ids get distinct IRIs.",
  "every shape id with valid components; every urn path string","Injectivity and inverse laws range over all ids.",
  ["atelier-rdf/src/urn.rs: shape_to_iri, iri_to_shape"])
p("C08","Keyword tables are inverse pairs",
  "For Version, Simple names, selector ShapeType, selector Comparator and the command line FileFormat: parsing the printed form gives back the value; a string is accepted only if it is the printed form of some value (or, for Version, the documented abbreviation '1').",
  "every value of each enumeration and every string","The rejecting direction ranges over all strings.",
  ["atelier-core/src/lib.rs: Version", "atelier-core/src/model/shapes/simple.rs: Display for Simple", "atelier-core/src/model/selector/mod.rs: ShapeType, Comparator", "cargo-atelier/src/lib.rs: FileFormat"])
p("C09","Node value equality",
  "== on values is symmetric and does not depend on the order in which object keys were inserted; a value is equal to itself exactly when it contains no NaN anywhere.",
  "every node value, however deeply nested","Values are an unbounded recursive type.",
  [VAL+": Value, Number (derived PartialEq)"])
p("C10","Metadata conflict resolution",
  "add_metadata(k, v): a new key is stored; if both old and new are arrays the stored array becomes old ++ new; if old == v nothing changes; every other case is MergeMetadataConflict and nothing changes. No other key is affected in any case.",
  "every model, key and value","All states and values, including nested ones.",
  [MOD+": Model::add_metadata"])
p("C11","Membership predicates agree with lookup",
  "has_shape(id) iff shape(id) is Some; has_metadata_value(k) iff metadata_value(k) is Some; structure has_member(m) iff member(m) is Some; resource has_identifier(n) iff identifier(n) is Some. (The code violates all four: each is negated.)",
  "every model/shape and key","The claim is an equivalence for all states and keys.",
  [MOD+": has_shape, has_metadata_value", AG+": StructureOrUnion::has_member", SV+": Resource::has_identifier"])
p("C12","Trait conflict resolution",
  "apply_with_value(t, v): a member id is rejected; a new trait is stored with its value; two array values are concatenated; equal values are kept; anything else is MergeTraitConflict with the element unchanged. Other traits are never affected.",
  "every element, trait id and optional value","All states and values.",
  [SH+": apply_with_value, merge_traits, append_traits"])
p("C13","Shape conflict resolution",
  "add_shape(s) on a model: if the id is new the shape is stored as is; if the stored shape is a definition of another type, or with other members/targets/properties, the result is MergeShapeConflict and the model is unchanged; a stored definition is never replaced by another body; a definition replaces an unresolved placeholder; traits are combined by the trait rules. Other shapes, metadata and the version are never affected.",
  "every model and shape","All states.",
  [MOD+": Model::add_shape, copy_traits", SH+": TopLevelShape::equal_without_traits"])
p("C14","add_shape and merge never panic",
  "add_shape reports every conflict as an error value and never panics. (The code violates this for structures/unions with equally many but differently named members.) For all other shapes no panic is reachable.",
  "every model and shape","A panic hidden in one shape combination is found only by considering all of them.",
  [SH+": equal_without_traits (unwrap on r.member(k))", MOD+": Model::add_shape"])
p("C15","A successful merge keeps everything and invents nothing",
  "After a.merge(b) succeeds, the metadata keys are exactly the union, the shape ids are exactly the union, each metadata value is a's, b's or the concatenation, each shape defined in a keeps its body, and each shape only defined in b has b's body; the version is unchanged.",
  "every pair of models","All pairs of models of every size.",
  [MOD+": Model::merge"])
p("C16","The empty model is neutral for merge",
  "Merging an empty model of the same version into m succeeds and leaves m unchanged; merging m into an empty model of the same version succeeds and gives m, provided m's own ids are legal.",
  "every model","All models.",[MOD+": Model::merge, Model::new"])
p("C17","Merge does not depend on hash iteration order",
  "Whether a.merge(b) succeeds, and the resulting model when it does, do not depend on the order in which b's metadata, shapes and traits are enumerated (randomly seeded HashMaps).",
  "every pair of models and every enumeration order of every map in b","Iteration order is random per process; tests see a few orders only.",
  [MOD+": Model::merge, copy_traits"])
p("C18","A failed merge leaves the model unchanged",
  "If merge returns an error the receiving model is the same as before. (The code violates this: metadata, earlier shapes and earlier traits stay merged. It holds for version conflicts, and for failures of a single add_metadata.)",
  "every pair of models","The damage depends on the failing element and on iteration order.",
  [MOD+": Model::merge, add_shape, copy_traits"])
p("C19","Merge order of models does not matter for definitions",
  "If a.merge(b) and b.merge(a) both succeed they define the same shape ids with the same bodies up to ==, the same metadata keys and the same values where neither is an array; success of one implies success of the other.",
  "every pair of models","All pairs.",[MOD+": Model::merge"])
p("C20","Merging a model into itself",
  "m.merge(m.clone()) succeeds and changes nothing. (False in general: array metadata and array traits are doubled, and a NaN is a conflict with itself; true for models without arrays and NaN.)",
  "every model","All models.",[MOD+": Model::merge, add_metadata, add_shape"])
p("C21","Completeness after merge",
  "is_complete() is true exactly when unresolved_shape_names() is empty; after a successful a.merge(b) a shape is unresolved exactly when no side defines it and some side references it, so the merged model is complete exactly when every placeholder of either side is defined by the other.",
  "every pair of models","All pairs.",[MOD+": is_complete, unresolved_shape_names, shape_names, merge"])
p("C22","Shapes are stored under their own id",
  "In every model reachable from Model::new by add_shape, remove_shape, add_metadata, remove_metadata and merge (failed calls included), shape(id) = Some(s) implies s.id() is id, ids are unique, and only unresolved placeholders have member ids; shape_names and unresolved_shape_names partition the stored ids.",
  "every sequence of operations","Unbounded operation histories.",
  [MOD+": Model::new, add_shape, remove_shape, merge, shape_names, unresolved_shape_names"])
p("C23","Collection members of services, operations and resources",
  "add_x appends one element, append_xs appends all in order, remove_x removes exactly the elements equal to the given id (all of them) and keeps the order of the rest, set_xs replaces; add/set from a shape only accept shapes of the right kind and otherwise change nothing.",
  "every sequence of calls","Unbounded histories.",
  ["atelier-core/src/macros.rs: array_member, optional_member, hash_member", SV+": Service, Operation, Resource"])
p("C24","Name resolution in the model builder",
  "A qualified name resolves to itself; a local name resolves to the unique `uses` import of that name, else to the shape of that name defined in the builder (default namespace), else to the prelude shape (or trait) of that name, else to the default namespace, recorded as unresolved; two imports of one name are AmbiguousShape.",
  "every builder state and name","All import/definition combinations.",
  [BLD+": resolve_shape_name, resolve_shape_name_inner"])
p("C25","Built models contain only absolute shape ids",
  "Every shape in a model built from a builder has an id without member part, is stored under that id, and every built shape corresponds to a builder entry or an unresolved reference.",
  "every builder","All builders.",[BLD+": TryInto<Model> for ModelBuilder"])
p("C26","References in built models are accounted for",
  "For a shape target written as a local name that is neither imported, defined locally, nor a prelude name, the built model has an unresolved placeholder for it, hence is_complete() is false unless a definition with that id was added.",
  "every builder","All builders.",[BLD+": ModelBuilder try_from, resolve_shape_name, unresolved"])
p("C27","Building preserves the declared shape type",
  "A shape declared in the builder as a list/set/map/structure/... has that type in the model. (The code violates this for sets: a set becomes a list.)",
  "every builder","All builders.",[BLD+": make_set, make_shape"])
p("C28","Building reports conflicts",
  "If metadata or shapes in the builder conflict, building returns an error. (The code violates this: add_metadata / add_shape errors are discarded.)",
  "every builder","All builders.",[BLD+": TryInto<Model> for ModelBuilder"])
p("C29","Duplicate traits in a builder follow the conflict rules",
  "A trait applied twice through the builder is combined by the trait conflict rules. (The code violates this: the last application silently wins.)",
  "every list of applied traits","All lists.",[BLD+": make_traits"])
p("C30","JSON AST round-trip",
  "Reading the JSON AST written for a model gives back an equal model. (False in general: map members come back named 'member', valueless traits come back as empty objects; it holds for models without maps and valueless traits, with finite floats.)",
  "every model","All models of every size and nesting.",
  [JW+": JsonWriter, Visitor", JR+": JsonReader, ParserReader"])
p("C31","JSON AST reader reports errors instead of panicking",
  "For every JSON value the reader returns a model or an error. (The code violates this: e.g. an empty service version panics.)",
  "every JSON value","All JSON documents.",[JR+": model, shape, service"])
p("C32","JSON values round-trip",
  "Reading back the JSON written for a node value gives the same value, at any nesting depth (finite floats); writing panics on NaN and infinities; an unsigned JSON integer above i64::MAX is not preserved.",
  "every node value; every JSON number","All nestings and all 64-bit integers.",[JW+": from_value", JR+": value"])
p("C33","Line-oriented form is canonical",
  "make_line_oriented_form(model) is sorted and does not depend on the enumeration order of any map in the model, so equal models give identical lines.",
  "every model and every enumeration order","HashMap order is random.",
  ["atelier-core/src/io/lines.rs: make_line_oriented_form"])
p("C34","Line-oriented form mentions everything",
  "For every shape, member, applied trait and metadata entry of the model there is a line for it; conversely each line comes from one of those; the form determines the set of shapes and their types.",
  "every model","All models.",["atelier-core/src/io/lines.rs: make_line_oriented_form, from_*"])
p("C35","Unresolved references are reported exactly",
  "NoUnresolvedReferences reports one error per unresolved shape and nothing else; it reports nothing exactly when is_complete().",
  "every model","All models.",["atelier-core/src/action/validate/mod.rs: NoUnresolvedReferences"])
p("C36","Reference type checking is sound and complete",
  "CorrectTypeReferences reports an error exactly when some member/operation/resource/service reference targets, inside the model, a shape of a kind not allowed there; a reference to a shape not in the model is reported as a warning unless it is in the prelude namespace; each reference is reported at most once per occurrence.",
  "every model","All models.",["atelier-core/src/action/validate/mod.rs: CorrectTypeReferences"])
p("C37","Action runners collect issues in order; fail_fast stops early",
  "run_validation_actions / run_linter_actions return the concatenation of the issues of all actions in order; with fail_fast they stop after the first action that reports. (The code violates the second half: fail_fast has no effect.)",
  "every list of actions and every model","All action lists.",["atelier-core/src/action/mod.rs / lint/mod.rs / validate/mod.rs: run_linter_actions, run_validation_actions"])
p("C38","Linters report only information",
  "Linter issues have level Info, as documented. (The code violates this: UnwelcomeTerms reports warnings.)",
  "every model","All models.",["atelier-core/src/action/lint/mod.rs", "atelier-core/src/action/lint/terms.rs"])
p("C39","Model visitor completeness",
  "walk_model calls the visitor once for every metadata entry, then once for every top-level shape with the callback for its kind, and stops at the first callback error, returning it.",
  "every model and visitor","All models and all error points.",["atelier-core/src/model/visitor.rs: walk_model"])
p("C40","Query evaluation",
  "Evaluating a selector of shape-type expressions returns exactly the resolved shape names whose kind satisfies every expression; evaluation order of the expressions does not matter; unresolved shapes are never returned.",
  "every model and every list of shape-type expressions","All models and selectors.",["atelier-query/src/evaluate.rs: query, query_one, match_by_shape_type"])
p("C41","Shape type classes match the documentation",
  "number matches exactly the numeric simple types, collection exactly lists and sets, simpleType exactly simple shapes. (The code violates the first two.)",
  "every shape","Finite table times all shapes.",["atelier-query/src/evaluate.rs: match_by_shape_type", "atelier-core/src/model/selector/mod.rs: ShapeType docs"])
p("C42","File type registry behaves like a case-insensitive map",
  "After any sequence of registrations and removals, get/contains by extension give the last registration for that extension ignoring case; mime registration never changes extension lookups.",
  "every sequence of registry operations","Unbounded histories.",["atelier-assembler/src/lib.rs: FileTypeRegistry"])
p("C43","Assembly is the sequential merge of the files",
  "Model::try_from(assembler) is the default model merged with each readable file's model in order; it fails with the first failing read or merge; files with unregistered extensions are skipped; no paths gives the default model.",
  "every file tree and list of paths","All file trees.",["atelier-assembler/src/lib.rs: ModelAssembler, TryFrom<ModelAssembler> for Model"])
json_path = os.path.join(os.path.dirname(os.path.abspath(__file__)), "..", "properties.jsonl")
try:
    from gen_properties_more import more
    more(p)
except ImportError:
    pass
from statements import S, T
for o in P:
    o["title"] = T.get(o["id"], o["title"])
    if o["id"] in S:
        o["statement"] = S[o["id"]][0]
        if S[o["id"]][1]: o["quantifier"] = S[o["id"]][1]
with open(json_path,"w") as f:
    for o in P: f.write(json.dumps(o, ensure_ascii=False)+"\n")
print(len(P))
