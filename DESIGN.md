# Design

A Lean 4 model of the logic of johnstonskj/rust-atelier, written from the text in `/repo` (never compiled
or run). Every `X.lean` holds a model (each definition cites file and lines); `XSpec.lean` a small
specification that does not use the model's helpers; `XProps.lean` (and the files named below) the theorems
`Cnn_*` of the properties in `properties.jsonl`, each with an `example` or theorem beside it that meets its
hypotheses in a concrete, non-trivial case. `MANIFEST.json` maps properties to theorems.

## 1. What is modelled, and where

| modules (`lean/Verif/`) | code in `/repo` | properties |
|---|---|---|
| `Chars`, `AMap`, `KFold`, `Decimal` | `String`, `HashMap`, folds over maps, decimal numerals | helpers |
| `Identity*` | `atelier-core/src/model/identity.rs` | C01-C06 |
| `Urn*` | `atelier-rdf/src/urn.rs` | C07 |
| `Tables*` | keyword tables of core, selector, command line | C08 |
| `Values*` | `atelier-core/src/model/values.rs` | C09 |
| `Shapes`, `Model*`, `ServiceProps`, `ModelEq` | `atelier-core/src/model/shapes/*.rs`, `model/mod.rs` | C10-C14, C23, C45 |
| `Merge*` | `merge`, `add_shape`, `add_metadata`, `apply_with_value` of the above | C15-C22 |
| `Join*` | `merge` of any number of models, in any order and grouping; `ModelAssembler` and the commands on permuted inputs | C97-C99 |
| `Editing*` | the questions of `HasTraits`, constructors and setters of the aggregate shapes, edits through `Model::shape_mut` | C100, C101 |
| `JsonErrors*`, `BuilderErrors`, `IdlErrors` | the causes of the errors of the readers and the builder (`JsonErrorsSpec`: the faults of documents) | C102 |
| `SettleJson`, `SettleIdl`, `SettleCross` | repeated trips through the formats, and from one to the other | C103, C104 |
| `Messages`, `MessagesProps` | the texts of errors and issues | C105 |
| `Findings` | what validators, linters and queries find depends on the outline only | C106 |
| `PreludeProps` | the names of the prelude | C24 |
| `PegCount` | how many parts of each rule a match of a grammar has | C107 |
| `IdlFaults*` | what is wrong with texts that the grammar of the IDL accepts (`IdlFaultsSpec`) | C107 |
| `DescribeTells` | documents tell models apart | C82 |
| `RdfTells` | what RDF graphs tell of a model, exactly | C69 |
| `RdfSame`, `JsonSame`, `GraphMLSame`, `IdlSame`, `DescribeSame` | what is written for the same model with its maps enumerated in another order | C108 |
| `JsonOrder`, `Pipeline`, `PipelineParts` | what commands make of the output of other commands | C109 |
| `CommandLine` | `cargo-atelier/src/command_line.rs`: `parse`, `make_search_path`, the declarations of the options (defaults, conflicts, `FromStr` of the formats) | C110 |
| `Targets*` | `LineOrientedWriter`, `SmithyWriter`, `GraphMLWriter` and `PlantUmlWriter` write by write, for targets that can fail | C111 |
| `Sources*` | `SmithyReader::read`, `JsonReader::read` from the bytes of sources that can fail | C112 |
| `BuilderNames` | accessors and comparisons of `ShapeName` | C113 |
| `SelectorEdits` | setters, `==`, conversions and questions of the parts of selectors and of projections | C114 |
| `Builder*`, `BuilderApply` | `atelier-core/src/builder/mod.rs`, `builder/id.rs` | C24-C29, C44 |
| `TraitBuilders*`, `ShapeBuilders*` | `builder/traits.rs`, `builder/values.rs`, `builder/shapes.rs` | C62-C65 |
| `ApiProgram*`, `ApiFinite`, `ApiContent` | programs of calls on all of the builders | C66, C94 |
| `IdlLayout*` | the concrete syntax of the IDL in any layout (`IdlLayoutSpec`), and that the parser reads it | C95 |
| `IdlLoose*` | the texts that are read at all (`IdlLooseSpec`), from matches of the grammar back to what the text says | C96 |
| `Json*` | `atelier-json/src/reader.rs`, `writer.rs`, on serde's `Value` | C30-C32, C46 |
| `Lines*` | `atelier-core/src/io/lines.rs` | C33, C34 |
| `Actions*`, `LintProps`, `LintMore` | `atelier-core/src/action/**` | C35-C38, C47, C48 |
| `Visitor*` | `atelier-core/src/model/visitor.rs` | C39 |
| `Query*` | `atelier-query/src/*.rs` | C40, C41 |
| `Assembler*` | `atelier-assembler/src/lib.rs` | C42, C43 |
| `RepoTests` | tests of the repository repeated on the model, evaluated by the kernel (a check of the model, see 3) | none |
| `Peg*` | the semantics of pest 2 grammars (trusted, see 3) with soundness, determinism and termination proofs | helpers |
| `Selector`, `SelectorParser`, `SelectorReads/Tree/RoundTrip/Props`, `SelectorValues/Exact` | `atelier-core/src/model/selector/mod.rs`, `atelier-smithy/src/selector.pest`, `parser/selector.rs` | C49, C50 |
| `SelectorBuilders*` | `atelier-core/src/builder/selector.rs` | C84-C86 |
| `Commands*`, `JsonWrites` | `cargo-atelier/src/{bin/main,lib,actions,report}.rs`, `check_command_line`; `atelier-lib/src/actions.rs`; `write_model_to_file` in `atelier-core/src/io/mod.rs`; the `println!` of `atelier-json/src/reader.rs` | C87-C93 |
| `Idl`, `IdlGrammar`, `IdlWriter`, `Idl*` | `atelier-smithy/src/smithy.pest`, `parser/smithy.rs`, `reader.rs`, `writer.rs` | C51-C61, C67 |
| `Rdf*` | `atelier-rdf/src/writer.rs`, `reader.rs`, `vocabulary.rs` | C68-C71 |
| `GraphML*`, `XmlLemmas` | `atelier-describe/src/graphml/writer.rs` | C72-C75 |
| `PlantUml*` | `atelier-describe/src/plant_uml/writer.rs` | C76-C79 |
| `Describe*` | `atelier-describe/src/document/writer.rs` | C80-C83 |

The modules `*Exact` and `MergeFail` hold what the code does exactly where it does not do what a user expects (the sentences
after "Exactly:" in `properties.jsonl`): `ModelExact` (C05, C11, C14, C20), `MergeFail` (C18), `BuilderExact` (C27-C29),
`BuilderApplyExact` (C44), `JsonExact` (C30, C31, C46), `IdlExact` (C51, C53, C55, C58).

Not modelled: serde_json's text layer, Turtle text, the rendering of documents by somedoc, the texts of
pest's syntax errors, the pieces in which other crates write (serde_json, rdftk, somedoc), how structopt takes the arguments apart (names of options; what the declarations of options say is modelled in `CommandLine`), logging, `atelier-core/src/io/debug.rs`,
`Debug`/`Clone` derives, and test and example code. `atelier-openapi` has no code.

## 2. Modelling conventions

* Rust `String`/`&str` is `List Char` (`Str`); a `char` is a Unicode scalar value in both.
* `HashMap<K,V>` is an association list `AMap K V` without duplicate keys (an explicit invariant, proved
  preserved). Iteration order is the list order; where a result could depend on it, the theorem ranges over
  all permutations or says what depends on it.
* A lookup with a `ShapeID`/`Identifier` key uses exact equality. In the code `==` ignores case and `Hash`
  does not, so a key equal up to case *may* be found, depending on the hash seed (C05). `C05_lookup` shows
  that all lookups the runtime could do agree when no two keys in play differ only by case; `==` outside of maps is
  modelled as it is (`identEq`, `ShapeID.ceq`).
* `&mut self` methods return the new state with the result, on errors too, since the caller keeps the state.
* Panics (`unwrap`, `assert!`, `unimplemented!`, overflow) are the explicit error value `Err.panic`.
* `f64` is its 64 bit pattern with IEEE equality. Its text (`Display`, `FromStr`) is a parameter: `Fmt.float`,
  `flt`; `{:?}` of values is `Fmt.debug`; heck's case conversions are the parameter `Heck`. Theorems hold for all
  parameters, or name what they need of them.
* Running out of stack or memory is not modelled: the recursive parts of the real program (parsers, readers and writers of values and
  selectors) can overflow the stack on input that is nested very deeply; their models always end.
* `usize` has 64 bits. `to_lowercase` on identifiers is ASCII: identifiers are ASCII (C01).
* Writers' targets (`impl Write`) do not fail, but in `Targets` (C111), where a target is any function from its state and a text to a new state and perhaps a failure after some of the characters. `checked` in `GraphML` says if the crate is built with overflow checks.
* RDF: a graph is a set of statements over IRIs, literals and blank nodes.
* Command line: `World` is what the program can change, `Outside` what it gets from other crates and the system, both
  parameters. Assumed: `File::open` opens for reading only, and writing to such a file is an error; `source()` of an
  error of error_chain is something exactly if it was made by `chain_err` (`Err.other`). A text is written at once, so what
  is on the standard output after a panic half way is not modelled. How structopt takes the arguments apart is not modelled (what comes after that is: C110).
  What the `println!` of the JSON reader prints is (C93); the `println!`s of the selector parser and of queries are not:
  the program does not use these.
* Documents: a document is the list of blocks and inlines given to somedoc; a `Label` is the text given to
  `Label::safe_from`.

## 3. Trusted base

* Lean 4.33.0's kernel. Axioms: only `propext`, `Classical.choice` and `Quot.sound`; which theorem uses which
  is listed in `AXIOMS.md`, written by `tools/axioms.py` from Lean's own `#print axioms`. No axioms of our own, no
  compiled evaluation.
* That the Lean definitions say what the cited Rust text says. This rests on reading; the mutations in
  `seeded/LOG.jsonl` check only that the theorems notice changes. A check against the code's own expectations:
  `tools/conformance.py` takes the inputs and expected results of the repository's tests (the `.smithy` files with their
  `.lines`, the JSON documents, selectors, names, resolution of names, validators, linters, merges, directories for the
  assembler, the GraphML of the documentation) and runs the model on them: 255 cases, no difference. `RepoTests` repeats the tests on parts, texts, resolution, merging,
  validators and selectors as kernel-evaluated examples. No theorem depends on either.
* That the crates used behave as their documentation says: std, serde_json's `Value`, regex, pest (`Peg.lean`
  states what is assumed: ordered choice, greedy repetition, no backtracking into repetitions, atomic and silent
  rules, implicit whitespace, and the token tree), rdftk, somedoc, xml escaping (none is done), heck (parameter).
* The English statements in `properties.jsonl`.

## 4. Plan per property

For each property the plan is to state the English claim over the model for all inputs and prove it. Where the code does not
have the property, the negation is proved: for all inputs of a kind where this is possible, else with a witness, together with
the exact behaviour; the statement then says first what a user expects, and then what happens ("Expected: ... Exactly: ...").
A theorem that proves less than its statement has the suffix `_partial`; at present there is none.

* C01-C03 identifiers: recognisers proved equal to the language of the literal regular expressions (an inductive matching
  relation over regex syntax), display/parse inverse by induction on strings. C04, C06: algebra. C05: negation, exact lookup.
* C07 URNs: character-map involution. C08: full tables and inversion for all strings. C09: induction over nested values.
* C10, C12, C13: decision logic both ways. C11: the predicates are complements. C14: exactly when it panics.
* C15-C21 merge: induction over the fold through a key-wise specification; C17 permutations; C18-C20 negations and exact results.
* C22: invariant of histories of operations. C23: list algebra. C45: equality as a relation, its laws.
* C24-C29, C44 model builder: resolution as a function of a specification of scopes; the fold in `build` by induction.
* C62-C65 other builders: for all sequences of calls, last value/all values/last per key, exact panics. C66: programs of calls of
  any length, through well-formedness of all intermediate builders and C30.
* C30-C32, C46 JSON: structural induction over values and shapes, `read (write m)` computed, `write (read j)` by inversion.
* C33, C34 line form: sortedness, permutation invariance, membership characterisation, what is determined; exactly (`LinesTells`): alike values and traits by induction over values on their texts, members and properties by inversion of lines, the number of targets by counting the lines of one shape.
* C35-C38, C47, C48 actions and linters: membership characterisation of issues. C39: the trace of callbacks.
* C40, C41 queries: filter algebra, tables. C42: refinement to a finite map on lower-cased keys. C43: fold with early exit.
* C49, C50 selectors: grammar as a PEG proved terminating; printing then parsing by induction over selectors; every outcome
  by inversion of the token tree.
  C49 exactly: quotes and dots of a text that is read are those of the tokens of its values, in order; those of a text that is written
  are those of the texts of its values; tokens have at most as many quotes and at least as many dots as what is written for their value,
  so if both texts are one, each token agrees with its value (a counting argument over parse trees).
* C84-C86 selector builders: denotation of programs of calls, by nested induction; text through C49.
* C94 content of builder programs: a relation for what each part of a program makes (`ShapeMakes`, `TraitMakes`, ...), a relation for the builder before
  and after each call (`Does`), by induction over the calls; the model by C25.
* C87-C93 command line program: a `World` (files, standard output) before and after `main`, for every `Outside` (the other crates) and every
  command; by cases on the command, through C30, C35, C36, C43, C47, C48, C76, C80 for what is assembled, reported and written.
* C51-C61, C67 Smithy IDL: PEG matching lemmas for the writer's texts give the exact model read (C51); token trees of every
  accepted text give well-formedness (C52), origins (C55), panics (C57); C53, C54, C58, C60, C67 negations for families of texts.
* C95 layouts of the IDL: relations from what a text says to texts (`ValueText`, `TraitText`, ..., `FileText`) by induction over derivations to PEG matches and the builder;
  the shapes by C25.
* C96 nothing else is read: inversion of PEG matches (`Got`), by induction over the length of the text for values, to the relations of `IdlLooseSpec`, which allow what the grammar allows and no more than blank text to be left out.
* C97-C99 many merges: a relation from the list of what all models have for a key to what the result has (`Joined`, `JoinedTrait`, `JoinedBody`); one merge is one step
  of it, so induction over the list; order from its invariance under permutations, grouping from associativity of one step; file trees by induction over `SameTree`.
* C100 questions about traits: a table of questions and trait names as specification (`asks`); histories of calls by induction over the list against `Left`.
* C101 making and editing shapes: closures of the constructors and setters (`AList`, `AMapShape`, `AStruct`, `EditReachable`), invariants by induction over them.
* C102 errors say what is wrong: an inductive relation of faults and errors for documents (`DocFault`), builders (`BuilderFault`) and texts (`TextFault`); every function of the reader is shown to fail with the error of a fault of its argument (and, for JSON, to fail whenever there is a fault), composed along the monads. For texts the causes of the error about unexpected pairs are in C107, which also says which function and property the error names (its context is left out where it is a `Debug` or `Display` text).
* C103 writing and reading again settles: models read from JSON are shown to satisfy `RoundTrips` (an invariant of the reader), then C30; for the IDL, what is read back (`ReadBack`) from a writable model is writable and exact (`C51_same_model` again); with metadata, the grammar is shown to fail on the doubled quotes.
* C104 between the IDL and JSON: models read from any text (`ReadModel`) are valid, so C30 applies; `jsonNormal` of such a model only renames map members; for the way back, `WritableModel` is shown to survive renaming and reordering, and `kept` undoes the renaming.
* C105 the texts of errors: the fixed beginnings of the 17 kinds are pairwise not prefixes of each other (computed), and what follows is cut at the quotes; issues are cut at the space and the colon, which do not occur in labels and ids.
* C106 `Outline`: a relation on models that leaves out everything the tools do not look at; each tool's result is a flat map over shapes, so related maps give permuted results; what JSON and the IDL change (`jsonNormal`, `kept`) is within the relation.
* C107 `PartFault`: the faults of a part of an accepted text, by the grammar rule of the part, in terms of the parts inside it. `Judged ps x`: an error of `x` is that of a fault inside `ps`, and without an error there is none; shown for each parser function, from `Made` (the part came from a match) and from how many parts of each rule a match has (`counts`, `exactly`).
* C108 `SameModel` (the same up to the order of every map) is carried through each writer: for RDF by relating the blank nodes that two runs make (`OneOne`), for JSON by `SameJson`, for GraphML, diagrams and documents through the exact contents proved for C72, C77, C81 and C83, for the IDL through C51.
* C109 commands after commands: every assembled model is valid (an invariant of both readers and of merging), the AST relation `ModelOf` does not depend on the order of entries (`SameJson`), what `jsonNormal` changes is not written (`modelToJson_norm`) and is within `Outline` (C106), and merging commutes with `jsonNormal`. That `serde_json` reads what it prints is a hypothesis about the document at hand (`JsonReadsBack`).
* C110 the command line: `AsksFor` and `Misused` say which command, or which error, a command line stands for; `parse` is shown to give exactly these, by cases on the sub-command; styles by showing that each function that prints does not look at `paint` unless told to.
* C111 targets that fail: the writers are modelled once more, with one step for each `write!`; `Sends` says that a fixed list of pieces goes to any target until it fails. It is shown for the combinators (`?`, loops) and then for each function, together with the text that `Lines`, `IdlWriter`, `GraphML` and `PlantUml` give: so both models are shown to agree.
* C112 sources that fail: `read_to_string` and `serde_json::from_reader` over a source that is any function from its state to a new state and an answer; `Delivers` says which bytes come before the end or the failure; by induction on it. UTF-8 is the encoding of Lean, with the lemmas of its library; the parser of JSON is any machine that takes one byte after the other. For texts that were cut off, together with C111.
* C113 names in the builder API: `ShapeName::from_str` against the captures of the regular expression of C03; equality of texts up to the case of ASCII letters as in C04, with the texts cut at their first `#` and `$`.
* C114 parts of selectors: setters are a type of calls and a run is a fold over any list of them, against what the last call says (or what is left in a list); derived `==` by mutual recursion against an inductive relation; that no text is read as an emptied function follows from C50.
* C68-C71 RDF: membership characterisation of statements, injectivity of the graph up to isomorphism, and conversely (with the simulation of C108) models with the same content have the same graph; C70, C71 losses for all models.
* C72-C75 GraphML: a reader of the XML subset as specification; the text written is read in exactly one way. Exactly what is told (`GraphMLTells`): the items of a document fall into a node and its edges in one way only.
* C76-C79 PlantUML: outcome and text for all models, via a specification of drawings; negations for pairs of models. What a text tells (`C78_tells`): the text of a shape is shown to be the lines of a `Picture`, which is data independent of the text; lines, drawings and packages are cut apart again, so that different pictures have different lines.
* C80-C83 documents: the block list for all models; labels and links; negations for pairs of models. What a document tells (`C82_tells`): a document is cut at the headings of namespaces and shapes, and a part about a shape into documentation and a skeleton (`DescribeTells`).
