# Formal model of static-xml: design

The source in `/repo` (scottlamb/static-xml at the pinned commit) is modelled in Lean 4, function by function, and
the properties in `properties.jsonl` are proved about the model for all inputs.  `MANIFEST.json` says which theorem
proves which property; `AXIOMS.md` which axioms each of them uses; `seeded/LOG.jsonl` which bugs were planted in the
model to see whether the theorems notice.

How to read `seeded/LOG.jsonl`: `failed_first` are the declarations that Lean reported after the edit. `failed` are the theorems
of `MANIFEST.json` whose proofs use one of the lemmas that were reported: it is computed from the dependencies of the proofs, as what
comes after a failed lemma is not built. So it says which proofs break, not that each of these statements became false.
In rounds with generated edits (most ids from `u` on, and some before) `claim` lists the first properties of these
theorems and was not chosen by hand. `tightened` are theorems added or strengthened because the edit went unnoticed.

## Layout

| directory | content |
|-----------|---------|
| `lean/Verif/Model/*.lean` | the model; every definition cites the file and lines it models and says where it simplifies |
| `lean/Verif/Spec/*.lean` | specifications; they use the model's data types (documents, declarations, values, errors) but none of its functions, except where a comment says so |
| `lean/Verif/Proof/*.lean` | lemmas |
| `lean/Verif/Props/*.lean` | the theorems listed in the manifest (`C01_…`, …), each with an example that meets its hypotheses |
| `tools/*.py` | generate `properties.jsonl`, `MANIFEST.json`, `AXIOMS.md` |

Names: `…_partial` is the provable part of a property the code does not satisfy in general; `…_counterexample` and
`…_refuted` prove that it does not.

## Trusted base

* Lean's kernel (4.33.0) and the axioms `propext`, `Classical.choice` and `Quot.sound` of Lean's standard library.
  There are no other axioms, no `sorry`, no `native_decide`/`bv_decide`.  No Mathlib module is imported.
  `AXIOMS.md` lists the axioms per theorem (from `#print axioms`).
* That the model says what the code does.  The Rust code was read, not run; nothing is extracted from it.  The
  repository's own tests were transcribed and hold of the model (`Props/RepoTests.lean`).
* The specifications in `Spec/`.
* The behaviour of xml-rs and of the Rust standard library as described under "Contracts" below.

## What is modelled

| area | Rust | model |
|------|------|-------|
| whitespace | `de::normalize` and its helpers (`de/mod.rs`) | `Model/Normalize.lean`: the in-place loop on a list of bytes with indices; `copy_within`, slicing and `truncate` panic where Rust's do |
| text types | `ParseText`/`ToText` for `bool`, the integers, `String`, the other `FromStr` types; derived restrictions and unions (`parse.rs`, `to_text.rs`) | `Model/Text.lean`; the standard library's integer parsing and printing are modelled digit by digit; floats and other `FromStr`/`ToString` types are an arbitrary pair of functions |
| names, lookup | `ExpandedNameRef`, `find`, the sorting of name tables in the macro | `Model/Names.lean` |
| reader | `Reader`, `ElementReader`, `read`, `from_str` | `Model/Reader.lean`: a list of events, depth and stack; the visitor is an arbitrary state machine that chooses for each child what to do with it |
| the same, with panics | `read_to`, `read` | `Model/UnwindDe.lean`: visitors may panic and may catch panics of the child reads they start; `Model/OpenUnwind.lean`: programs of derived types there |
| derived deserializers | what `deserialize.rs` generates, `DeserializeElementField`, `DeserializeAttrField`, `delegate_element` | `Model/DeriveDe.lean`: one flag and one possibly uninitialized cell per field; reading an uninitialized cell and overwriting an initialized one are faults |
| the same, for hand-written field types | what `deserialize.rs` generates, for arbitrary implementations of `DeserializeElementField`, `DeserializeAttrField`, `RawDeserialize`; `delegate_element`, `delegate_attribute`, `delegate_characters` | `Model/Open.lean`: the implementations are parameters; they may fail, panic, and change a value before failing; reads of children give arbitrary results; `Model/OpenRead.lean`: `impl_deserialize_via_raw!` and the crate's implementations for `T`, `Option<T>`, `Vec<T>`, texts, over documents (C76-C79) |
| namespaces | `NamespacesBuilder`, `Namespaces` (`ser/mod.rs`) | `Model/Namespaces.lean` |
| writer | `WrappedWriter`, `ElementBuilder`, `ElementWriter`, `Serializer::to` | `Model/Writer.lean`: arbitrary programs as trees indexed by the handles they own, so that exactly the programs Rust's ownership allows exist (including dropping and, as one constructor, `mem::forget`) |
| the same, with panics | `WrappedWriter::write`, `ElementBuilder`, `ElementWriter`, their `Drop`s, `Serializer::to`, `SerializeField` for `T` | `Model/Unwind.lean`: programs may catch panics of the crate, of themselves and of the `io::Write` |
| options, strings | `Serializer`, its options, `serialize`, `serialize_with_name`, `to_string` | `Model/Serializer.lean`: xml-rs's writer is an arbitrary function of the options (C107) |
| derived serializers | what `serialize.rs` generates, `SerializeField` | `Model/DeriveSer.lean` |
| the same, for hand-written field types | what `serialize.rs` generates, for arbitrary implementations of `SerializeField`, `SerializeAttr`, `Serialize`; those of the crate for `T`, `Option<T>`, `Vec<T>` | `Model/OpenSer.lean`: the implementations are arbitrary programs; `lend` is Rust's call with a borrowed writer |
| emitted code | the rest of the macro crate: `deserialize.rs`, `serialize.rs`, `parse.rs`, `to_text.rs`, the tables of `common.rs` | `Model/Gen.lean`, `Model/GenSer.lean`, `Model/GenText.lean`: the emitted items as syntax (identifiers, types, indices, names, match arms, statements); `Model/GenRun.lean` and the second halves of the others: what such code does, fields of the visitor and of the value found by their identifiers |
| the types of a whole crate | derived types that refer to each other, as the macros emit them | `Model/Whole.lean` (reading and writing), `Model/WholeText.lean` (text types): each type's emitted code, with the others' as the implementations for its fields |
| the same, with counts | `normalize`, `find`, the reader, derived visitors, `NamespacesBuilder::finalize` | `Model/Cost.lean`: how many bytes, names, events, calls and prefixes they take |
| the same, with peaks | `read_to`, `read_string`, `read` | `Model/Space.lean`: the most that visitors and texts hold at a time |
| macro front end | `common.rs` (all of it), `Errors`, the panics and `todo!` of the macros | `Model/Macro.lean` |
| entry points of the macros | `static-xml-derive/src/lib.rs`, `Errors`, the functions `derive` | `Model/Entry.lean` |
| error messages | `Display` for `de::Error`, its kinds, `ExpandedNameRef`; constructors and `Display` of `ser::Error` | `Model/Display.lean`, `Model/SerError.lean` |

Debug assertions and integer overflow checks are modelled with a flag `dbg`; theorems hold for both values unless
they say otherwise.  Panics, undefined behaviour and running out of fuel are values of `Fault`; totality theorems show
that they do not occur.  Loops over the remaining input use the number of events left as fuel; that it suffices is
proved (`C12_read_total`).

### Not modelled

* xml-rs itself, see below.
* What `Serializer`'s options do to the bytes: they are handed to xml-rs (`Model/Serializer.lean`), whose output is
  arbitrary; indentation is blank text between tags for the reader (C36), the document declaration is not visible to it.
* Where messages of errors come from outside (xml-rs, std, implementations), they are opaque.
* The reader and writer theorems C10-C16 and C25-C30 are for arbitrary implementations, and C49-C54, C76-C81 for derived types
  whose fields have arbitrary implementations (with panics: C49-C52, C73, C74, C80, C81); the other theorems about derived types are about types
  built from derived ones and text types.
* `proc_macro`/`syn` parsing before `common.rs` sees the attributes.  Of the emitted code what is the same for all types (`impl` headers,
  signatures, the frame of each method) is in its meaning (`Model/GenRun.lean`), not in the syntax; so are Rust's rules for names, moves and
  exhaustiveness only as far as `Spec.Gen.Compiles` and `Spec.Gen.Exhaustive` say.  Most theorems are about `Model/DeriveDe.lean`, `Model/Open.lean`
  and their counterparts for writing, which model emitted code by what it does; C58 and C60 prove that the emitted code does that, C65 for all types of a crate
  together.
* Memory exhaustion, and depths beyond `usize`/counters beyond `i32`.

### Contracts

What the model assumes of code outside the repository.

* xml-rs reader: an event stream that is, for a well-formed document, `StartDocument`, the events of the tree in
  document order, `EndDocument`; after an error or the end it repeats its last answer.  `TextPosition` and `Name` are
  displayed as `row+1:col+1` and `prefix:local`.  Blank text outside CDATA is reported as `Whitespace`; white space outside
  the root not at all.
* xml-rs reader, names: the namespace of a prefix is the innermost mapping in force; the prefix `xml` is reported with
  or without its namespace (`Spec.Transported`).
* xml-rs writer and reader together (C35, C36, C43): reading back what was written gives the same tags with the
  same prefixes, the mappings as written overlaying those of the parents, attributes and text unchanged, one
  `Characters` event per written text, and extra white space only between tags (`Spec.ReadsBack`, `Spec.Transported`).
  Text that XML cannot represent (control characters) is outside the contract.
* The standard library's `BTreeMap`, `sort`, `str::trim_matches`, integer parsing and formatting as documented.

## Per property

"P" proved, "p" partial; the text after it says how it is modelled and proved, and what is missing.

* C01-C03 P: loop invariant of the in-place loop (positions, prefix written so far), then refinement from bytes to
  characters through UTF-8 encoding.  The specification splits at white space and joins.
* C04, C05 P: parser characterised over all strings; decimal printing and parsing by induction.
* C06, C07 P: first match in the list of variants; first success in the list of member types.
* C08 P: binary search invariant for every list sorted by the code's comparison.
* C09 p: the struct table is sorted for every declaration; the enum table exactly if no variant without prefix comes,
  by local name, after one whose prefix maps to the empty URL (`C09_enum_sorted_iff`; the macro sorts by
  `Option<namespace>` where the search compares strings): `C09_enum_table_counterexample`.
* C10-C12, C15, C16 P: refinement of the event-level reader to a traversal of the element tree (`Spec/Tree.lean`) for
  every visitor; invariants for cut-off and erroneous streams (`Spec/Stream.lean`).  Debug builds: visitors that swallow
  errors of child reads trip an assertion (`C12_debug_swallow_counterexample`), so those are excluded there.
* C13, C14 P: an inductive definition of where an error was raised (`Spec/Errors.lean`).
* C17-C20, C22, C23 P: meaning of a declaration on a tree without visitor state (`Spec/Derive.lean`), proved equal to the
  generated visitors run by the reader.
* C21 p: order of children; not with two flattened fields, where the code depends on the order. `C21_order_iff` says exactly when: at most one flattened field, or no readable document; `C21_two_flattened` gives the unreadable permutation; `C21_mixed` is the order that is enough for every struct.
* C24 P: the rule by which children are distributed to flattened fields, as the code implements it.
* C25 p: every program except those that leak a writer with `mem::forget`; exactly, the number of elements left open is
  the number of writers leaked (`C25_balanced_iff`).
* C26, C27, C28, C30 P: invariants of the writer's state machine and of prefix assignment, over all programs.
* C29 p: `C29_elements_iff`, `C29_document_iff` say exactly when it holds: every element in no namespace is written where no
  default namespace is in scope.  `C29_declared_partial` derives that from a condition on the calls (`DocumentDeclared`).
* C31 p, C32 p: for all values without an element in no namespace inside an element that declares a default namespace
  (`RootPlainFree`); there the code writes the wrong namespace or panics.  `NoClash` is a condition on the types alone.
  `C31_panics_iff` and `C32_document_iff` are exact: the mappings in force in each element are given by the rules of C48 as a
  relation (Spec/Scoped), and both directions go by induction over the elements of the value.
* C33 p, C34 p: false; the opposite is proved (skipped variants and text fields are dropped silently).
* C35 p: false in general; `C35_roundtrip_iff` says exactly when it holds, `C35_exact_partial` without conditions on flattened fields (by counting children: a flattened variant with the name of a field
  gives that field one child too many).
* C36 P: layout does not matter, through C16 and the contract.
* C37, C40, C41, C42 P: the front end against a separate reading of the attribute lists (`Spec/Macro.lean`).
* C56 P: a relation between declarations and lists of errors (`Spec/MacroErrors.lean`), proved functional and met by the macros'
  loops, by induction on the items with what came before as an invariant.
* C57 P: from C01 and a characterization of trimming; `FromStr` and `Display` are arbitrary functions.
* C58 P: the records of the emitted code (by identifier) and the cells of `Model/Open.lean` (by position) are related by an encoding which every
  method respects; by induction on the history the two visitors give the same answers.
* C59 P: the rules are a predicate on the emitted syntax (`Spec/Gen.lean`); names are told apart by their last characters and the
  injectivity of suffixes, indices by the permutation that sorting is.
* C60 P: by induction on fields, variants and attempts.
* C61 P: the calls of derived code, as a list, into C48; without conflicts each request can be served as it is. The documented cases are
  refuted by types.
* C62 P: a small XML Schema (`Spec/Schema.lean`, `Spec/SchemaText.lean`: sequences, choices, occurrences, attributes, recursion, simple types) with its
  valid documents; reading by induction on validity through C18/C44, writing by induction on conforming values through C29/C32.
* C63 P: `Model/Entry.lean` models `derive` of the derive crate with `Errors` (its `unwrap`s and its panicking `Drop`) and the four macros from the
  declaration to the emitted code, by composing the models of the description (C37) and of the generators (C58, C60). By induction over what a macro
  reports; the macros by C37, C40, C42, C56, C58, C60. Input that is not a declaration panics (finding 19).
* C64 P: Rust's typing of values as an inductive definition (`Spec/Typed.lean`) that uses no function of the model, while `HasTy` of the earlier claims
  asks for printable texts. By induction over text types, over documents (with C18) and over values.
* C65 P: `Model/Whole.lean` puts the emitted code of all declarations of a crate together: the traits of the library for all types are functions of the
  emitted code and of each other (`Crate.Tied`); `Crate.read` runs `read` of `Model/Reader.lean` with the emitted visitors, `Crate.write` the emitted
  serializers, by recursion on the value.  Reading: a simulation between the visitors of Part II and the emitted ones (`Proof/Whole*.lean`), which relates
  the states reached by the same calls, through `Spec.Open.Alike` (C58) and `C49_struct_agrees`, `C49_enum_agrees`.  Writing: by induction on `HasTy`, with C60
  and C53.  Existence and uniqueness: what implementations take from each other is used up after three steps.  Undefined behaviour in the `finalize` of
  nested values is taken for a panic (C58 proves there is none).
* C66 P: `Model/Stack.lean` is the reader of `Model/Reader.lean` with room for a number of calls of `read_to`, `none` on overflow; skipping unknown elements
  is a loop with a depth counter in the code and takes no room. Induction on the room and the input; the document that overflows is the chain of names
  along which the types nest. For emitted code by simulation, as C65.
* C67 P: two runs of the same program in lockstep until the first write that fails; after it nothing is written in one, and the other only
  adds. Derived code gives up with the error (C26), so the result is known.
* C68 P: two runs over inputs that begin alike, in lockstep until the shorter one is used up (Proof/Prefix.lean); the stack at every call of
  `next` is the list of open elements. Two different errors at the same place tell whether a prefix settles the result.
* C69 P: by induction over the reader's loops, for the set of errors that an implementation makes itself as a parameter (Spec/Origin.lean, Proof/Origin.lean);
  `source` is in Model/ErrorSource.lean.
* C70 P: Model/WholeText.lean ties the emitted `parse` and `to_text` of all types together (each refers to the implementations for the types of its
  variants); that there is one solution, and which, is by induction on the nesting of types (Proof/WholeText.lean). That a declaration in order has one
  meaning (`C42_text_unique`) is used for the types being determined.
* C71 P: Spec/Clash.lean says which field of a name is chosen only by what it has to fulfill. For arbitrary types by an invariant over the calls
  (Proof/Clash.lean); for derived types, and every input, a consequence of C72.
* C72 P: that reading preserves invariants is by induction on the reader's loop, with an invariant for each kind of visitor (Proof/Keeps.lean); the invariant of
  derived visitors is that what they hold can be read (Proof/Readable.lean).
* C73 P: Model/Unwind.lean: programs are told of each panic where it happens. A run that does not end in a panic is turned into a run of Model/Writer.lean: what
  panicked is left out, handles that a panic destroyed are leaked, the sink replays the answers (Proof/Unwind.lean); so C25, C26 and C29 apply.
* C74 P: Model/UnwindDe.lean: continuations of child reads are told of panics. A panic is an error with a flag in the visitor's state, so every run is a run of Model/Reader.lean
  with other visitors (Proof/UnwindDe.lean), to which C10, C11, C12 and C72 apply; for visitors without `catch_unwind` the two models agree.
* C75 P: Spec/SourceOk.lean has the conditions under which C65 speaks about crates, in terms of the source (`InOrder`, `Apart`, ...); names in the source are unique, so each condition is
  equivalent to the one on the declared types (C37, C40, C63).
* C76 P: Model/OpenRead.lean runs the visitors of Model/Open.lean by the reader of Model/Reader.lean (`impl_deserialize_via_raw`) and has the blanket implementations for `T`, `Option<T>`
  and `Vec<T>`. Spec/OpenRead.lean says what each field gets, field by field (`fill`, `Gets`, `AllGet`). Proved by induction on the content: the visitor's memory is, at any time, what the
  fields have got from the part read so far (`content_struct`, `attributes_struct`, `content_enum`); then C10.
* C77 P: Spec/OpenRound.lean says when an implementation reads back what it wrote (`ReadsAs`, `ElementBack`, `AttributeBack`, `FlattenedBack`, `VariantBack`), in terms of what it asks the
  writer for and of what the parser reports (`Denotes`). Proved field by field (`struct_back`, `enum_back`): what the struct asks for is what its fields ask for, one after another (`asks_lend`), and
  each field gets from it its own part only; a flattened field's visitor sees what it would see in an element of its own (`content_flat`). The document: C29, C43, C10 and C76.
* C78 P: Spec/OpenDeclared.lean; by induction on the lent program (`declared_lend`) and on the fields; then C30.
* C79 P: Spec/OpenFails.lean names the first defect (`StructFails`, `EnumFails`) in terms of C76's specification of what fields get. Proved from the error cases of `attributes` and `content`
  (`attributes_error`, `content_error`: there is an accepted part before), the state after an accepted part (`accepts_state`), and what `finalize` says of cells (`missing_iff`); then C10.
* C80 P: Model/OpenUnwind.lean puts the visitors of Model/Open.lean into the reader of Model/UnwindDe.lean, where implementations are told of panics and may go on; what Model/Open.lean
  has as a `Fault` is replaced by an arbitrary answer (`Junk`). Noninterference: two readers whose visitors agree in an invariant that calls keep read alike (`read_same`, simulation over
  all steps of `read_to`, with panics); the invariant is that the state is reached by calls of the visitor's methods (`Reached`), and by C49's contract no call in such a state is a `Fault`.
  Programs are tied by giving the part of types that `impl_deserialize_via_raw!` uses (`Ends`) apart, so that recursive types need no fixed point; the example is one.
* C81 P: a relation between programs (Spec/Failures.lean: same states, same values, failures related to failures) that `read_to` preserves, by induction on its steps as for C80, and that
  the emitted code preserves, function by function of Model/Open.lean. `C81_panic_as_error` instantiates it with the program in which errors replace panics (`erring`).
* C82 P: Spec/Evolve.lean says what it means that a type reads all that another one reads (`Upgrades`, between the visitors of two programs). Structs, enums and fields by C76, which
  says exactly what is read; recursive types by induction on the number of elements. `Multi` lists `T`, `Option<T>` and `Vec<T>` so that changes from one to another are one theorem.
* C83 P: Spec/PanicAs.lean relates two programs (`Sim...`: same results, but the error `Mark` in place of panics); it is C81's relation made exact. Induction on the events for any two
  such visitors; the errors of the reader itself are never that error. Derived types keep the relation.
* C84 P: Model/Cost.lean repeats the functions with counts; they give what the functions of the model give (`…_value`). Loop invariants for `normalize` (the ranges moved are disjoint) and
  for the binary search; induction on the events for any visitor, with what is left of the input as a potential; for prefixes, the tries that fail are different prefixes that are taken.
  What is not counted is not looked at: a run goes alike on a state of which all but the events counted is replaced (Proof/CostSeen.lean).
* C85 P: Model/OpenWrap.lean: `wrap` (a `Deserialize` on top of another) and `deCollect` (a `DeserializeElementField` on top of a `Deserialize`, with arbitrary functions that start, refuse
  and add to a value). Continuations of actions are composed; what a field holds is a fold over the values (Spec/OpenWrap.lean `gather`), by induction on the children.
* C86 P: Spec/Kept.lean defines when two elements are alike, by their children and attributes. Alike elements have the same value (induction on the relation); elements with the same value are
  alike (induction on the tree, with the value's shape giving variant and counts). The normal form follows with C45 and C35.
* C87 P: sentences of the documentation as small definitions in Spec/Documented.lean. Text types by the tree semantics of C10; text between children by C46 (a remixed element has the same content, by
  induction on the relation); the forms of errors by induction on the loops; missing by C50.
* C88 P: an invariant of the builders that occur (Spec.Reached: root, child, mapping, attribute), and what the two loops of finalize do to a mapping; reading and writing do not look at the parts of a type
  that its root name is in (induction over values for writing).
* C89 P: the value of a document as a type (C18) is followed through both sets of types at once: induction over the document, over lists of fields that correspond (FieldsGrown) and over variants; what the old
  version writes has only names that it declares (induction over Shows), so the condition on names holds.
* C90 P: invariant of the reader: the events fetched so far, how many elements they leave open (`Spec.openedBy`), and that the stack is these elements, plus at most one that has just ended; by induction over the
  events still to come, with an arbitrary set of errors for what visitors may hold (`Spec.Borrows`). Derived visitors only pass on errors that they are given.
* C91 P: the writer with counts (`Model/CostWrite.lean`), which returns the same (`Cost.serializeTo_value`); a program asks for mappings to URLs of a list, mappings have distinct URLs, so there are at most as many
  in any scope (invariant over the program); each event counted is given to xml-rs, which writes it or is poisoned; derived programs stop at the first error (`Prog.Strict`); `resolveEvents` keeps the number of events.
* C92 P: a visitor that collects attributes and content, and a program that declares each namespace it uses under a prefix `n` and then writes everything (`Proof/AnyElement.lean`); reading by C10 (`read_spec`) and induction
  on the tree; writing by `serializeTo_total`, `C29_declared_partial`, reading back by `C43_document`. `C92_rest`: a `Raw` visitor that keeps what it is offered, in the framework of C76 and C77 (`Proof/AnyRest.lean`).
* C93 P: `Model/StackWrite.lean` runs the same programs and counts the handles that are alive; upper bound by a predicate on programs (`Shallow`) that derived serializers satisfy with the depth of what the
  value represents (`Shows`), lower bound because an open element has a writer; `C93_ranked` by induction on `Shows`; `C93_recursive` puts a value inside a value of the same type (`plug`).
* C94 P: `Reordered m env env'` relates two declarations of the same types by a map of places. The meaning of documents (C18, `bodyValue`) and the first defect (C44, `bodyErr`) are shown to respect it by induction over the content, carried to `read` by the theorems of C18/C44 and to what is written by C35. Flattened fields ask in turn, so their order counts: a counterexample is given.
* C95 P: `Rewritten m c c'` is stated on the syntax of declarations with the specifications of C37/C40/C47. It is carried to `Reordered` on the declared types (C94) by the description theorems, and to the emitted code by C65/C75; equal documents by showing that `Represents` sees only names, kinds and slots.
* C96 P: Model/Space.lean (the reader with peaks, for any measure of visitor states) and Spec/Space.lean (`size`, `bytes`, `Frugal`). Potential argument: what is held and the weight of what is
  still to be read together never grow, by induction on the fuel; for derived types by cases of `element`, `attribute` and `finalize`, a field that is not there counting as much as its
  default at most. Whitespace normalization does not lengthen texts. `C96_counted`: simulation with visitors
  that keep count themselves (Spec/Space.lean `counting`, run by the plain reader), so the peaks are not too small either.
* C97 P: Spec/TextVisitor.lean has the replacement (`withText`, `deserWithText`). By induction on the fuel, with the invariant that depth and the length of the stack are where the
  loop was entered (for arbitrary inputs), the two programs go through the same states.
* C98 P: the children of an element are divided among its fields: named ones by name, the rest among flattened fields, each child to one at most (`named_total`, `known_rest`); so
  by induction over the document what is represented counts no more. Connected to reading by C18 and to writing by what was asked for, as in C93.
* C99 P: a program that succeeds does the same, and writes the same, with any writer in the same scope (`run_move`: the programs see results only). The content of a struct is what its fields
  write in turn (C53), so the parts before and after are written by the same programs in the same scopes. By induction over the way down.
* C100 P: a simulation. Builders and writers of the two runs differ in values only (`SameBuilder`, `SameState`), and each call keeps it so. Derived code makes the same calls for values
  that are equal without their texts (`bare`): by induction over the size of the value. Implementations are given errors up to the values in them (`SameResult`).
* C101 P: by C18 the value is a function of the content. A child of a given name gets into the list of at most one field (`fields_local`), where its value as the field's type is at one place
  (`Place`), or it makes no difference. By induction over the elements around it (`around_kids`).
* C102 P: C101 and C99 together: the place in the value where an element is read (`around_copy`) is one where a change of the value is a change at one place of what is written
  (`Edit`), and there the value is written under the name it was read from (`fieldOne`, an element).
* C103 P: from C44: the complaint about a child is the same for all children at one node, or the child's own as one type (`Blame`); later complaints and gaps depend on names only (`Alike`);
  so the first defect of content is the child's own or else the same (`Reports`), at all depths by induction on the surroundings (`within_kids`).
* C104 P: C101, C102 and C103 with C65 (the emitted code reads and writes as Part II says, errors included) and C75 (the conditions on the source).
* C105 P: from C44, by induction on the content: a defect of content is near (of the element itself, or about a child being there) or a child's own (`body_near`), and so down to a near one
  (`kid_near`).
* C106 P: as C105, with what the scan of the children finds at the child to blame being the child's own defect as a type that does not depend on the child (`scan_blames`, `body_repair`), so
  that it is that of any replacement (`kid_repair`); then as C103.
* C107 P: the serializer with its options and `to_string` as in the code, over an arbitrary writer (`Model/Serializer.lean`); what settings ask for is specified by the last of each kind
  (`Asked`), reading back by C35 and C43.
* C108 P: by C68, otherwise the events up to there settle the result whatever follows; but a second element of that name, wrong in itself, after the right one is complained of with its own
  position (`kid_onward`, from C44), which can be any.
* C109 P: the stack of the reader when it stops is that of the error (`content_stack`, with `runDeser_spec`), and tells which events were fetched (`runDeser_context`); those alone decide
  (`Cost.read_seen`, `Cost.runDeser_once`). Elements: of the document that ends with that element, all others closed (`kid_upto`), the error is the same by C44, and has more elements
  than are open after the element.
* C110 P: `kid_both` gives for one place in the document what C108 and C109 give, so that with a replacement all events up to its end are accepted whatever follows, and the next error is
  settled by the end tag of the next faulty element, which thus comes later (`later_of`); by induction on the end tags that are left (`mends_from`).
* C111 P: of `bodyValue` (C18), by size of the element (`origin`): a text in the value of a field is in the value of one of its children, and with another child of that name the value is that child's
  at the same place (`slot_leaf`, `enum_leaf`, `field_leaf`); all other fields stay the same by C101's `body_local`, whose place must be this one, as children with any values can be put there (`body_leaf`).
* C112 P: by C98's path from success to the structure (`serializeTo_asks`, `derived_asked`), with an invariant of steps that values of attributes are written as asked for (`textsInv`); then by induction over `Shows`:
  the texts of a struct are those of its attributes, elements and flattened enums, in another order (`fields_leaves`).
* C113 P: as C112, with elements and attributes and their local names (`shows_marks`, `marksInv`).
* C38, C39 P: by computation on lists of characters. That a displayed error can be told apart (Props/DisplayTells.lean): the first line ends with the last `@`, lines are split at line breaks, lines at spaces.
* C43 P: expanded names against Namespaces in XML, for tags as reported by the contract.
* C44 P: a functional description of the first defect in document order (`Spec.bodyErr`), proved equal to the error
  reported, with stack and position.
* C45 P: values read satisfy the conditions of `C35_roundtrip_iff`, by induction on the document; hence reading, writing and
  reading again gives the same value. `C45_range` says exactly which values can be read.
  `C45_reread_iff` drops the condition on names: a flattened variant that was read came from an element that no field claimed (`structValue_fine`).
* C46 P: a relation between documents, level by level (`Spec/Reorder.lean`); by induction on it the values are equal.
* C47 P: composes C37 (descriptions) with C18, C19 (reading) and C32 (writing), so that only the source of the declarations is
  left in the statements (`Spec/Source.lean`).
* C48 P: a separate description of requests and of the choice (`Spec/Prefixes.lean`); the builder's map is sorted and
  extensional, and each call changes the entry of one URI.
* C49 P: an invariant (the flag of a field says whether its memory is initialized, flattened visitors are in states that
  calls can reach) kept by every call, for arbitrary implementations; `C49_struct_agrees` and `C49_enum_agrees` show that the model of
  C17-C24 is the special case of text types and derived types.
* C50 P: the memory of a field after a history is a function of the calls with its name (`Spec.Open.found`), by induction
  on the history.
* C51 P: the relation `Spec.Open.Passed`, by induction on the flattened fields.
* C52 P: what is held after a history is a fold of one step (`Spec.Open.onChild`) over the children, by induction; `C52_which`
  says what that is without the fold.
* C53 P: running a program that was lent a writer is running it alone and then what follows (`lend_run`), by induction on
  the program; then by induction on the fields. `C53_agrees`: the model of C31-C35 is a special case.
* C54 P: each implementation's events are balanced (the induction behind C25), one after another.
* C55 P: the pieces of a message can be taken off from the left, one after the other; a few letters tell the causes apart.

## Findings about the code

1. A derived enum visitor that has its variant answers `Ok(None)` to unknown elements (`deserialize.rs:427`), so as a
   flattened field it swallows children meant for later flattened fields (C21, C24, C35).
2. A visitor that swallows the error of a child read trips a debug assertion (C12).
3. `resolve_element` panics with `todo!()` for an element in no namespace under a default namespace
   (`ser/mod.rs:396-405`; C31).
4. If the default mapping was moved to a prefix because of an attribute, such an element is instead written into the
   default namespace (C29, C32).
5. Skipped variants serialize to nothing, without error (C33).
6. Text fields are silently not serialized (C34); `Deserialize` for them is `todo!` at expansion time (C41).
7. The macro sorts variants by `Option<namespace>`, the search by the string: with a prefix for the empty URL lookups
   fail (C09).
8. Text consisting of white space only is reported as white space and skipped: a `String` `"  "` reads back as `""` (C35).
9. `mem::forget` of an `ElementWriter` leaves the element open; `Serializer::to` does not notice (C25).
10. A leading space in `namespace = " xml: U"` bypasses the check of the xml prefix; `p: ` (empty URL) and
    `p: http://www.w3.org/XML/1998/namespace` are accepted (C37).
11. Prefixes that merely start with `xml` panic the macro (C41).
12. Repeated elements of a unit variant are accepted (C23).
13. An enum whose payload is an empty `Vec` or `None` serializes to nothing and cannot be read back; an unknown
    restriction value whose text is that of a known one reads back as the known one; `None` in a field whose default is not
    `None` reads back as the default (C35).
14. Only derived enums can be flattened for `Deserialize`.
15. Calling `attribute` and then `namespace("", …)` on an `ElementBuilder` panics (C30).
16. On an error, initialized fields are leaked, not dropped (safe; C22).
17. Items after `skip` on a variant are not checked; of several type-level `prefix` items the last wins (C40).
18. Raw identifiers give local names like `r#type`.
19. If `parse_macro_input!` returns early, `Errors` is dropped unread and panics.
20. The documentation says children of text elements are ignored (`lib.rs:24-26`); `read_string` reports an error (C15).
21. A value of a union may change when written and read again: `1` may be read as a `bool` variant, written as `true` and read
    as an earlier restriction variant (C45). So may text that is blank within CDATA.
22. `derive(Deserialize)` for an enum with a skipped variant emits a `match` without an arm for it (`deserialize.rs:344-372,418-420`), which does not
    compile, although `skip` is documented for deserialization (`lib.rs:314`; C59).  For an enum without variants the emitted `match` on a
    reference has no arms at all, which does not compile either.
23. None of the documented cases of changed prefixes (`lib.rs:230-235`) holds in general (C61). A mapping of the parent is kept only for the element's
    own namespace. Prefixes go to URIs in ascending order of the URIs, so a flattened field can take the prefix of the containing type. For a
    namespace mapped both as default and with a prefix, the empty prefix is asked for first and replaced by `ns1`, not by the given one.
24. Elements are written before flattened fields (`serialize.rs:50-73`), whatever the order of declaration. For a schema with a choice before an element
    (`xs:sequence` of both, as in `lib.rs:340-404` with the order exchanged) documents are read but never written validly (C62).
25. Types that contain themselves are read by recursion without a limit (`de/mod.rs:546-603`): a document that is deep enough overflows the stack,
    which aborts the process (C66). All other claims are about a stack that is large enough.
26. `ElementBuilder::start` and `ElementWriter::finish` take their state before they can panic (`ser/mod.rs:162,238`), and `write` sets `poison` only on an
    error (`ser/mod.rs:86`). So if a panic of these is caught, nothing is poisoned and `Serializer::to` may return `Ok` with an element missing or
    not closed (C73).
27. The numbers appended to prefixes are tried from 2 on for each namespace again (`ser/mod.rs:326-333`): n namespaces that ask for the same prefix
    take n(n+1)/2 tries (C84).
28. After an error that an implementation forgives, `return_to_depth` (`de/mod.rs:468-481`) goes on without cutting off the stack: in release builds an element that ended before the
   error stays there in the place of its next sibling, and an error found within that sibling names the wrong element (C90_release_counterexample). In debug builds the assertion of finding 2 is tripped.
