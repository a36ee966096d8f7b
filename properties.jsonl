{"id": "C01", "title": "normalize computes XML Schema whitespace normalization", "statement": "normalize(s, Preserve) returns s; normalize(s, Replace) returns s with every TAB, LF, CR turned into one SPACE and every other character unchanged; normalize(s, Collapse) returns the maximal runs of non-whitespace characters of s joined by single spaces. It never indexes out of bounds.", "quantifier": "every string and every whitespace mode", "why_tests_cant": "the implementation is an in-place byte-moving loop over index ranges; its correctness depends on arbitrarily many runs of arbitrary lengths", "anchors": ["static-xml/src/de/mod.rs: normalize, WhiteSpace"]}
{"id": "C02", "title": "normalize always returns valid UTF-8", "statement": "The bytes handed to the unchecked UTF-8 conversion at the end of normalize are always the UTF-8 encoding of some string, namely of the normalized text, so the unsafe block is sound.", "quantifier": "every valid UTF-8 string (any mix of 1- to 4-byte characters) and every mode", "why_tests_cant": "unsoundness would need one specific byte layout; tests sample a handful of ASCII strings", "anchors": ["static-xml/src/de/mod.rs: normalize (SAFETY comment)"]}
{"id": "C03", "title": "normalization is idempotent and the modes compose", "statement": "Normalizing twice in the same mode equals normalizing once; Collapse after Replace equals Collapse; a Collapse result has no TAB/LF/CR, no leading or trailing space and no two adjacent spaces; Replace preserves length.", "quantifier": "every string and mode", "why_tests_cant": "algebraic laws over all strings", "anchors": ["static-xml/src/de/mod.rs: normalize"]}
{"id": "C04", "title": "bool text: exact lexical space and round trip", "statement": "bool::parse accepts exactly the strings that are, after stripping leading and trailing XML whitespace, one of true, 1, false, 0, with the obvious value; parsing the ToText output of b, padded with any XML whitespace, gives b.", "quantifier": "every string; every bool; every padding", "why_tests_cant": "the accepted set is infinite (paddings)", "anchors": ["static-xml/src/de/mod.rs: impl ParseText for bool", "static-xml/src/ser/mod.rs: text_from_display!(bool)"]}
{"id": "C05", "title": "integer text: round trip and no silent wrap", "statement": "For each of i8..i128, u8..u128: parsing the ToText output of n, padded with any XML whitespace, gives n; and a successful parse of any string returns exactly the mathematical value of the decimal literal after trimming, within the range of the type (out-of-range literals are errors, never wrapped).", "quantifier": "every value of every integer type; every string", "why_tests_cant": "2^128 values and all strings", "anchors": ["static-xml/src/de/mod.rs: text_for_num!", "static-xml/src/ser/mod.rs: text_from_display!"]}
{"id": "C06", "title": "restriction enums parse exactly their table", "statement": "A derived restriction enum parses text t (after the declared whitespace normalization) to the variant whose declared text equals it, otherwise to the unknown variant carrying the normalized text, otherwise to an error. ToText then parse returns the same variant for every variant whose declared text is in normalized form and for every unknown value that is normalized and is not a declared text.", "quantifier": "every restriction enum with distinct declared texts, every input string, every variant value", "why_tests_cant": "quantifies over all enum declarations and strings", "anchors": ["static-xml-derive/src/parse.rs: do_restriction, normalize", "static-xml-derive/src/to_text.rs: do_restriction", "static-xml-derive/src/common.rs: TextEnum::parse_restriction_fields"]}
{"id": "C07", "title": "union enums take the first variant that parses", "statement": "A derived union enum parses to the first variant (declaration order) whose type accepts the (normalized) text and fails iff all variants reject it, the error then listing every variant's error in order. ToText then parse returns the original value iff no earlier variant accepts its text (and its own type round-trips).", "quantifier": "every union declaration, every string, every value", "why_tests_cant": "order-sensitivity over all variant lists and inputs", "anchors": ["static-xml-derive/src/parse.rs: do_union", "static-xml/src/de/mod.rs: union_error", "static-xml-derive/src/to_text.rs: do_union"]}
{"id": "C08", "title": "find looks names up by namespace and local name exactly", "statement": "find(name, table) on a sorted table returns Some(i) only when table[i] equals name in both namespace and local name, and returns Some for every name in the table, None otherwise; it never indexes outside the table.", "quantifier": "every sorted table of any length and every name", "why_tests_cant": "binary search boundaries for all lengths", "anchors": ["static-xml/src/de/mod.rs: find", "static-xml/src/lib.rs: ExpandedNameRef (Ord)"]}
{"id": "C09", "title": "derived lookup tables are sorted, so every declared field and variant is reachable", "statement": "For every derived struct the element and attribute tables are sorted in the order used by find and map back to the right field; likewise for every derived enum, so a child whose expanded name equals a declared one is matched to that field or variant.", "quantifier": "every struct and enum declaration", "why_tests_cant": "sorting in the macro and searching at run time use separately written comparisons; agreement must hold for all declarations", "anchors": ["static-xml-derive/src/common.rs: ElementStruct::new, ElementEnum::new", "static-xml-derive/src/deserialize.rs: attributes, elements, do_enum", "static-xml/src/de/mod.rs: find"]}
{"id": "C10", "title": "the reader never gets out of sync with the element tree", "statement": "Whatever a visitor does with a child element (ignore it, pass it on, read it as a string, read it with another visitor to completion or until an error, even swallowing that error), the parent's visitor is next called with the item that follows that child in the document: the calls made, their arguments and the final result are those of a traversal of the element tree.", "quantifier": "every document tree, every visitor behaviour (arbitrary state and arbitrary choices)", "why_tests_cant": "universally quantified over user-written visitors and documents", "anchors": ["static-xml/src/de/mod.rs: ElementReader::read_to, ElementReader::read_string, Reader::return_to_depth, Reader::next, read"]}
{"id": "C11", "title": "truncated or malformed input never yields Ok", "statement": "If the XML parser reports an error at any point before the end of the document, read/from_str return Err, whatever the visitor does (including ignoring the element or swallowing errors); Ok is returned only after the parser has reported the end of the document.", "quantifier": "every event sequence that ends in a parser error at any point; every Deserialize implementation", "why_tests_cant": "crash-point quantifier: the error can come after any event", "anchors": ["static-xml/src/de/mod.rs: read, Reader::end, Reader::return_to_depth"]}
{"id": "C12", "title": "read terminates without panicking", "statement": "On every event sequence a conforming XML parser can produce, reading terminates and no depth underflow, out-of-range stack access or endless loop occurs for any visitor; in debug builds no debug_assert fires provided visitors propagate the errors of child reads.", "quantifier": "every conforming event sequence (complete or cut off by an error), every visitor", "why_tests_cant": "for all documents, depths and visitors", "anchors": ["static-xml/src/de/mod.rs: Reader::next, Reader::return_to_depth, Reader::root, Reader::end, ElementReader::read_to"]}
{"id": "C13", "title": "errors carry the element stack and position of where they happened", "statement": "An error raised by a visitor or a Deserialize implementation while an element is being processed (including after its end tag has been read, e.g. for missing fields) is reported with the stack of open elements from the root to that element, with their names and positions; a character-data error carries the position of the text.", "quantifier": "every document, depth, visitor and point of failure", "why_tests_cant": "for all depths and failure points", "anchors": ["static-xml/src/de/mod.rs: VisitorError::wrap, Error::stack, ElementReader::read_to, read"]}
{"id": "C14", "title": "the innermost error context is kept", "statement": "Once an error has been given its context (kind, stack, position) by the innermost reader, every enclosing reader returns it unchanged: a visitor that propagates errors causes read to return exactly the first error raised.", "quantifier": "every nesting depth and every propagating visitor", "why_tests_cant": "any depth of nesting", "anchors": ["static-xml/src/de/mod.rs: VisitorError::wrap, ElementReader::read_to"]}
{"id": "C15", "title": "text content is the concatenation of its character and CDATA runs", "statement": "Reading an element as text gives the concatenation, in document order, of the character-data and CDATA events directly inside it, unaffected by comments, processing instructions and attributes; a child element makes it an error. Whitespace-only events contribute nothing.", "quantifier": "every element content", "why_tests_cant": "any number and arrangement of runs", "anchors": ["static-xml/src/de/mod.rs: ElementReader::read_string, Reader::next"]}
{"id": "C16", "title": "comments, processing instructions and whitespace events never change a result", "statement": "Adding or removing comments, processing instructions or whitespace-only events anywhere inside the document (comments and processing instructions also around the root) does not change the value read nor whether reading succeeds.", "quantifier": "every document, every set of insertion points, every visitor", "why_tests_cant": "all insertion points in all documents", "anchors": ["static-xml/src/de/mod.rs: Reader::next, Reader::end"]}
{"id": "C17", "title": "results do not depend on namespace prefixes", "statement": "For derived types, two documents that differ only in the prefixes used for names (same namespace URIs and local names) give the same value or both fail.", "quantifier": "every derived type, every pair of such documents", "why_tests_cant": "all documents, all prefix renamings", "anchors": ["static-xml/src/lib.rs: ExpandedNameRef::from_xml_name", "static-xml/src/de/mod.rs: ElementReader::expanded_name"]}
{"id": "C18", "title": "element fields obey their cardinality", "statement": "For a derived struct, a plain field is filled from exactly one matching child (none: the declared default or a missing-element error; several: a duplicate-element error), Option from at most one, Vec from all matching children in document order.", "quantifier": "every struct declaration and every document", "why_tests_cant": "all counts and orders of children", "anchors": ["static-xml/src/de/mod.rs: DeserializeElementField impls", "static-xml-derive/src/deserialize.rs: element_match_branches, finalize_visitor_fields"]}
{"id": "C19", "title": "attribute fields obey their cardinality", "statement": "For a derived struct, an attribute field is filled from the attribute with its expanded name; absent: default, None for Option, or a missing-attribute error; a repeated attribute is an error.", "quantifier": "every struct declaration and attribute list", "why_tests_cant": "all attribute lists", "anchors": ["static-xml/src/de/mod.rs: DeserializeAttrField impls", "static-xml-derive/src/deserialize.rs: attribute_match_branches, finalize_visitor_fields"]}
{"id": "C20", "title": "unknown content is ignored", "statement": "Attributes, child elements (with all their content) and text that a derived struct does not declare do not change the value read nor whether reading succeeds.", "quantifier": "every struct declaration, document and inserted unknown content", "why_tests_cant": "arbitrary unknown subtrees at arbitrary places", "anchors": ["static-xml/src/lib.rs (crate docs, structs)", "static-xml-derive/src/deserialize.rs: do_struct"]}
{"id": "C21", "title": "the order of differently named children does not matter", "statement": "For a derived struct, permuting children so that children with equal names keep their relative order does not change the value read.", "quantifier": "every document and permutation", "why_tests_cant": "all permutations", "anchors": ["static-xml-derive/src/deserialize.rs: element_match_branches", "README.md: Design notes"]}
{"id": "C22", "title": "derived deserializers never touch uninitialized memory", "statement": "In the generated code a field's memory is read (updated, or assumed initialized on success) only after it has been written, an initialized field is never overwritten by a second write, and Ok is returned only when every field has been written.", "quantifier": "every struct/enum declaration, every document (well-formed or not)", "why_tests_cant": "undefined behaviour need not show up in a test run; must hold on every path", "anchors": ["static-xml-derive/src/deserialize.rs: do_struct, do_enum, finalize_visitor_fields", "static-xml/src/de/mod.rs: impl_deserialize_via_raw!"]}
{"id": "C23", "title": "a derived enum holds the single choice present in the content", "statement": "A derived enum is read from content that has children for exactly one of its variants; children for two different variants are an error naming both; no matching child is a 'can't be empty' error; a repeated child extends a Vec variant, and is an error for a single-valued one.", "quantifier": "every enum declaration and child list", "why_tests_cant": "all child sequences", "anchors": ["static-xml-derive/src/deserialize.rs: do_enum"]}
{"id": "C24", "title": "flattened fields are offered unknown children in declaration order", "statement": "A child not declared by the struct itself is offered to each flattened field in declaration order until one accepts it.", "quantifier": "every struct with any number of flattened fields and every child sequence", "why_tests_cant": "all sequences of children and all numbers of flattened fields", "anchors": ["static-xml/src/lib.rs (crate docs, flatten)", "static-xml/src/de/mod.rs: delegate_element, delegate_attribute, delegate_characters", "static-xml-derive/src/deserialize.rs: quote_flatten_visitors, do_enum"]}
{"id": "C25", "title": "successful serialization means a complete, balanced document", "statement": "If Serializer::to returns Ok then the events written form exactly one root element with properly nested children, whatever the Serialize implementation did: dropped builders or writers, ignored errors, or write failures at any point make it return Err.", "quantifier": "every Serialize implementation (any interleaving of API calls allowed by the types, ignoring any errors), every pattern of write failures", "why_tests_cant": "quantifies over all user programs and all failure points", "anchors": ["static-xml/src/ser/mod.rs: Serializer::to, ElementBuilder, ElementWriter, WrappedWriter (poison)"]}
{"id": "C26", "title": "the first serialization failure sticks", "statement": "After the first failed write or abandoned element, every later write fails with that same first error and nothing more reaches the output.", "quantifier": "every Serialize implementation and failure point", "why_tests_cant": "all continuations after a failure", "anchors": ["static-xml/src/ser/mod.rs: WrappedWriter::write, WrappedWriter::poison, Drop impls"]}
{"id": "C27", "title": "attributes are unique and kept in order", "statement": "The attributes of a written start tag have pairwise distinct expanded names and pairwise distinct qualified names, in the order of the first successful calls, with the first value given; adding a name again is reported as an error and changes nothing.", "quantifier": "every sequence of attribute and namespace calls", "why_tests_cant": "all call sequences", "anchors": ["static-xml/src/ser/mod.rs: ElementBuilder::attribute, ElementBuilder::start"]}
{"id": "C28", "title": "prefix assignment is total, injective and terminates", "statement": "Choosing prefixes always terminates, gives every required namespace URI exactly one prefix, never gives one prefix to two URIs, and never moves a required URI's prefix because of a merely inherited mapping.", "quantifier": "every set of requested mappings", "why_tests_cant": "all sets of conflicting requests", "anchors": ["static-xml/src/ser/mod.rs: NamespacesBuilder::finalize, NamespacesBuilder::insert"]}
{"id": "C29", "title": "written names resolve to the requested expanded names", "statement": "Every written element and attribute name, resolved by the XML namespace rules against the mappings in scope at that point of the written document, is exactly the namespace/local-name pair requested.", "quantifier": "every Serialize implementation, every nesting of mappings", "why_tests_cant": "all nestings and shadowings", "anchors": ["static-xml/src/ser/mod.rs: Namespaces::child, Namespaces::resolve_element, Namespaces::resolve_attribute, NamespacesBuilder::finalize"]}
{"id": "C30", "title": "namespaced attributes always get a prefix", "statement": "An attribute in a non-empty namespace is always written with a non-empty prefix, even if its namespace was only requested as the default namespace.", "quantifier": "every sequence of builder calls", "why_tests_cant": "all call sequences", "anchors": ["static-xml/src/ser/mod.rs: NamespacesBuilder::attribute, NamespacesBuilder::finalize, Namespaces::resolve_attribute"]}
{"id": "C31", "title": "derived serialization never hits an undeclared namespace", "statement": "Serializing any value of derived types (which declare their namespaces on the type) never panics; in particular every name used by the generated code is resolvable where it is used.", "quantifier": "every set of derived types and every value", "why_tests_cant": "all type graphs and values", "anchors": ["static-xml/src/ser/mod.rs: Namespaces::resolve_element (panic, todo!)", "static-xml-derive/src/serialize.rs: write_namespaces, do_struct, do_enum"]}
{"id": "C32", "title": "derived serialization writes exactly the declared structure", "statement": "Serializing a value of a derived type writes, in declaration order, the attributes, then one child element per plain field, zero or one per Option, one per item of a Vec, then flattened fields' content, each with its declared expanded name.", "quantifier": "every derived type and value", "why_tests_cant": "all values", "anchors": ["static-xml-derive/src/serialize.rs: write_struct_attributes, write_struct_elements, do_enum", "static-xml/src/ser/mod.rs: SerializeField, SerializeAttr impls"]}
{"id": "C33", "title": "skipped enum variants fail to serialize", "statement": "As documented, serializing an enum variant marked skip produces an error.", "quantifier": "every enum with skipped variants", "why_tests_cant": "documented behaviour of all such enums", "anchors": ["static-xml/src/lib.rs (crate docs, skip)", "static-xml-derive/src/serialize.rs: do_enum"]}
{"id": "C34", "title": "text fields are serialized", "statement": "As documented, a struct field marked text is written as the element's character data.", "quantifier": "every struct with a text field", "why_tests_cant": "documented behaviour of all such structs", "anchors": ["static-xml/src/lib.rs (crate docs, text)", "static-xml-derive/src/serialize.rs: write_struct_elements"]}
{"id": "C35", "title": "values of derived types round-trip", "statement": "Reading back what was serialized from a value of a derived type gives an equal value.", "quantifier": "every set of (possibly recursive) derived types and every value of them", "why_tests_cant": "all type graphs and all values of unbounded size", "anchors": ["static-xml/src/ser/mod.rs: Serializer::to", "static-xml/src/de/mod.rs: read", "static-xml-derive/src/serialize.rs", "static-xml-derive/src/deserialize.rs"]}
{"id": "C36", "title": "indentation does not change what is read back", "statement": "Serializing with perform_indent, i.e. with whitespace inserted between tags, reads back to the same value as without.", "quantifier": "every value of derived types and every indentation", "why_tests_cant": "all documents", "anchors": ["static-xml/src/ser/mod.rs: Serializer::perform_indent", "static-xml/src/de/mod.rs: Reader::next"]}
{"id": "C37", "title": "prefix attributes in the macros resolve to declared namespaces", "statement": "If the derive macro reports no error then every name it generates for a type, field or variant with a prefix attribute has the namespace URL declared for that prefix on the type, and that URL is among the mappings the generated serializer declares (or it is the built-in xml namespace).", "quantifier": "every list of type-level and field-level attributes", "why_tests_cant": "all declarations", "anchors": ["static-xml-derive/src/common.rs: Namespaces::add_namespace, Namespaces::process_prefix, ElementAttr::new", "static-xml-derive/src/serialize.rs: write_namespaces"]}
{"id": "C38", "title": "expanded names are shown unambiguously", "statement": "The displayed form {namespace}local (or local alone when there is no namespace) determines the expanded name, for names whose parts contain no braces.", "quantifier": "every pair of names", "why_tests_cant": "injectivity over all names", "anchors": ["static-xml/src/lib.rs: Display for ExpandedNameRef"]}
{"id": "C39", "title": "error messages list the stack innermost first", "statement": "The displayed form of a reading error starts with the cause and position and then has one line per element of the stack, innermost first, each numbered with its depth. From it one can tell the cause, the position, and the prefix, local name and position of each element of the stack (but not its namespace).", "quantifier": "every error", "why_tests_cant": "all stacks", "anchors": ["static-xml/src/de/mod.rs: Display for Error"]}
{"id": "C40", "title": "the macros accept exactly the declarations in order", "statement": "The derive macros for elements report no error exactly if every attribute item is understood, prefixes are declared (once) on the type, modes of fields do not conflict, at most one field is text and variants have at most one value; and then fields and variants have the declared mode, local name, namespace and default flag.", "quantifier": "every declaration", "why_tests_cant": "all attribute lists", "anchors": ["static-xml-derive/src/common.rs: ElementAttr::new, ElementField::new, ElementStruct::new, ElementVariant::new, ElementEnum::new"]}
{"id": "C41", "title": "macro expansion panics only where known", "statement": "Expansion of the element macros panics exactly on namespace prefixes starting with xml (other than the built-in mapping), and for Deserialize also on text fields; in every other case it ends with code or compile errors.", "quantifier": "every declaration", "why_tests_cant": "all declarations", "anchors": ["static-xml-derive/src/common.rs: Namespaces::add_namespace, Errors", "static-xml-derive/src/deserialize.rs: do_struct (todo!)"]}
{"id": "C42", "title": "text type declarations are accepted and understood as declared", "statement": "The ParseText/ToText macros report no error exactly for declarations with one known mode, known whitespace modes and variants fit for the mode; the generated parser of a restriction then maps a text to the first variant whose declared text it is after the declared whitespace normalization, otherwise to the unknown variant if there is one.", "quantifier": "every declaration and text", "why_tests_cant": "all declarations and texts", "anchors": ["static-xml-derive/src/common.rs: TextAttr::new, parse_restriction_fields, parse_union_fields"]}
{"id": "C43", "title": "names are resolved as in Namespaces in XML, including the built-in xml prefix", "statement": "For tags and attributes as the XML parser reports them (by prefix, with the mappings in force, and with or without the namespace of the prefix xml), the expanded name the crate works with is the one of Namespaces in XML, so a declared name matches exactly the tags with its local name and its namespace.", "quantifier": "every tag, every nesting of namespace mappings and every document", "why_tests_cant": "all mappings and documents", "anchors": ["static-xml/src/lib.rs: ExpandedNameRef::from_xml_name, XML_NS", "static-xml-derive/src/common.rs: Name::expanded"]}
{"id": "C44", "title": "the first defect in document order is the one reported", "statement": "When reading as a derived type fails, the error is the first defect of the document: attributes of an element before its children, children in document order, and missing fields in order of declaration after all children. Kind, stack and position are those of that defect, and content after it has no influence.", "quantifier": "every set of declarations and every document", "why_tests_cant": "all documents with any number of defects at any depth", "anchors": ["static-xml/src/de/mod.rs: Visitor::element, ElementReader::read_to", "static-xml-derive/src/deserialize.rs: do_struct, do_enum"]}
{"id": "C45", "title": "what was read can be written and read again", "statement": "If reading a document as a derived type gives a value, then serializing that value succeeds, and reading what was written gives the same value again; moreover the values obtainable by reading are exactly those of the type that can be read back. This is for text types whose text form parses to the same value, for defaults that can themselves be read back, and for documents without elements whose text is nonempty white space.", "quantifier": "every set of declarations, every document and every value", "why_tests_cant": "all documents and declarations of any depth", "anchors": ["static-xml/src/de/mod.rs: Visitor::element, ElementReader::read_to, deserialize", "static-xml-derive/src/deserialize.rs: do_struct, do_enum", "static-xml-derive/src/serialize.rs: do_struct, do_enum"]}
{"id": "C46", "title": "what is read depends only on the declared content, at every depth", "statement": "Two documents whose elements have the same declared content give the same result when read as a derived type: at every level the same values of the attributes with names of attribute fields, the same children for each element field in the same order, the same children for a flattened field; but any other attributes, unknown children, text between children, comments, positions, prefixes, and any interleaving of children of different fields.", "quantifier": "every set of declarations and every pair of documents", "why_tests_cant": "all pairs of documents that differ at any depth", "anchors": ["static-xml/src/de/mod.rs: Visitor::element, ElementReader::read_to", "static-xml-derive/src/deserialize.rs: do_struct, do_enum"]}
{"id": "C47", "title": "documents are read and written as the source of the declarations says", "statement": "For every struct the macros accept, the generated code works on exactly the fields of the source, in order, each with the local name, namespace, mode, type and default that its attributes in the source give it. Hence reading takes a field's value from the child elements (or attributes) with the expanded name that the source gives it, and writing puts its value there.", "quantifier": "every declaration, every document and every value", "why_tests_cant": "all declarations and documents", "anchors": ["static-xml-derive/src/common.rs: ElementStruct::new, ElementField::new, Name::expanded", "static-xml-derive/src/deserialize.rs: do_struct", "static-xml-derive/src/serialize.rs: do_struct"]}
{"id": "C48", "title": "which prefixes are written is determined by simple rules", "statement": "The mappings in force in an element are a function of the mappings of its parent and of the calls on its builder: URIs asked for are served in ascending order; each gets the prefix first asked for (or the inherited one), if free and usable; otherwise that prefix with the least free number from 2; or ns with the least free number from 1 if it is empty. Inherited mappings nobody asks for stay unless their prefix is taken. Declarations are written in ascending order of prefixes, and the order in which namespaces with different URIs are declared does not matter.", "quantifier": "every sequence of namespace and attribute calls and every parent", "why_tests_cant": "all call sequences and scopes", "anchors": ["static-xml/src/ser/mod.rs: NamespacesBuilder::insert, NamespacesBuilder::attribute, NamespacesBuilder::finalize, Namespaces::child"]}
{"id": "C49", "title": "generated unsafe code is sound whatever the types of fields do", "statement": "The visitor generated for a struct or an enum keeps the contract of the unsafe trait RawDeserializeVisitor: after any calls of its methods, in any order, whatever the hand-written implementations for the types of fields answered (values, errors, panics that were caught, changed values), no uninitialized memory was read, no initialized memory was overwritten, no slice or match was out of range, and if finalize returns Ok the whole value is initialized. Only for flattened fields, whose implementations are themselves unsafe, the same contract is assumed.", "quantifier": "every list of fields with arbitrary implementations and every history of calls", "why_tests_cant": "arbitrary user code as field types, all call histories including ones after errors and panics", "anchors": ["static-xml-derive/src/deserialize.rs: do_struct, do_enum, finalize_visitor_fields", "static-xml/src/de/mod.rs: RawDeserializeVisitor, DeserializeElementField, DeserializeAttrField, RawDeserialize"]}
{"id": "C50", "title": "fields of any type get what their implementations make of their elements", "statement": "For arbitrary implementations of the field traits: an element field gets the value of the first init that succeeds on a child of its name, as changed by update with each later child of that name; an attribute field gets the value of the first init that succeeds; a field nothing was read for gets its default, or what missing returns. A declared child or attribute is given to exactly the field declared for it, once, and the answer is that of its implementation. The first field in order of declaration whose missing fails decides the error of finalize.", "quantifier": "every list of fields with arbitrary implementations and every history of calls", "why_tests_cant": "arbitrary user code as field types, all call histories", "anchors": ["static-xml-derive/src/deserialize.rs: elements, attributes, finalize_visitor_fields", "static-xml/src/de/mod.rs: DeserializeElementField, DeserializeAttrField"]}
{"id": "C51", "title": "undeclared content is offered to flattened fields in order", "statement": "A child or attribute that no field is declared for, and all text, is offered to the visitors of the flattened fields in order of declaration: each gets what the one before handed on, the first that keeps it or fails decides the answer, later ones are not asked, and no other field is touched. If all hand it on, so does the struct.", "quantifier": "every list of fields with arbitrary implementations and every history of calls", "why_tests_cant": "arbitrary user code as field types, all call histories", "anchors": ["static-xml/src/de/mod.rs: delegate_element, delegate_attribute, delegate_characters", "static-xml-derive/src/deserialize.rs: do_struct"]}
{"id": "C52", "title": "an enum holds the first variant found, whatever its payload's type does", "statement": "For arbitrary payload types: the value an enum's visitor ends with is the variant of the first child that is a unit variant or whose payload's init succeeds, with the payload as changed by update with each later child of that name; if there is none, the default given to finalize; and otherwise finalize returns the error that the enum cannot be empty. Children of unknown names are handed back before that child and dropped after it, and another variant after it is an error naming both, which changes nothing.", "quantifier": "every list of variants with distinct, searchable names, every history of calls and every default", "why_tests_cant": "arbitrary user code as payload types, all call histories", "anchors": ["static-xml-derive/src/deserialize.rs: do_enum"]}
{"id": "C53", "title": "derived serializers write what the implementations of their fields write, in order", "statement": "For arbitrary implementations of the field traits: the generated code of a struct declares the namespaces of the type, lets the implementations for attribute fields write in order of declaration, then those of flattened fields; and among the children it lets the implementations for element fields write in order of declaration, each given its declared expanded name, then those of flattened fields. It stops at the first error and returns it. An enum lets the implementation for the payload of its variant write, given the variant's name. Vectors write each value in order, options at most one.", "quantifier": "every list of fields with arbitrary implementations, every writer state and every sink", "why_tests_cant": "arbitrary user code as field types", "anchors": ["static-xml-derive/src/serialize.rs: write_struct_attributes, write_struct_elements, write_namespaces, do_struct, do_enum", "static-xml/src/ser/mod.rs: SerializeField, SerializeAttr"]}
{"id": "C54", "title": "hand-written field types cannot break the document around them", "statement": "If no implementation leaks an ElementWriter, a derived struct that is written with Ok is one element whose content is the concatenation of one balanced sequence per field, in order. A value written as an element field is one element with the name of the field and the attributes its implementation asked for. If writing such an element fails, the writer is unusable afterwards, so no document with Ok comes of it.", "quantifier": "every list of fields with arbitrary implementations and every sink", "why_tests_cant": "arbitrary user code as field types, all failures", "anchors": ["static-xml-derive/src/serialize.rs: do_struct", "static-xml/src/ser/mod.rs: SerializeField for T, Serializer::to, Drop for ElementWriter, Drop for ElementBuilder"]}
{"id": "C55", "title": "serialization errors tell what went wrong", "statement": "From the message of an error the crate makes while serializing one can tell which kind of error it is and which name, prefix, old and new value it is about; no two different causes have the same message. The error for an attribute that is already there shows its name, the value it keeps and the value refused. If the sink refuses what is written, its message is kept; if a builder or writer is dropped too early, every later write fails with a message that tells which; the message of an implementation's error reaches the caller unchanged.", "quantifier": "every pair of causes and every builder", "why_tests_cant": "all names and values, including ones with quotes, braces or spaces in values", "anchors": ["static-xml/src/ser/mod.rs: Error, ElementBuilder::attribute, Drop for ElementBuilder, Drop for ElementWriter"]}
{"id": "C56", "title": "every mistake in a declaration is reported, once and as what it is", "statement": "For every declaration on which the macros do not panic, the errors they report are exactly the mistakes in it, one for each wrong item, field, variant or attribute, in the order of the declaration, each of the kind that fits: items nobody understands, values that are not strings, prefixes mapped twice (with the first and the refused URI), prefixes given twice, unknown prefixes, modes that exclude each other, several text fields, wrong shapes of structs and variants; for text types also bad, missing and repeated modes, bad whitespace, and catch-all variants that are renamed, repeated or of the wrong shape.", "quantifier": "every declaration", "why_tests_cant": "all lists of attributes, items, fields and variants, with any combination of mistakes", "anchors": ["static-xml-derive/src/common.rs: get_meta_items, ElementAttr::new, Namespaces::add_namespace, process_prefix, ElementStruct::new, ElementField::new, ElementEnum::new, TextAttr::new, parse_restriction_fields, parse_union_fields"]}
{"id": "C57", "title": "types with FromStr get exactly the normalized text", "statement": "A type in mode std is read by its FromStr from the text normalized as its declaration says, floating point types from the text without XML white space around it, and strings get the text unchanged; the result is that of FromStr, a value or an error, and nothing else. Hence values come back whenever FromStr undoes Display on such text.", "quantifier": "every text, every FromStr and Display", "why_tests_cant": "arbitrary implementations of FromStr and Display, all texts", "anchors": ["static-xml/src/de/mod.rs: text_for_num, ParseText for String", "static-xml-derive/src/parse.rs: do_std", "static-xml-derive/src/to_text.rs: do_std"]}
{"id": "C58", "title": "the emitted code for reading does what the claims about derived types say", "statement": "The code that derive(Deserialize) emits for a struct without text fields or for an enum, taken as syntax (fields of the visitor with their initializers, match arms with indices, guards and statements, tables, delegations, the statements of finalize), is a visitor that answers every sequence of calls as the visitors do that the other claims about derived types are about, and leaves the same value; it keeps the contract of the unsafe trait RawDeserializeVisitor if flattened fields do.", "quantifier": "every description of a struct or enum, arbitrary implementations for the types of fields, and every history of calls", "why_tests_cant": "code generators are tested on the handful of types somebody wrote", "anchors": ["static-xml-derive/src/deserialize.rs: quote_flatten_visitors, visitor_field_definitions, visitor_initializers, finalize_visitor_fields, attribute_match_branches, element_match_branches, do_struct, do_enum", "static-xml-derive/src/common.rs: ElementStruct::new, ElementEnum::new"]}
{"id": "C59", "title": "the emitted code keeps to the rules of Rust", "statement": "In the code emitted by derive(Deserialize) for a struct the fields of the visitor have distinct names, which are identifiers also if those of the declaration are raw, every one is initialized once by a value of its type, every name refers to a field that exists and has the right type, the child is moved once, the visitors of flattened fields are distinct where they are borrowed or moved together, and no table is indexed beyond its end. Emitting it panics exactly for structs with text fields. For enums, table indices are in range and patterns have the form of the variants; the match of derive(Serialize) is exhaustive, that of derive(Deserialize) exactly if no variant is skipped.", "quantifier": "every description of a struct or enum", "why_tests_cant": "all declarations, with any identifiers including raw ones", "anchors": ["static-xml-derive/src/deserialize.rs: do_struct, do_enum", "static-xml-derive/src/serialize.rs: do_enum"]}
{"id": "C60", "title": "the emitted code for writing and for text does what the claims about derived types say", "statement": "The code that derive(Serialize) emits for a struct or an enum, taken as syntax, writes what the derived serializers write that the other claims are about, whatever the implementations for the types of fields do. The code that derive(ParseText) and derive(ToText) emit for restrictions, unions and types of mode std parses every text to the same value or error, named by the identifiers of the declaration, and gives every value the same text.", "quantifier": "every declaration that is accepted, arbitrary implementations for the types of fields, every value and every text", "why_tests_cant": "code generators are tested on the handful of types somebody wrote", "anchors": ["static-xml-derive/src/serialize.rs: write_namespaces, write_struct_attributes, write_struct_elements, do_struct, do_enum", "static-xml-derive/src/parse.rs: do_union, do_restriction, do_std, normalize", "static-xml-derive/src/to_text.rs: do_union, do_restriction, do_std"]}
{"id": "C61", "title": "the prefix given to a namespace is the one used, unless there is a conflict", "statement": "The prefix wanted for a URI is the parent's, if the element itself is in that namespace and the parent maps it, else the first one given by the type or then by its flattened fields. If no prefix is wanted for two URIs and none that is empty is wanted for the namespace of an attribute, the mappings in force in an element are exactly those wanted, and of the parent's those whose URI and prefix nobody wants; the root element then declares exactly the mappings given. With conflicts, none of the three cases documented (lib.rs:230-235) holds in general: the parent's prefix is not used for namespaces other than the element's, a flattened field's mapping can win over that of the containing type, and a prefix is made up for a namespace that is both the default and mapped to a prefix.", "quantifier": "every derived struct and enum, every value, every mapping in force in the parent", "why_tests_cant": "all sets of mappings of types, flattened fields and parents, in all orders of URIs", "anchors": ["static-xml-derive/src/serialize.rs: write_namespaces, write_struct_attributes", "static-xml/src/ser/mod.rs: NamespacesBuilder, Namespaces::child", "static-xml/src/lib.rs: documentation of namespace"]}
{"id": "C62", "title": "types for a schema read and write the documents of the schema", "statement": "For a schema of complex types whose content is a sequence of elements (minOccurs, maxOccurs) and at most one choice, with attributes, and for derived types that match it as documented (elements for element fields, Option and Vec by number of occurrences, a choice for a flattened enum, attributes for attribute fields): every valid document is read without error as a value that conforms to the schema, and, if the choice comes last in each sequence, every conforming value is written as a valid document, under C32's condition on elements in no namespace. If a choice comes before an element that is there, no value is written as a valid document. bool, integers, strings, restriction enums (also with an unknown variant) and unions of them accept exactly the texts of the schema's simple type and write such texts.", "quantifier": "every schema and every matching set of types, every valid document, every conforming value", "why_tests_cant": "all schemas, with arbitrary nesting and recursion, and all documents that are valid", "anchors": ["static-xml/src/lib.rs: documentation of mode restriction, derive(Deserialize, Serialize), flatten", "static-xml-derive/src/serialize.rs: write_struct_elements", "static-xml-derive/src/deserialize.rs: do_struct, do_enum", "static-xml-derive/src/parse.rs: do_restriction, do_union"]}
{"id": "C63", "title": "what a derive macro is asked for is what the compiler gets", "statement": "Whatever a macro does, everything it reports reaches the compiler, in order, with what it returns; the call panics exactly if the macro panics or the input cannot be parsed, and never aborts the compiler by panicking twice. derive(Serialize) panics exactly for reserved prefixes, derive(Deserialize) also if there is exactly one text field, derive(ParseText) and derive(ToText) never. Otherwise the compile errors are exactly the mistakes in the declaration (C56); there are none exactly if the declaration is in order (C40, C42), and then code is emitted for the type as declared (C37) that reads, writes, parses or prints as the other claims say, with the declared root name.", "quantifier": "every declaration, arbitrary implementations for the types of fields, every value and every text", "why_tests_cant": "the entry points run in the compiler; no test covers wrong declarations", "anchors": ["static-xml-derive/src/lib.rs: derive", "static-xml-derive/src/common.rs: Errors, Drop for Errors, TextEnum::new", "static-xml-derive/src/deserialize.rs: derive", "static-xml-derive/src/serialize.rs: derive", "static-xml-derive/src/parse.rs: derive", "static-xml-derive/src/to_text.rs: derive"]}
{"id": "C64", "title": "what is read is of its type, and what is of its type can be written", "statement": "Every value read from a document is of the type asked for (all fields there, Option and Vec where declared, integers in range, enum variants with their payload, union and restriction values of a declared variant), if Default::default() is for fields that declare it. Every value of a text type has a text, and every value of a type meets what the claims about serialization ask of values. Hence what was read from a document can be written to a sink that accepts everything, and the result is the document that represents it, under C32's condition on elements in no namespace.", "quantifier": "every set of declared types without clashes, every document and every value", "why_tests_cant": "all documents and all values of recursive types", "anchors": ["static-xml/src/de/mod.rs: ParseText implementations, read", "static-xml/src/ser/mod.rs: ToText implementations, SerializeField", "static-xml-derive/src/deserialize.rs: do_struct, do_enum", "static-xml-derive/src/serialize.rs: do_struct, do_enum", "static-xml-derive/src/parse.rs: do_restriction, do_union", "static-xml-derive/src/to_text.rs: do_restriction, do_union"]}
{"id": "C65", "title": "programs that use the derive macros, as a whole", "statement": "For a crate whose declarations (any number, referring to each other in any way) the macros accept, and none of whose variants is skipped: the implementations that the emitted code gives to all types together exist and are unique, although they refer to each other. Reading any type with them, from any input, gives the result that the other claims about derived types are about: on documents no panic, the value exactly if the document is one for it, otherwise an error. Writing any value of any type with the emitted code, skipped variants included, writes what the other claims say, under the declared root name. So what one program wrote it reads back exactly if the value is one that documents distinguish (C35).", "quantifier": "every set of declarations, every type of it, every input, every value and every sink", "why_tests_cant": "all sets of mutually recursive declarations, together with all documents and values", "anchors": ["static-xml-derive/src/deserialize.rs: derive, do_struct, do_enum", "static-xml-derive/src/serialize.rs: derive, do_struct, do_enum", "static-xml/src/de/mod.rs: read, from_str, ElementReader::read_to, DeserializeElementField, DeserializeAttrField, Deserialize for T: ParseText, Deserialize for T: RawDeserialize", "static-xml/src/ser/mod.rs: Serializer::to, SerializeField, SerializeAttr, Serialize for T: ToText"]}
{"id": "C66", "title": "the stack that reading needs is bounded by the types, not by the document", "statement": "Reading a derived type never has more calls of read_to (and so of the implementations for the types of fields, which call it) active at a time than the length of the longest chain of structs and enums in which each contains the next, whatever the input, well-formed or not: elements nobody reads are skipped without further calls, however deep they are. This is exact: for every shorter stack there is a document that overflows it, and for a type that contains itself no stack is large enough for all documents. For other implementations it holds if visitors hand children only to visitors that get by with less. A limited stack changes no result unless it overflows. The emitted code of a crate needs the same room.", "quantifier": "every set of types, every input, every size of the stack", "why_tests_cant": "overflow shows only for documents deeper than the stack of the machine the test runs on", "anchors": ["static-xml/src/de/mod.rs: ElementReader::read_to, VecElementReader, read, ElementVisitor::element returning Ok(Some(_))", "static-xml-derive/src/deserialize.rs: do_struct, do_enum"]}
{"id": "C67", "title": "what arrives when writing fails is the document up to the failure", "statement": "Serialization to a writer that fails: what arrives is exactly what the document without failures has before the first write that fails, for any implementation of Serialize, also one that ignores errors and goes on; then the result is no success. If none of the document's writes fails, the result is as without failures. For derived types and for the emitted code of a crate: serialization never panics where it does not without failures, and the result is the failure of the writer.", "quantifier": "every implementation, every value of derived types, every pattern of failures", "why_tests_cant": "all points at which writing may fail, for all documents", "anchors": ["static-xml/src/ser/mod.rs: WrappedWriter::write, WrappedWriter::poison, Serializer::to, ElementBuilder::start, ElementWriter::text, ElementWriter::finish", "static-xml-derive/src/serialize.rs: do_struct, do_enum"]}
{"id": "C68", "title": "an input cut short fails with the parser's error or exactly as the whole input does", "statement": "For any implementation that passes on errors of reading: for every input there is one event such that an error of the parser at any earlier event is what is reported, with the elements open at that event and the position of the parser's error; and from that event on nothing that follows has any influence on the result, which is no success. So an input that can be read, cut short anywhere, gives the error of the parser. Derived code passes on errors: a document of a derived type, cut short, gives the error of the parser or the document's first defect.", "quantifier": "every input, conforming or not; every implementation that passes on errors; all derived types; every point of cut and every error", "why_tests_cant": "all inputs and all points at which they may be cut", "anchors": ["static-xml/src/de/mod.rs: Reader::next, Reader::return_to_depth, Reader::root, Reader::end, ElementReader::read_to, ElementReader::read_string, read", "static-xml-derive/src/deserialize.rs: do_struct, do_enum"]}
{"id": "C69", "title": "the cause that an error of reading names", "statement": "Every error that reading returns is the error of the parser, at the position the parser gives; or one the crate has found itself (with no cause); or the error that an implementation returned. The cause (std::error::Error::source) of the first is what the source of bytes reported, or what was found not to be UTF-8, if the parser's error wraps such a thing, otherwise the parser's error itself; of the last it is the implementation's error, unchanged. An input that could be read, if its source fails anywhere, gives an error whose cause is that failure. Derived code returns no errors besides those of the crate's constructors and of text types.", "quantifier": "every input, conforming or not; every implementation; all derived types", "why_tests_cant": "all inputs, implementations and errors", "anchors": ["static-xml/src/de/mod.rs: Error::source, ErrorKind::source, VisitorError::wrap, Reader::next, Reader::root, Reader::end, ElementReader::read_to, ElementReader::read_string, read"]}
{"id": "C70", "title": "the text types of a whole crate", "statement": "In a crate whose text types are declared in order, the declarations define one text type for each name, the variants of a union being of these types in turn. The parse implementations emitted for all the types, which call each other, can behave in just one way: as the claims about text types say of the type declared; they never panic. The emitted to_text implementations give every value of a type the text those claims say.", "quantifier": "every crate of declarations that the macros and the compiler accept (no enum contains itself), with types of the library among them; every text and value", "why_tests_cant": "unbounded numbers of types and depths of nesting; all texts", "anchors": ["static-xml-derive/src/parse.rs: do_enum, do_union, do_restriction, do_std, derive", "static-xml-derive/src/to_text.rs: do_enum, do_union, do_restriction, do_std, derive"]}
{"id": "C71", "title": "fields and variants of one name", "statement": "The macro does not reject a struct in which several element fields (or several attribute fields) have one name, or an enum in which several variants have. In such a struct one field of each name is chosen, the same one for all documents: it gets what is read under that name, and the others never get anything: they have their default, or what their type makes of a missing field. So a struct with two required fields of one name cannot be read from anything. In an enum each name stands for one variant, and only such variants are ever read.", "quantifier": "every declaration of fields and variants, with arbitrary types (the contract of a flattened type's visitor is assumed); every sequence of calls; for derived types every input", "why_tests_cant": "all combinations of names, in all orders of declaration; all documents", "anchors": ["static-xml-derive/src/deserialize.rs: do_struct, do_enum", "static-xml-derive/src/common.rs: ElementStruct, ElementEnum", "static-xml/src/de/mod.rs: find"]}
{"id": "C72", "title": "what is read is of its type, always", "statement": "Whatever the parser delivers and whatever is declared (names may clash, a table may be unsearchable): a value that derived code returns is of the type asked for, with a field for each declared field in order, in which each field that was read holds at least one value and not more than fit, and each field that was not holds its default or what its type makes of a missing field; so it can be written. In general, reading preserves every invariant that the calls of a visitor preserve.", "quantifier": "every visitor, invariant and input, balanced or not; all declarations and types", "why_tests_cant": "all inputs and all sequences of parser events", "anchors": ["static-xml/src/de/mod.rs: read, read_to, ElementReader", "static-xml-derive/src/deserialize.rs: do_struct, do_enum"]}
{"id": "C73", "title": "writing when something panics", "statement": "Whatever panics while writing (names that cannot be resolved, an assertion, an implementation, the io::Write) and whatever implementations catch: if Serializer::to returns Ok, one balanced root element was written, with names that resolve to those asked for, and no write failed and no element was abandoned while unwinding, provided no ElementWriter is leaked and no write of an end tag panicked. A field whose own code panics leaves the serializer poisoned. A panic while a start tag is made or written does not: if it is caught, Ok is returned though the element is missing.", "quantifier": "every program that may catch any panic at any place, every io::Write that may fail or panic at any event, both builds", "why_tests_cant": "all combinations of panics, failures and places to catch them", "anchors": ["static-xml/src/ser/mod.rs: WrappedWriter::write, ElementBuilder::start, ElementWriter::finish, Drop impls, Serializer::to", "static-xml/src/ser/mod.rs: SerializeField for T"]}
{"id": "C74", "title": "reading when visitors panic and catch panics", "statement": "If visitors and implementations may panic at any call and catch the panics of the child reads they start (catch_unwind), then in a release build read presents to them the document's nodes in order, going on after a caught panic with what follows the child, however deep the panic happened; on every conforming event sequence it ends with Ok, Err or a panic of theirs; Ok is returned only if the parser reported the end of the document, so a caught panic cannot hide a parser error; every invariant of visitors kept by their own methods is kept. In a debug build the same holds if errors and panics are not swallowed, and not otherwise.", "quantifier": "every visitor and implementation, every document, every event sequence, both builds", "why_tests_cant": "all combinations of panics and places to catch them", "anchors": ["static-xml/src/de/mod.rs: ElementReader::read_to, Reader::return_to_depth, Reader::next, read"]}
{"id": "C75", "title": "crates judged by their source", "statement": "The derive macros accept a crate exactly if its declarations are in order. The types it declares are unambiguous exactly if, in the source, no two element fields or attribute fields of a struct and no two variants of an enum have the same expanded name (and no variant is skipped); likewise for flattened fields, mappings of prefixes, default namespaces and names without a prefix. So under these conditions on the source text alone, the emitted code exists, reads every document without panicking, as a value exactly if it is a document for this value, and reads back exactly the readable values from what it wrote.", "quantifier": "every crate, every document, every value, both builds", "why_tests_cant": "the conditions relate names given in three ways, by identifiers, rename and prefixes, across declarations", "anchors": ["static-xml-derive/src/common.rs: ElementMode, Field, Variant, Struct::new, Enum::new", "static-xml-derive/src/deserialize.rs: all", "static-xml-derive/src/serialize.rs: all"]}
{"id": "C76", "title": "derived types with fields of any types, read from documents", "statement": "Whatever the types of its fields are (any implementations of Deserialize, DeserializeElementField, DeserializeAttrField or, flattened, RawDeserialize), a derived struct is read from a document exactly if each field gets its value: an element field what its type makes of the children with its name, the first by init and the others by update, in document order; an attribute field what its type makes of the only attribute with its name; a field of which there is none its default or what missing says; flattened fields what they make of all text and of the attributes and children that are not declared, each offered to them in turn until one keeps it. A derived enum is read exactly if there are children of exactly one variant. For T, Option<T> and Vec<T> with any T: Deserialize: exactly one child of which T makes the value; at most one; a value of T for each child in order.", "quantifier": "every derived struct and enum, all implementations for the types of fields, every document, both builds", "why_tests_cant": "the types of fields are arbitrary user code; the tests use text types and derived types", "anchors": ["static-xml/src/de/mod.rs: impl_deserialize_via_raw, DeserializeElementField, DeserializeAttrField, ElementReader::read_to, delegate_element, delegate_attribute, delegate_characters", "static-xml-derive/src/deserialize.rs: do_struct, do_enum"]}
{"id": "C77", "title": "derived types with fields of any types read back what they wrote", "statement": "Whatever the types of its fields are, a derived struct with at most one flattened field reads back what it wrote if the type of each field does: an element field if only elements with its name are written for it and its type makes the value of them (or nothing is written and the value is what a missing field gets); an attribute field if parse undoes to_text; a flattened field if it does so in an element of its own and what it writes has no names of other fields. A derived enum does if the payload of the value's variant does and writes at least one element. Fields and payloads of type T, Option<T> and Vec<T> do if T does, and texts do if parse undoes to_text on visible text. So a value that is written to a document is read from every document that a conforming parser can report for it, and it is the same value.", "quantifier": "every derived struct and enum, all implementations for the types of fields that read back what they wrote, all values, every transported document, both builds", "why_tests_cant": "round trips of composed types follow from those of their parts; the tests try a few values of text types", "anchors": ["static-xml-derive/src/serialize.rs: do_struct, do_enum", "static-xml-derive/src/deserialize.rs: do_struct, do_enum", "static-xml/src/ser/mod.rs: SerializeField, SerializeAttr, Serializer", "static-xml/src/de/mod.rs: DeserializeElementField, DeserializeAttrField, impl_deserialize_via_raw"]}
{"id": "C78", "title": "derived serializers with fields of any types do not panic if namespaces are declared", "statement": "Whatever the types of its fields are, the generated Serialize of a struct or enum declares every namespace before it is used, if the implementations for its fields do, given the namespaces the type declares itself; element fields of type T, Option<T> and Vec<T> do if T does, attribute fields if the namespace of their name is declared. Then serialization never panics, whatever the output stream does.", "quantifier": "every derived struct and enum, all implementations of Serialize, SerializeField and SerializeAttr for the types of fields, all sinks, both builds", "why_tests_cant": "fields' implementations are arbitrary user code that declares and uses namespaces", "anchors": ["static-xml-derive/src/serialize.rs: do_struct, do_enum, write_namespaces", "static-xml/src/ser/mod.rs: SerializeField, SerializeAttr, ElementBuilder, Namespaces::finalize"]}
{"id": "C79", "title": "derived types with fields of any types return the error of the first defect", "statement": "Whatever the types of its fields are, reading a derived struct from a document returns an error exactly if something is refused or missing, and it is the error of the first such thing in document order: an attribute that is the second with its name or that the field's type refuses, a child that its field's type refuses (init for the first, update for those that follow), or an attribute, text or child that is not declared and that a flattened field refuses, after all before it was accepted; or, if all was accepted, the first field in declaration order that gets no value. A derived enum returns that of the first variant whose payload's type refuses it, or of a second variant, or that it is empty. Errors without a place get that of the attribute's element, of the child, or of the end tag, with the path to it; errors that have a place keep it. Fields of type T and Option<T> refuse every second child as a duplicate, Vec<T> refuses those T refuses; texts refuse child elements and what parse refuses; T is missing if there is nothing, Option<T> and Vec<T> never are.", "quantifier": "every derived struct and enum, all implementations for the types of fields, flattened fields included, all documents, every path, both builds", "why_tests_cant": "which of several errors wins, and its place, depends on the order of the document and on user code; the tests check single errors", "anchors": ["static-xml-derive/src/deserialize.rs: do_struct, do_enum", "static-xml/src/de/mod.rs: read_to, read_string, DeserializeElementField, DeserializeAttrField, RawDeserializeVisitor, impl_deserialize_via_raw, VisitorError"]}
{"id": "C80", "title": "what is read never depends on memory that is not initialized", "statement": "Suppose that wherever the reader, the code generated for derived types or the field types would read memory that is not initialized (assume_init_read, assume_init_mut, get_unchecked and the like) anything at all may happen: any state of the visitor, any answer, any value, panics included. Then what read returns for a document does not depend on what that is: programs of derived structs and enums, recursive or not, nested, flattened, with fields T, Option<T> and Vec<T> of arbitrary types that keep the contract of RawDeserializeVisitor, read every input the same whatever happens there, in both builds, also when types panic at any point and when hand-written types catch panics of the reads they started and go on using reader and visitors. In general, reading only depends on what visitors do in states that calls of their methods lead to. The contract is needed: with a type whose finalize says Ok without initializing the value, what is read is what happened to be in memory.", "quantifier": "every program of derived types and of types that keep the contract of RawDeserializeVisitor, all implementations for the types of fields, with panics and catch_unwind anywhere, all inputs, both builds", "why_tests_cant": "tests do not see undefined behaviour, and what is in uninitialized memory cannot be varied by a test", "anchors": ["static-xml/src/de/mod.rs: read, read_to, RawDeserializeVisitor, impl_deserialize_via_raw, DeserializeElementField", "static-xml-derive/src/deserialize.rs: do_struct, do_enum"]}
{"id": "C81", "title": "a panic has no other effect than an error would have", "statement": "Programs that differ at most in which errors they return, and in whether they return an error or panic, and that treat all failures of what they read alike, read the same values and fail for the same inputs, in both builds, caught panics included. Derived structs and enums are such programs if the types of their fields are: init, update, missing or parse of a field's type may panic or return any error, and memory, flags and flattened visitors are left the same; so are T, Option<T>, Vec<T> and impl_deserialize_via_raw!. So in particular errors can be returned everywhere in place of panics: visitors end in the same states, the reader at the same event, the same values are read, and where read panicked it returns an error. That failures are treated alike is needed: a visitor that catches panics but returns errors reads other values.", "quantifier": "every pair of visitors and implementations that differ at most in how they fail, every derived struct and enum, all implementations for the types of fields, all inputs, both builds", "why_tests_cant": "a test panics in one place; here the effects of panics and errors in all places of all runs are compared", "anchors": ["static-xml/src/de/mod.rs: read, read_to, DeserializeElementField, DeserializeAttrField, RawDeserializeVisitor, impl_deserialize_via_raw", "static-xml-derive/src/deserialize.rs: do_struct, do_enum"]}
{"id": "C82", "title": "types can be changed without losing the documents there are", "statement": "A derived struct without flattened fields reads all that an earlier version of it reads, and the values of its fields correspond, if each of its fields has the name of an earlier field and takes what that takes, or is new, has nothing in the document and can be absent. Earlier fields may be left out (what is there for them is ignored) and put in another order. A field may change from T or Option<T> to T, Option<T> or Vec<T>, and T to a type that reads all that T reads, if the new field can be absent whenever the old one could: marked default, Option<T> or Vec<T>; an attribute's type to one that parses all that the old one parses. With flattened fields, a new field for which there is nothing in an element makes no difference to the other fields. An enum may get new variants (for elements without children of theirs), its variants other places and wider payloads. Types that refer to each other can change together. Then the new program reads all such documents that the old one reads, and those it wrote.", "quantifier": "every pair of derived structs or enums so related, all types of fields, recursive types, all documents, both builds", "why_tests_cant": "an old test suite says nothing about documents it does not contain; this is about all documents the old program reads", "anchors": ["static-xml/src/de/mod.rs: Deserialize, DeserializeElementField, DeserializeAttrField, impl_deserialize_via_raw", "static-xml-derive/src/deserialize.rs: do_struct, do_enum", "static-xml/src/lib.rs: default, Option, Vec"]}
{"id": "C83", "title": "a panic goes where an error would go", "statement": "Take a program with implementations that panic, and the same program with an error that nothing else in it returns in place of each panic, where implementations treat that error as the others treat panics (they pass on both, or catch the panic and ignore the error). read panics exactly if the other program returns that error; otherwise both return the same value or the same error, and both leave the reader at the same event with the same stack. Derived structs and enums, fields of type T, Option<T> and Vec<T>, attributes and impl_deserialize_via_raw! are such programs if the types of their fields are (and default functions do not panic). So which panic ends a read, and where, is what C79 says of errors.", "quantifier": "every pair of programs so related, all inputs (also ones that are no documents), both builds", "why_tests_cant": "a test with a panicking type exercises one place where it panics and one handler; this says that no panic is lost, and none appears, on any input", "anchors": ["static-xml/src/de/mod.rs: read_to, read_string, next, return_to_depth, impl_deserialize_via_raw, field impls", "static-xml-derive/src/deserialize.rs: do_struct, do_enum"]}
{"id": "C84", "title": "the work of reading and of choosing prefixes is bounded", "statement": "normalize looks at most at 2n+2 bytes and moves at most n of the n bytes of a string: exactly the bytes of the result, or none if only white space at the end is left out. find compares at most as many names as the size of the table has binary digits. read presents each element, attribute and text of the input to a visitor at most once, whatever visitors do, and fetches at most one event per event of the input, two more, and one more per element presented; a document that is read to a value is fetched exactly once. An error found before the end is the same for every input that begins with the events fetched till then. Derived types compare at most (binary digits of the number of fields) names per attribute, and per element those and the binary digits of the number of variants for each flattened field. Choosing prefixes for n namespaces of which r are required takes at most r(r+1)/2 + (n-r) tries, n if there are no conflicts, and exactly n(n+1)/2 if all ask for the same prefix.", "quantifier": "all strings, tables, inputs, visitors, declarations and sets of namespaces; both builds", "why_tests_cant": "benchmarks sample inputs; a quadratic case in a loop over copies or skipped events shows only on inputs built for it", "anchors": ["static-xml/src/de/mod.rs: normalize, find, next, return_to_depth, read_to, read_string, read", "static-xml-derive/src/deserialize.rs: do_struct, do_enum", "static-xml/src/ser/mod.rs: NamespacesBuilder::finalize"]}
{"id": "C85", "title": "types and fields written by hand on top of others keep the contract", "statement": "A Deserialize written by hand that reads another type and makes its value of it reads exactly the documents that the other type reads and whose value is taken, with the same errors, or its own error located where the other type stopped; a newtype makes no difference for any input. An element field written by hand, which combines the values that another type is read to, holds what it makes of those of the children with its name, in order, or what is given for a missing field; T, Option and Vec are three of them; its errors are the other type's, or its own, at the end of the child, or at its start if it was not read. What it guarantees of its values is so at every moment. Such types and fields read back what they wrote, can be changed under the same condition on values, and keep C80, C81 and C83 about panics.", "quantifier": "all types underneath, all functions that make values or combine them, all documents and (where said) inputs; both builds", "why_tests_cant": "tests take the types of the crate; types of users are not there to be tested", "anchors": ["static-xml/src/de/mod.rs: Deserialize, DeserializeElementField, impls for T, Option<T>, Vec<T>", "static-xml-derive/src/deserialize.rs: element_match_branches"]}
{"id": "C86", "title": "what reading keeps, and the document written as its normal form", "statement": "Two documents are read as the same value of a derived type exactly if their declared content is alike at every level: texts for the same value, the same variants, as many children for each field and alike in order, attributes for the same values; except that where one has nothing for a field with a default the other may have what stands for the default. So reading loses nothing that is declared. What is written for a value that was read has content alike to that of the document it was read from. Different values are written differently, so that no document can be what a parser reports for both; hence what is written for a document that was read is its normal form: two documents are rewritten in the same way exactly if they are alike, and what was written like this is rewritten as it is. For fields of any types: values that are read back are told apart by what is written.", "quantifier": "all declarations without clashes, all pairs of documents and of values; for rewriting C45's conditions", "why_tests_cant": "tests compare some documents; that no two values share a document, and that nothing else is lost, is about all pairs", "anchors": ["static-xml-derive/src/deserialize.rs: do_struct, do_enum", "static-xml-derive/src/serialize.rs: do_struct, do_enum", "static-xml/src/de/mod.rs: field impls", "static-xml/src/ser/mod.rs: SerializeField, SerializeAttr"]}
{"id": "C87", "title": "what the documentation says about reading", "statement": "Statements of the documentation, as far as they are not among the claims above. (lib.rs:19-26) A type with ParseText, whatever its parse, is read as parse of the text of the element; attributes are ignored; that child elements are ignored is false: one is always an error, as de/mod.rs:607 says. (README.md:45-54, lib.rs:216-219) Where text is between child elements, at any depth, and the name of the root make no difference to what is read as any derived type. (de/mod.rs:541-545) read_to, and read_string, return errors only in the form Propagate, whatever the visitor. (de/mod.rs:694-706) missing is called iff nothing was found for the field, but not if the field has a default, which is then used whatever missing would do.", "quantifier": "all documents, all parse functions, all visitors and reader states, all declarations without clashes, all implementations of fields", "why_tests_cant": "a sentence of the documentation is about all types and documents; no test shows that one never fails", "anchors": ["static-xml/src/lib.rs:19-26,216-219", "static-xml/src/de/mod.rs: read_to, read_string, DeserializeElementField, DeserializeAttrField", "README.md:45-54"]}
{"id": "C88", "title": "what the documentation says about mappings and names", "statement": "(ser/mod.rs:259-262,447-471) In every builder of namespaces that occurs no prefix is assigned yet and what needs a prefix is required. When prefixes are chosen, one is missing only for a mapping that is not required; where a prefix is needed it is not empty; a mapping that is not required keeps the prefix requested or is dropped, and is dropped exactly if a required one got that prefix; no prefix is given to two URLs; the tables by URL and by prefix agree. (lib.rs:208-224) Type-level rename, prefix, namespace and default_namespace make no difference to what any input is read as, the expanded names of fields and variants being the same. Type-level rename and prefix make no difference to what is written, but for the default name of the root. The name of the root of a document makes no difference to what is read, but for its being named in errors.", "quantifier": "all sequences of elements, mappings and attributes; all types, values, inputs and names", "why_tests_cant": "the comments are about every state of the builders and about every type; tests see some", "anchors": ["static-xml/src/ser/mod.rs:259-262,447-471,258-383", "static-xml/src/lib.rs:208-241"]}
{"id": "C89", "title": "a program's set of types can grow", "statement": "For two versions of a program's derived structs and enums, mutually recursive and with flattened enums: if in the new one T, Option<T> and Vec<T> only become each other except that a Vec stays one, texts that were read still are, fields that could be left out still can, added fields can be left out, elements are removed only from structs without flattened fields, and variants are only added, then whatever document the old version reads the new one reads, as the corresponding value (same texts, same variants by name, as many items), provided nothing in the document has a name that is new. It reads whatever the old version writes if the new names are not declared by the old version.", "quantifier": "all pairs of sets of types, documents and values", "why_tests_cant": "compatibility is about all documents written so far; tests have a few", "anchors": ["static-xml/src/de/mod.rs:777-820,954-1020", "static-xml-derive/src/deserialize.rs:192-334,336-470"]}
{"id": "C90", "title": "the context of an error is true", "statement": "For every input (also malformed or cut short), visitor and implementation: whatever error is reported, its stack has exactly the elements that were open when it happened, with the positions of their starts (Error::stack: 'the stack of XML elements as of when this error occurred'), and its position is that of the event it is about. Implementations may keep errors and report them later. In release builds errors must not be swallowed: otherwise an element that has ended can stand in for the one that is open. Derived types need no condition.", "quantifier": "all inputs, visitors, implementations, sets of types, build profiles", "why_tests_cant": "which elements are on the stack depends on all that was read, skipped and forgiven before; tests check messages of a few documents", "anchors": ["static-xml/src/de/mod.rs:152-188,283-362,422-481,504-602"]}
{"id": "C91", "title": "writing takes work in proportion to what is written", "statement": "For every implementation of Serialize and every writer: each event is given to xml-rs once (on success exactly the events written). If the mappings asked for are to at most n URLs then, however deep elements nest, no start tag has more than n mappings, each element takes at most n of them from the element around it, and choosing its prefixes takes at most n(n+1)/2 tries. Derived serializers begin exactly one element for each element of the document that the value stands for, make exactly one write for each of its events, copy for each element exactly the mappings of the element around it, and try at least one prefix for each mapping written; when serialization fails they stop after at most one more write.", "quantifier": "all implementations, writers, sets of types, values, depths", "why_tests_cant": "tests do not measure; that mappings could pile up with depth, or prefixes be tried again and again, shows only for documents larger than tests have", "anchors": ["static-xml/src/ser/mod.rs:65-255,258-444,666-732", "static-xml-derive/src/serialize.rs:87-153"]}
{"id": "C92", "title": "any element can be read and written", "statement": "The traits are enough for a type that holds any element whatever, as README.md plans for xmltree::Element: there is an implementation of Deserialize and Serialize that, for every document, reads every element, attribute and run of text with its full name, nothing lost and nothing reordered; and that writes every element whose attributes have distinct names so that nothing panics, a reader that resolves names sees exactly that element, and reading it back gives it again except for text that is blank. So reading a document, writing it and reading it again gives the same, if the parser reports no blank text as text. And there is a type for flattened fields, as in README.md:98-103, that in any derived struct with no other flattened field keeps all text and exactly the attributes and children that no other field is for, in order and with everything in them, while the other fields get what they always get; it is read back from what it writes, except for blank text.", "quantifier": "all documents, elements, depths, names, namespaces, writers, structs", "why_tests_cant": "says of what the interface can express at all, so of all documents at once; the repository has no such implementation to test", "anchors": ["static-xml/src/de/mod.rs:546-602,667-720,777-820", "static-xml/src/ser/mod.rs:105-255,258-444", "README.md:38-42,93-105"]}
{"id": "C93", "title": "writing needs stack for the depth of the document", "statement": "While a value is written there are never more builders and writers alive at a time than elements inside each other in its document, whatever the destination does, and exactly that many if serialization succeeds: the calls of SerializeField::write nest as deep as the document and no deeper. For any implementation that leaks no writer it is that or one more. So types that do not contain themselves need a bounded stack however large the values are; and a type that contains itself has values that need more than any given stack.", "quantifier": "all values, types, nesting depths, destinations and implementations of the traits", "why_tests_cant": "stack overflow shows only at depths no test reaches, and a bound for all values of a type is not something a run can show", "anchors": ["static-xml/src/ser/mod.rs:105-255,524-571,666-732", "static-xml-derive/src/serialize.rs:87-153"]}
{"id": "C94", "title": "the order of declarations", "statement": "Take two programs whose types differ only in the order in which fields and variants are declared (flattened fields keeping their relative order). They read the same documents, as values that correspond field by field and variant by variant, and this correspondence is one to one; every other document makes both fail, at the same place and for the same reason, except that where several things are missing in one element another one of them may be named. What one of them writes (and would itself read back) the other reads as the corresponding value. The relative order of flattened fields does matter: there are two types differing in that alone, and a document that only one of them reads.", "quantifier": "all pairs of such types, all documents, all values", "why_tests_cant": "the generated code goes through the fields in the order of declaration in every match, initializer and check; tests fix one order per type", "anchors": ["static-xml-derive/src/deserialize.rs:90-144,162-334,336-470", "static-xml-derive/src/serialize.rs:87-153"]}
{"id": "C95", "title": "what of a declaration matters", "statement": "Two crates whose declarations say the same, field by field and variant by variant: same expanded names (of all but flattened fields, whose names are not used), same words, same types and defaults, whatever the Rust identifiers, the prefixes and where they are mapped, the order and grouping of attributes and the order of declarations (flattened fields keeping theirs). If the declarations of both are in order and their names do not clash, both compile to code that reads the same documents as corresponding values and fails alike for the others (as in C94); what one writes the other reads; and if the order of declarations is the same, both write, for every value, documents with the same elements, attributes and text.", "quantifier": "all pairs of such crates, all documents, all values", "why_tests_cant": "tests compile one form of each declaration; that nothing else of the source leaks into documents needs all pairs of sources", "anchors": ["static-xml-derive/src/common.rs:126-614", "static-xml-derive/src/deserialize.rs:90-144,162-334,336-470", "static-xml-derive/src/serialize.rs:87-153"]}
{"id": "C96", "title": "reading holds no more than the document gives", "statement": "Whatever the input, and whether reading ends with a value, an error or a panic: at no time do the visitors at work and read_string hold more than a fixed amount for each element of the input, and the bytes of its texts and attribute values, if each visitor takes at most that for an element and else keeps at most what it is given. Derived types do: for structs of at most F fields with defaults of size at most D the amount is 1 + max(1,F) * max(2,D). So the size of a value (values, structs, enums, Options and Vecs in it, and bytes of text) is bounded in the same way, at every depth of nesting; a text value holds at most the bytes of its text.", "quantifier": "all visitors within the condition, all derived types, all inputs (malformed ones too), all depths", "why_tests_cant": "tests look at the value for a few documents; that no small document makes a large value, or needs much while it is read, needs all documents and types", "anchors": ["static-xml/src/de/mod.rs:546-638,741-757,958-1020", "static-xml-derive/src/deserialize.rs:56-334,336-470"]}
{"id": "C97", "title": "read_string is read_to with a visitor", "statement": "As a comment in read_string plans, it can be had from read_to with a visitor for text (attributes ignored, text kept, an element an error). Replace every call of read_string in any program, in visitors and in the implementation for the root alike: the program does the same for every input, in debug and release builds, whatever its visitors do with the results and however they treat errors: the same value, the same error with the same stack and position (the visitor's own error put in the words of read_string), or the same panic. After each call the reader is in the same state.", "quantifier": "all visitors and implementations, all inputs (malformed ones too), both builds", "why_tests_cant": "the two loops are written separately and treat the stack, errors and elements in their own ways; tests use read_string on a few texts", "anchors": ["static-xml/src/de/mod.rs:546-638"]}
{"id": "C98", "title": "copying a document adds nothing but defaults", "statement": "Read a document as a derived type and write the value again. Count any amount for each element and any amount for each attribute. If the declared defaults of no struct, written out, count more than e together, then the new document counts at most what the old one does with e more for each of its elements. Without declared defaults there are no more elements than there were, and no more attributes. Elements are not deeper inside each other than they were either, apart from what is in defaults, and so are the writers that exist at a time. So copying cannot blow up a document: no child is used by two fields, whichever fields, variants and flattened fields there are.", "quantifier": "all declarations the macros handle unambiguously, all documents, all amounts, all destinations, both builds", "why_tests_cant": "the count is over nested types and documents of any size; tests compare a few values", "anchors": ["static-xml-derive/src/deserialize.rs:162-334", "static-xml-derive/src/serialize.rs:87-153", "static-xml/src/de/mod.rs:777-820", "static-xml/src/ser/mod.rs:524-571"]}
{"id": "C99", "title": "a change in a value changes the document only there", "statement": "Take two values of derived types that are the same except at one place at any depth: in an element field, in some consecutive items of a Vec, in the payload of a variant, in a flattened field, where fields and payloads may have types with any implementations. If one of them is written then the other is written exactly if what is at that place can be, and the two documents are the same events before and after what is written there: the same names and values, the same prefixes, the same declarations of namespaces. What is written at the place is what it would be on its own with the same mappings around it.", "quantifier": "all types, all implementations for fields, all values, all depths, all destinations, both builds", "why_tests_cant": "prefixes are chosen while writing, from what the elements around use; tests compare few documents", "anchors": ["static-xml/src/ser/mod.rs:105-255", "static-xml/src/ser/mod.rs:354-444", "static-xml/src/ser/mod.rs:524-571", "static-xml-derive/src/serialize.rs:87-153"]}
{"id": "C100", "title": "texts do not change the markup", "statement": "Two values of a derived type with the same variants, the same optional fields present and the same numbers of items in each Vec are written with the same markup: the same elements, attributes, prefixes and declarations of namespaces in the same order, whatever the texts and the numbers in them are. If the one makes writing fail or panic, so does the other, in the same way. The same is true for fields of any types whose implementations make the same calls. So no text can change the structure of the document.", "quantifier": "all types, all values, all pairs of implementations with the same calls, all destinations that do not look at texts, both builds", "why_tests_cant": "tests write few texts; a shortcut for empty or special texts would be seen for those only", "anchors": ["static-xml/src/ser/mod.rs:105-255", "static-xml/src/ser/mod.rs:524-664", "static-xml-derive/src/serialize.rs:12-72", "static-xml-derive/src/serialize.rs:87-153"]}
{"id": "C101", "title": "a change in a document changes what is read only there", "statement": "Leave open one element of a document, at any depth, and put any element of the same name there. Either nothing in that element matters for what is read, or there is one type and one place in the value such that the element is read as it would be on its own as that type and its value is at that place; the rest of the value is always the same, and whether reading succeeds depends on that element only. The same holds for the value of one attribute and for the text of one element: it is parsed as one text type and is at one place of the value, or it does not matter.", "quantifier": "all types without clashes of names, all documents, all elements at all depths, both builds", "why_tests_cant": "which field an element is for depends on all others, on its parents and on what came before; tests change few elements", "anchors": ["static-xml/src/de/mod.rs:546-602", "static-xml-derive/src/deserialize.rs:146-334", "static-xml-derive/src/deserialize.rs:336-470"]}
{"id": "C102", "title": "in a copy of a document, a change in the document is a change of one element", "statement": "Read a document and write the value again. Leave open one element of the document, at any depth, and put any element of the same name there. Either nothing in that element matters for what is read, or it is read as a value of one type, which is written as one element of that name, complete with start and end; everything before and after that element, names, prefixes, namespace declarations, attributes and texts, is the same in all copies, and whether the copy can be written depends on that element only.", "quantifier": "all types without clashes of names, all documents, all elements at all depths, all destinations, both builds", "why_tests_cant": "the reader, the writer and the declarations are involved at once; tests compare few copies", "anchors": ["static-xml/src/de/mod.rs:546-602", "static-xml-derive/src/deserialize.rs:146-334", "static-xml-derive/src/deserialize.rs:336-470", "static-xml-derive/src/serialize.rs:87-108", "static-xml-derive/src/serialize.rs:110-153", "static-xml/src/ser/mod.rs:524-571"]}
{"id": "C103", "title": "an error in an element is reported as its own, below the elements around it", "statement": "Leave open one element of a document, at any depth, and put any element of the same name at the same position there. Either nothing in that element matters for the error, or there is one type such that: if the element on its own cannot be read as that type, the document fails with the same kind of error, with the elements around it before those of the element's own error, at the start of the innermost element concerned; and if it can be read, then the document is read, or it fails with one error that is the same whatever is in the element. So if one element there makes a document readable and another does not, the other one is to blame and the error says so.", "quantifier": "all types without clashes of names, all documents, all elements at all depths, both builds", "why_tests_cant": "relates the errors of all documents that differ in one element; tests have single documents with single errors", "anchors": ["static-xml/src/de/mod.rs:86-91", "static-xml/src/de/mod.rs:152-188", "static-xml/src/de/mod.rs:546-602", "static-xml-derive/src/deserialize.rs:226-334", "static-xml-derive/src/deserialize.rs:336-470"]}
{"id": "C104", "title": "in programs, one element of a document decides only over itself", "statement": "Take a program whose declarations are in order and whose names do not clash, and the code the derive macros emit for it. For one element of a document, at any depth: what the emitted code reads differs at one place of the value at most (as C101), the error is the element's own or does not depend on its content (as C103), and what the emitted code writes for the value differs from one such document to another in one element at most (as C102). If two documents are read as values that differ in texts only, what is written for them differs in texts only (as C100).", "quantifier": "all sources of declarations in order without clashes, all documents, all elements at all depths, all destinations, both builds", "why_tests_cant": "all of the program is involved, from the attributes in the source to the output; and documents are compared, of which tests have few", "anchors": ["static-xml/src/de/mod.rs:264-280", "static-xml/src/de/mod.rs:546-602", "static-xml-derive/src/deserialize.rs:226-334", "static-xml-derive/src/deserialize.rs:336-470", "static-xml-derive/src/serialize.rs:87-108", "static-xml-derive/src/serialize.rs:110-153", "static-xml/src/ser/mod.rs:666-732"]}
{"id": "C105", "title": "an error can be reproduced with the element it is about alone", "statement": "If a document cannot be read as a derived type, then there is an element in it, possibly the root, that cannot be read on its own as one of the types, for a reason that is about nothing below that element (at most a child being there at all: one too many, for another variant, or in a text); and the error of the whole document has that kind, with the elements around before those of the element's own error. The same for the code emitted for a program.", "quantifier": "all types without clashes of names, all documents, all errors, both builds", "why_tests_cant": "says of every error of every document that a certain smaller document has it", "anchors": ["static-xml/src/de/mod.rs:86-91", "static-xml/src/de/mod.rs:152-188", "static-xml/src/de/mod.rs:546-602", "static-xml-derive/src/deserialize.rs:226-334", "static-xml-derive/src/deserialize.rs:336-470"]}
{"id": "C106", "title": "replacing the element an error is about decides whether the document still fails there", "statement": "If a document cannot be read as a derived type, and the error is not about the root alone, then there is an element in it, and a type, such that the error is that of reading the element on its own as that type (as in C105), and whatever is put in the place of that element, under the same name at the same position: if it cannot be read on its own as that type, the document fails for that reason, reported below the elements around; if it can, what remains, no error or another one, is one and the same whatever was put there. The same for the code emitted for a program.", "quantifier": "all types without clashes of names, all documents, all errors, all replacements of the element, both builds", "why_tests_cant": "says of every error of every document what becomes of it under every repair", "anchors": ["static-xml/src/de/mod.rs:86-91", "static-xml/src/de/mod.rs:152-188", "static-xml/src/de/mod.rs:546-602", "static-xml-derive/src/deserialize.rs:226-334", "static-xml-derive/src/deserialize.rs:336-470"]}
{"id": "C107", "title": "options of a serializer, and what was written to a string is read back from it", "statement": "However perform_indent and write_document_declaration are called on a Serializer, the last call of each counts, without any there is no indentation and a declaration, and nothing else of it changes. to_string gives a string iff to succeeds, the one whose UTF-8 was written; fails iff to fails, with the same error; and panics iff to does or xml-rs writes something else than UTF-8. A value of a derived type, written to a string with any options, is read back from that string by from_str iff the value is readable in the sense of C35, provided xml-rs conveys what is written. The same for the code emitted for a program.", "quantifier": "all implementations of Serialize, all sequences of settings, all behaviours of the XML writer; for reading back, all derived types with declared names and all values", "why_tests_cant": "quantifies over every sequence of settings, every writer and every value", "anchors": ["static-xml/src/ser/mod.rs:666-732", "static-xml/src/ser/mod.rs:733-760", "static-xml/src/de/mod.rs:264-280"]}
{"id": "C108", "title": "once the element an error was about is replaced, everything up to its end is accepted", "statement": "If a document cannot be read as a derived type, and the error is not about the root alone, then there is an element in it, and a type, such that the error is that of reading the element on its own as that type (as in C105), and with any element in its place, under the same name at the same position, that can be read as that type, the document is accepted at least up to the end tag of that element: an input that breaks off right after it gives the error of the parser. So no error of the repaired document is found before that point. The same for the code emitted for a program.", "quantifier": "all types without clashes of names, all documents, all errors, all repairs of the element, both builds", "why_tests_cant": "says of every error of every document, and every repair, that all input up to a certain event is accepted", "anchors": ["static-xml/src/de/mod.rs:86-91", "static-xml/src/de/mod.rs:264-280", "static-xml/src/de/mod.rs:422-466", "static-xml/src/de/mod.rs:546-602", "static-xml-derive/src/deserialize.rs:226-334", "static-xml-derive/src/deserialize.rs:336-470"]}
{"id": "C109", "title": "errors in documents are found at once", "statement": "If a document cannot be read, by any visitor and implementation that pass on the errors they get, then there is an event in it such that the elements in the error are those open after that event (before it, if it is an end tag), and nothing after it is looked at: whatever follows, also an error of the parser, the same error is reported. For derived types: an error about the root alone is found by the end tag of the root; any other is that of reading an element in the document on its own (as in C105), and is found by the end tag of that element. The same for the code emitted for a program.", "quantifier": "all documents, visitors and implementations that pass on errors, types without clashes of names, continuations of the input, both builds", "why_tests_cant": "says of every error of every document that all input after a certain event is irrelevant", "anchors": ["static-xml/src/de/mod.rs:86-91", "static-xml/src/de/mod.rs:264-280", "static-xml/src/de/mod.rs:422-466", "static-xml/src/de/mod.rs:504-540", "static-xml/src/de/mod.rs:546-602", "static-xml/src/de/mod.rs:611-638", "static-xml-derive/src/deserialize.rs:226-334", "static-xml-derive/src/deserialize.rs:336-470"]}
{"id": "C110", "title": "mending a document one element at a time comes to an end", "statement": "If a document cannot be read, and what is wrong is not about its root alone, there is a faulty element in it: the error is that of reading that element on its own. Let it be replaced by another one with the same name and position that can be read on its own. Then the document can be read, or what is wrong is about the root alone, or there is another faulty element, whose end tag comes after the replaced one and was in the document before. So, whatever the replacements are, after at most as many of them as the document had elements, it can be read, or what is wrong is about the root alone, or there is no replacement for the faulty element that can be read. The same for the code emitted for a program.", "quantifier": "all documents, types without clashes of names, functions giving the replacement of an element, both builds", "why_tests_cant": "the number of replacements is bounded for every document and every way to replace elements, also by larger ones", "anchors": ["static-xml/src/de/mod.rs:86-91", "static-xml/src/de/mod.rs:264-280", "static-xml/src/de/mod.rs:422-466", "static-xml/src/de/mod.rs:504-540", "static-xml/src/de/mod.rs:546-602", "static-xml/src/de/mod.rs:611-638", "static-xml-derive/src/deserialize.rs:226-334", "static-xml-derive/src/deserialize.rs:336-470"]}
{"id": "C111", "title": "every text and struct in what is read comes from one place in the document, or from a default", "statement": "For every text in a value read from a document, at any depth of the value, there is an element in the document such that: the text is that of the element, which has no elements inside, and with any other element of that name there the value is the same but for the text read from that element at this place, or the document cannot be read if that element cannot be read as such a text; or it is the text of an attribute of the element, and likewise with any other text in the attribute; or there is nothing in the element for a field of the struct that is read from it, and the text is in the declared default of that field. So no text in a value is made up, and each is decided by one text or attribute alone. Every struct in a value is likewise what one element of the document is as such a struct, or in a declared default. The same for texts with the code emitted for a program. C101 is the converse: for every element, what it decides.", "quantifier": "all documents, types without clashes of names, texts at any depth of values, replacements, both builds", "why_tests_cant": "quantifies over every text in every value read, and over all that could be in the place it comes from", "anchors": ["static-xml/src/de/mod.rs:264-280", "static-xml/src/de/mod.rs:546-602", "static-xml/src/de/mod.rs:611-638", "static-xml/src/de/mod.rs:741-757", "static-xml/src/de/mod.rs:958-1003", "static-xml-derive/src/deserialize.rs:226-334", "static-xml-derive/src/deserialize.rs:336-470"]}
{"id": "C112", "title": "writing makes up no texts and loses none", "statement": "If a value is written without an error, the texts in what was written (the values of attributes and the texts of elements) are, in some order, what the declared text types make of the texts in the value: each text in the value, at any depth, is written exactly once and as its type says, and nothing else is. If the destination fails midway, it got some of these texts, each at most once, and nothing else. So a copy of a document (read and written again) has only texts that come from texts and attributes of the document or from declared defaults (with C111). The same for the code emitted for a program. This is of declarations without text fields and without skipped variants that have values, as these are dropped without an error (C33, C34).", "quantifier": "all values of all derived types, destinations, both builds", "why_tests_cant": "quantifies over values of any depth and counts every text in them and in what is written", "anchors": ["static-xml/src/ser/mod.rs:120-260", "static-xml-derive/src/serialize.rs:24-48", "static-xml-derive/src/serialize.rs:50-73", "static-xml-derive/src/serialize.rs:87-108", "static-xml-derive/src/serialize.rs:110-153"]}
{"id": "C113", "title": "what is written is what the value has to say, piece by piece", "statement": "If a value is written without an error, the elements (with their local names), attributes (with their local names and texts) and texts that were written are, in some order, exactly the pieces of the value by its declarations: the root element; an element with the name of the field for each value in an element field; an element with the name of the variant for each value in an enum; an attribute with the name of the field and its text for each attribute field that is not None; and a text for each text in an element. Each is written exactly once, and nothing else is. As for C112, of declarations without text fields and without skipped variants that have values. No condition on namespaces. If the destination fails midway, it got some of these pieces, each at most once, and nothing else. The same for the code emitted for a program.", "quantifier": "all values of all derived types, destinations, both builds", "why_tests_cant": "quantifies over values of any depth and counts every piece of them and of what is written", "anchors": ["static-xml/src/ser/mod.rs:120-260", "static-xml/src/ser/mod.rs:399-444", "static-xml-derive/src/serialize.rs:24-48", "static-xml-derive/src/serialize.rs:50-73", "static-xml-derive/src/serialize.rs:87-108", "static-xml-derive/src/serialize.rs:110-153"]}
