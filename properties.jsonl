{"id": "C01", "title": "Integer numbers compare as the integers they denote", "statement": "For Numbers built from unsigned or signed integers, == holds exactly when the denoted mathematical integers are equal and cmp returns exactly their mathematical order, whichever of the two integer representations each side uses; in particular 5u8 and 5i64 are equal, a negative integer is below every unsigned one and unsigned values above i128::MAX are above every signed one.", "quantifier": "for all pairs of integer Numbers (all u128 and all i128 values, all four variant combinations)", "why_tests_cant": "2^256 pairs with boundary behaviour at i128::MAX, i128::MIN, 0 and u128::MAX; tests sample a few", "anchors": ["src/ds/num.rs: impl PartialEq for Number, impl Ord for Number, cmp_uint_to_int, rev_ordering"]}
{"id": "C02", "title": "Float numbers form the documented number line", "statement": "For Numbers holding floats the order is the documented line [-inf, .., 0, .., +inf, NaN]: cmp is a total order on these (reflexive, antisymmetric up to ==, transitive), -0 and +0 are equal, all NaNs are equal to one another and above everything else, and == agrees with cmp == Equal.", "quantifier": "for all pairs/triples of f64 bit patterns, including every NaN payload and both signs", "why_tests_cant": "the f64 domain has 2^64 members and transitivity is over triples", "anchors": ["src/ds/num.rs: cmp_float_to_float, impl PartialEq for Number", "src/ds/num.rs: Number doc comment"]}
{"id": "C03", "title": "Number equality is an equivalence relation across representations", "statement": "Number implements Eq, so == must be reflexive, symmetric and transitive for every mixture of Uint, Int and Float.", "quantifier": "for all pairs and triples of Numbers of any variants", "why_tests_cant": "a counterexample needs a float within 1e-10 of an integer or beyond 2^53; tests use small round values", "anchors": ["src/ds/num.rs: impl PartialEq for Number, impl Eq for Number, as_u128, as_i128, as_f64"]}
{"id": "C04", "title": "Number ordering is a total order consistent with equality and with the documented number line", "statement": "Number implements Ord, so cmp must be antisymmetric and transitive across Uint, Int and Float, return Equal exactly when == holds, place NaN above everything and treat -0.0 as equal to 0.", "quantifier": "for all pairs and triples of Numbers of any variants", "why_tests_cant": "Every pair (or triple) of Number values; 128-bit integers and 64-bit floats cannot be enumerated", "anchors": ["src/ds/num.rs: impl Ord for Number, cmp_float_to_uint, cmp_float_to_int, float_bounds"]}
{"id": "C05", "title": "Equal numbers hash equally", "statement": "If a == b then hashing a and b feeds the same data to the hasher (the Hash/Eq contract that makes Number usable as a HashMap key).", "quantifier": "for all pairs of Numbers", "why_tests_cant": "needs all pairs that compare equal, including signed zeros, NaN payloads and tolerance-equal values", "anchors": ["src/ds/num.rs: impl Hash for Number"]}
{"id": "C06", "title": "Integer conversions never misreport a value", "statement": "as_u128 / as_i128 return Ok(n) only when the Number's value is within 1e-10 of n, return Ok for every in-range integer value, and fail for negative (u128), non-integral, infinite, NaN or out-of-range values.", "quantifier": "for all Numbers", "why_tests_cant": "the interesting cases are saturation and rounding at 2^127, 2^128 and around 1e-10 tolerance over all floats", "anchors": ["src/ds/num.rs: Number::as_u128, Number::as_i128, Number::as_f64"]}
{"id": "C07", "title": "Integers print and parse back exactly, and out-of-range digits are rejected", "statement": "For every u128 and i128 the displayed text parses to a Number equal to (and, up to the sign-less/ signed representation, identical with) the original; a digit string denotes its value when it fits and is rejected when it exceeds u128::MAX or is below i128::MIN; nothing is ever wrapped.", "quantifier": "for all u128, all i128 and all strings of digits with optional leading minus", "why_tests_cant": "unbounded digit strings and 2^128 integers", "anchors": ["src/ds/num.rs: impl Display for Number, impl FromStr for Number"]}
{"id": "C08", "title": "Float values survive display and parse", "statement": "For every non-integral or non-finite float, and every integral float of magnitude below 2^53, printing and re-parsing yields a Number equal to the original.", "quantifier": "for all f64 values", "why_tests_cant": "2^64 floats; integral floats print without a decimal point and change representation on the way back", "anchors": ["src/ds/num.rs: impl Display for Number, impl FromStr for Number", "src/parse/prims.rs: num"]}
{"id": "C09", "title": "Equality and ordering of Kserds never depend on identities", "statement": "Replacing, adding or removing identities anywhere in a Kserd (root or any depth, map keys included) never changes the result of == or cmp against any other Kserd.", "quantifier": "for all Kserds and all changes of identities at all depths", "why_tests_cant": "arbitrarily deep trees, arbitrary identity changes", "anchors": ["src/ds/kserd.rs: impl PartialEq for Kserd, impl Ord for Kserd", "src/ds/val.rs: impl PartialEq for Value"]}
{"id": "C10", "title": "Kserd equality and ordering satisfy the Eq and Ord contracts", "statement": "Kserd/Value implement Eq and Ord, so on values whose numbers are integers == is an equivalence relation, cmp is a total order and cmp == Equal exactly when ==.", "quantifier": "for all pairs/triples of Kserds of any shape and depth", "why_tests_cant": "laws over triples of unbounded trees; the tuple/container special case only shows on empty composites", "anchors": ["src/ds/val.rs: impl PartialEq for Value, derive(Eq, PartialOrd, Ord) for Value"]}
{"id": "C11", "title": "with_id accepts exactly the identities free of reserved characters", "statement": "with_id succeeds precisely when no character of the identity is one of ( ) { } [ ] < > space , . / \\ = and then stores exactly that identity and value; otherwise it fails and reports the identity.", "quantifier": "for all identity strings and values", "why_tests_cant": "all Unicode strings", "anchors": ["src/ds/kserd.rs: INVALID, Kserd::with_id"]}
{"id": "C12", "title": "Container construction validates every name, keeps the last duplicate and yields sorted unique fields", "statement": "new_cntr succeeds precisely when every supplied name is non-empty, does not start with an ASCII digit and has none of the invalid characters; the result has exactly the supplied names, each once, in ascending order, each carrying the last value supplied for it.", "quantifier": "for all lists of (name, value) pairs of any length", "why_tests_cant": "unbounded lists with arbitrary duplication", "anchors": ["src/ds/val.rs: Value::new_cntr, InvalidFieldName::validate", "src/ds/kserd.rs: Kserd::new_cntr"]}
{"id": "C13", "title": "Map construction yields sorted unique keys with last-wins values", "statement": "new_map over keys whose order is lawful yields entries strictly ascending by key, contains exactly the supplied keys up to ==, each with the last value supplied, independent of the order in which distinct keys were supplied.", "quantifier": "for all lists of (key, value) pairs", "why_tests_cant": "unbounded lists and permutations", "anchors": ["src/ds/val.rs: Value::new_map", "src/ds/kserd.rs: Kserd::new_map"]}
{"id": "C14", "title": "Accessors recognise exactly their own variant", "statement": "unit, bool, str, barr, tuple, cntr, seq, map and tuple_or_seq return Some exactly for their own variants with exactly the contained data; ch returns Some exactly for strings of exactly one character; uint/int/float succeed exactly for numbers convertible to that type; get_* on a container returns Some exactly when the field exists with that type.", "quantifier": "for all Values and field names", "why_tests_cant": "the cross product of accessors and all values", "anchors": ["src/ds/val.rs: Value accessors, Accessor::get_*"]}
{"id": "C15", "title": "Mutable accessors change only their target", "statement": "After writing through a *_mut accessor or get_*_mut on a field, reading that target gives the written data, every other field/element is unchanged, and the accessor yields a target exactly when the immutable one does.", "quantifier": "for all Values, fields and written data", "why_tests_cant": "all containers and all writes", "anchors": ["src/ds/val.rs: *_mut accessors, Accessor::get_*_mut"]}
{"id": "C16", "title": "into_owned and mk_brw change ownership only", "statement": "into_owned yields a Kserd in which every string, byte array and identity is owned, mk_brw one in which every one is borrowed; both preserve shape, identities and all data exactly, at every depth, including map keys, so both results equal the original.", "quantifier": "for all Kserds with any mixture of owned and borrowed data", "why_tests_cant": "unbounded trees with arbitrary ownership mixtures", "anchors": ["src/ds/val.rs: Value::into_owned, Value::mk_brw", "src/ds/kserd.rs: into_owned, mk_brw", "src/ds/kstr.rs", "src/ds/barr.rs"]}
{"id": "C17", "title": "Standard library conversions keep data and use the documented identities", "statement": "into_kserd of numbers, bool, char, strings, tuples, arrays, vectors, boxes, options and results yields the corresponding Kserd with every element in order, the documented identity, and fails exactly when converting some element fails, with the first such failure.", "quantifier": "for all element lists and all nestings", "why_tests_cant": "unbounded vectors and nestings", "anchors": ["src/to_kserd.rs"]}
{"id": "C18", "title": "Navigator enumerates every node once in depth-first order", "statement": "Building a navigator over any Kserd yields exactly one node per Kserd in the tree, indexed 0..len-1 in depth-first pre-order (map keys immediately before their values), each node's index is its position, and the root is node 0.", "quantifier": "for all Kserds", "why_tests_cant": "trees of unbounded size and depth; implementation is an explicit stack loop", "anchors": ["src/nav/navigator.rs: Navigator::new, root, get, len, nodes"]}
{"id": "C19", "title": "Navigator parent and child links are mutually consistent", "statement": "Every non-root node has exactly one parent, the root none; a node's children lists contain exactly the nodes whose parent it is, in order, split into keys and values; idx_in_parent is the position in the corresponding list; children of a node are exactly its Kserd's direct children.", "quantifier": "for all Kserds and all nodes", "why_tests_cant": "trees of unbounded size and depth", "anchors": ["src/nav/navigator.rs: Navigator::new", "src/nav/node.rs: parent, is_key, idx_in_parent, value_children, key_children", "src/nav/value.rs"]}
{"id": "C20", "title": "Depth-first descendants are the contiguous block after a node", "statement": "descendants_depth of node i yields exactly the nodes i+1 .. i+size(i)-1 in index order: every proper descendant once, nothing else.", "quantifier": "for all Kserds and all nodes", "why_tests_cant": "unbounded trees", "anchors": ["src/nav/node.rs: descendants_depth"]}
{"id": "C21", "title": "Breadth-first descendants list each descendant once, level by level", "statement": "descendants_breadth of a node yields a permutation of its proper descendants ordered by non-decreasing depth.", "quantifier": "for all Kserds and all nodes", "why_tests_cant": "unbounded trees", "anchors": ["src/nav/node.rs: descendants_breadth"]}
{"id": "C22", "title": "Formatter state always honours the documented line-representation rules", "statement": "After construction and any sequence of inline/concise/verbose/id/apply_config calls with any indices, no node has a larger representation than its parent, no node exceeds its own maximum (primitives and empty composites inline, tuples concise), and a root sequence or map is never verbose.", "quantifier": "for all Kserds and all finite sequences of formatter operations", "why_tests_cant": "operation histories of unbounded length on unbounded trees", "anchors": ["src/fmt/formatter.rs: Formatter::new, inline, concise, verbose, id, apply_config, request_repr_alteration"]}
{"id": "C23", "title": "Representation requests succeed exactly when allowed and fail without effect", "statement": "A request is refused exactly for an out-of-range index, a parent of smaller representation, a node whose maximum is smaller, or verbose on a root sequence/map; on refusal nothing changes; on success the node has the requested representation, each descendant the minimum of its old one and the requested one, and all other nodes and all id flags are unchanged.", "quantifier": "for all formatter states, indices and requested representations", "why_tests_cant": "all states of all trees", "anchors": ["src/fmt/formatter.rs: request_repr_alteration, validate_requst_repr"]}
{"id": "C24", "title": "apply_config and formatting never panic", "statement": "apply_config with any configuration and write_string on any reachable formatter terminate without panicking.", "quantifier": "for all Kserds, all configurations and all reachable formatter states", "why_tests_cant": "panics depend on rare combinations: strings using twenty delimiters, composite map keys forced verbose", "anchors": ["src/fmt/solver.rs: apply_config, map_entry_offset", "src/fmt/prims.rs: fmt_str", "src/fmt/tuples.rs: write"]}
{"id": "C25", "title": "An unlimited width puts everything on one line", "statement": "With width_limit None every node is inline, and the output contains a line break only if some string, identity or field name in the Kserd contains one.", "quantifier": "for all Kserds and all identity settings", "why_tests_cant": "unbounded trees", "anchors": ["src/fmt/solver.rs: apply_config, min_line_repr", "src/fmt/mod.rs: as_str_with_config"]}
{"id": "C26", "title": "Zero width means maximum verbosity", "statement": "With width_limit Some(0) every node whose rules allow more than inline is not inline and a non-empty root container is verbose.", "quantifier": "for all Kserds on which formatting succeeds", "why_tests_cant": "unbounded trees", "anchors": ["src/fmt/solver.rs: apply_config, min_line_repr, inline_width"]}
{"id": "C27", "title": "Inline text fits the width that was estimated for it", "statement": "Whenever the formatter keeps a root Kserd inline under a width limit, the produced line is no longer than that limit.", "quantifier": "for all Kserds and width limits", "why_tests_cant": "text widths of unbounded trees", "anchors": ["src/fmt/solver.rs: inline_widths, inline_width, min_line_repr"]}
{"id": "C28", "title": "Identity switches show or hide identities without altering anything else", "statement": "The id_on_* configuration flags and Formatter::id decide only whether the identity text appears; hiding identities yields the same text as formatting the Kserd with these identities removed.", "quantifier": "for all Kserds, formatter states and identity settings", "why_tests_cant": "unbounded trees and settings", "anchors": ["src/fmt/mod.rs: maybe_write_prim_ident, maybe_write_nonprim_ident", "src/fmt/tuples.rs: write", "src/fmt/prims.rs: fmt_unit", "src/fmt/solver.rs: apply_config"]}
{"id": "C29", "title": "String literals always choose a delimiter absent from the text", "statement": "A string is written between two copies of a delimiter that does not occur in it (double quote when possible), the choice fails exactly when the text uses all twenty delimiters, and parsing the literal in isolation gives back exactly the text and leaves exactly what followed it.", "quantifier": "for all strings and all following text", "why_tests_cant": "all Unicode strings; exotic delimiter choices need a dozen particular characters", "anchors": ["src/fmt/prims.rs: fmt_str, Used", "src/parse/prims.rs: string"]}
{"id": "C30", "title": "Byte array literals round trip", "statement": "For every byte sequence the encoded literal contains no quote character, and parsing the literal gives back exactly the bytes and leaves exactly what followed it.", "quantifier": "for all byte sequences and all following text", "why_tests_cant": "unbounded sequences; bit-queue encoding", "anchors": ["src/fmt/prims.rs: fmt_byte_array", "src/parse/prims.rs: barr"]}
{"id": "C31", "title": "Parsing terminates without panicking on every input", "statement": "parse returns Ok or Err for every input string; no input makes it loop, index out of bounds or hit an unwrap.", "quantifier": "for all input strings", "why_tests_cant": "all strings", "anchors": ["src/parse/mod.rs: parse, kserd_root, kserd_ctor", "src/parse/cntr.rs", "src/parse/list.rs", "src/parse/map.rs"]}
{"id": "C32", "title": "Parsing accounts for the whole input", "statement": "If parse succeeds then no character of the input is ignored: appending multi-line whitespace to an accepted input changes nothing, and an input with trailing non-whitespace after a complete inline value is rejected.", "quantifier": "for all inputs and all suffixes", "why_tests_cant": "all strings and suffixes", "anchors": ["src/parse/mod.rs: kserd_root, parse"]}
{"id": "C33", "title": "Parsed Kserds are well formed", "statement": "Every identity in a successfully parsed Kserd is a valid name (ASCII letter or underscore followed by letters, digits, - and _) and would be accepted by with_id; every field name consists of letters, digits, - and _; fields are sorted and unique and unsigned/signed integers are in range, at every depth.", "quantifier": "for all accepted inputs", "why_tests_cant": "all strings", "anchors": ["src/parse/names.rs: valid_name, ident, field_name", "src/parse/mod.rs: kserd_ctor"]}
{"id": "C34", "title": "Inline formatting parses back to an equal Kserd", "statement": "For every Kserd whose identities and field names are parseable names (and which avoids the recorded ambiguities), the single-line format parses successfully to an equal Kserd, with identities as displayed.", "quantifier": "for all well-formed Kserds of any size and depth and all identity settings", "why_tests_cant": "round trip over unbounded trees", "anchors": ["src/fmt/*.rs", "src/parse/*.rs"]}
{"id": "C35", "title": "Concise formatting parses back to an equal Kserd", "statement": "For every well-formed Kserd and every assignment of inline/concise representations allowed by the formatter rules, the formatted text parses to an equal Kserd with identities as displayed.", "quantifier": "for all well-formed Kserds and all reachable inline/concise formatter states", "why_tests_cant": "unbounded trees times exponentially many layouts", "anchors": ["src/fmt/*.rs", "src/parse/*.rs"]}
{"id": "C36", "title": "Verbose formatting parses back to an equal Kserd", "statement": "For every well-formed Kserd and every reachable formatter state, including verbose containers, sequences and maps, the formatted text parses to an equal Kserd.", "quantifier": "for all well-formed Kserds and all reachable formatter states", "why_tests_cant": "unbounded trees times exponentially many layouts", "anchors": ["src/fmt/cntr.rs: write", "src/fmt/seqs.rs: write", "src/fmt/maps.rs: write", "src/parse/cntr.rs: verbose"]}
{"id": "C37", "title": "The default text form round trips", "statement": "For every Kserd, parse(kserd.as_str()) succeeds and equals kserd (the crate's headline promise), or the exceptions are characterised.", "quantifier": "for all Kserds", "why_tests_cant": "all Kserds", "anchors": ["src/fmt/mod.rs: as_str", "src/parse/mod.rs: parse"]}
{"id": "C38", "title": "Parse errors always carry a location inside the input", "statement": "When parse fails, the error has at least one trace; every trace's offset is within the input at a character boundary, its line number is between 1 and the number of lines (0:0 for the empty input), its column is between 1 and the line length plus one or points past a line terminator, the quoted line is that line of the input, and rendering the error never panics.", "quantifier": "for all rejected inputs and all trace indices", "why_tests_cant": "all strings, multi-byte characters and line endings", "anchors": ["src/parse/err.rs: Error::new, get, get_line, lines_to_map, make_trace_msg"]}
{"id": "C39", "title": "Duplicate fields in text resolve to the last direct occurrence", "statement": "For an accepted inline container text with repeated field names the parsed container holds, for each name, the value written last.", "quantifier": "for all field lists", "why_tests_cant": "unbounded field lists", "anchors": ["src/parse/cntr.rs: delimited, verbose"]}
{"id": "C40", "title": "Serde encoding followed by decoding is the identity", "statement": "For every value of every type built from primitives, chars, strings, bytes, options, unit/newtype/tuple/field structs, enums, sequences, tuples and maps with valid names, encoding succeeds and decoding at the same type returns the original value.", "quantifier": "for all types in the universe and all their values", "why_tests_cant": "all types and all values", "anchors": ["src/encode/encoder.rs", "src/encode/decoder.rs"]}
{"id": "C41", "title": "Decoding integers never truncates", "statement": "Decoding a Kserd number to any of the ten fixed-width integer types returns Ok(n) exactly when the number converts to an integer n within the type's range, otherwise an error.", "quantifier": "for all Numbers and all integer types", "why_tests_cant": "all numbers", "anchors": ["src/encode/decoder.rs: deserialize_i8 .. deserialize_u128"]}
{"id": "C42", "title": "Encoding fails only for reserved characters in names or missing map keys", "statement": "Encoding a value fails exactly when some struct or variant name in it has a reserved character (or a map value is given before its key), and reports the first such name.", "quantifier": "for all serde values", "why_tests_cant": "all nestings", "anchors": ["src/encode/encoder.rs"]}
{"id": "C43", "title": "Decoding chooses the serde visitor by variant, arity and identity only", "statement": "deserialize_any dispatches: empty tuple named None to none, one-tuple named Some to some, other named one-tuple to newtype, all other tuples and sequences to seq, containers and maps to map, numbers to an integer visitor preserving the value; enums choose their variant by identity and reject missing identities, wrong payload shapes and wrong arity.", "quantifier": "for all Kserds", "why_tests_cant": "all Kserds", "anchors": ["src/encode/decoder.rs: deserialize_any, deserialize_enum, VariantAccess"]}
{"id": "C44", "title": "The two ways of producing a Kserd agree on options", "statement": "An Option value converted with into_kserd and one encoded through serde decode back to the same Option.", "quantifier": "for all options of all types", "why_tests_cant": "all types and values", "anchors": ["src/to_kserd.rs: impl ToKserd for Option", "src/encode/encoder.rs: serialize_some", "src/encode/decoder.rs: deserialize_any"]}
{"id": "C45", "title": "Node::value lists exactly the direct children", "statement": "Node::value returns the variant of the node's Value, and iterating it yields one node per direct child in order: tuple and sequence elements, container values with their field names, map values with their key nodes.", "quantifier": "for all Kserds and all nodes", "why_tests_cant": "the iterators stop silently at a missing index, so a broken link shows only on particular shapes", "anchors": ["src/nav/value.rs: NodeInner::value, SeqIter, NamedIter, KeyedIter"]}
{"id": "C46", "title": "The navigator's debug self-check never fails", "statement": "In debug builds Navigator::new validates itself with asserts; for every Kserd the validation passes, so construction never panics.", "quantifier": "for all Kserds", "why_tests_cant": "a failing shape would panic only in debug builds and only on that shape", "anchors": ["src/nav/navigator.rs: validate, Navigator::new"]}
{"id": "C47", "title": "f32 values survive storage in a Kserd", "statement": "Converting an f32 to a Number (through its shortest decimal text parsed as f64) never panics, and decoding that Number as f32 returns the original value, for every f32 except exactly 7.038531e-26 and its negative (which move to the neighbouring f32) and NaNs other than the standard one (which become the standard one).", "quantifier": "for all f32 values", "why_tests_cant": "There are 2^32 of them and exactly one magnitude fails (7.038531e-26, a double rounding); random tests compare after printing and practically never meet it.", "anchors": ["src/ds/num.rs:495-499", "src/encode/decoder.rs:204-208"]}
{"id": "C48", "title": "A value survives encoding, as_str, parsing and decoding", "statement": "For a value of a serde type, encoding it with Kserd::enc, writing the Kserd with as_str or as_str_with_config (identities of tuples and containers shown), parsing the text and decoding the parsed Kserd at the type gives the same value.", "quantifier": "for all environments of user types, all types, all values of the type, all configurations that show tuple and container identities", "why_tests_cant": "the four stages each lose something (number kinds, empty containers, identities of primitives), and only their composition over all types shows what a caller can rely on", "anchors": ["src/encode/encoder.rs: Encoder", "src/fmt/mod.rs: as_str_with_config", "src/parse/mod.rs: parse", "src/encode/decoder.rs: Decoder"]}
{"id": "C49", "title": "A layout that is not verbose keeps the width limit on every line", "statement": "When a width limit w is configured and the formatter lays out a non-empty root container on several lines but not verbosely, no line of the text is longer than w.", "quantifier": "for all Kserds with a non-empty container as root, all configurations with a width limit", "why_tests_cant": "every line's length depends on the columns of all its ancestors and on the order in which the solver fixes their representations; tests look at a handful of texts", "anchors": ["src/fmt/solver.rs: apply_config, calculate_offset, concise_parent_child_column, min_line_repr", "src/fmt/cntr.rs", "src/fmt/seqs.rs", "src/fmt/maps.rs", "src/fmt/tuples.rs"]}
{"id": "C50", "title": "The solver's width vectors hold the right widths", "statement": "inline_widths and concise_widths fill one entry per node without panicking: the inline width of a node is the sum of the widths reckoned for everything under it, each counted once, and its concise width is the furthest right column at which something under it ends when everything is laid out concisely. apply_config reading these vectors through the navigator makes the same decisions as the plain recursive definition.", "quantifier": "for all Kserds, all configurations, all reachable formatters", "why_tests_cant": "both vectors are filled by memoised recursion that revisits nodes in index order; a wrong index, a double count or a missed key shows only on particular nestings", "anchors": ["src/fmt/solver.rs: inline_widths, inline_widths_recurse, concise_widths, concise_widths_recurse, apply_config, map_entry_offset"]}
{"id": "C51", "title": "Writing through the navigator writes the tree", "statement": "write_node and the writers it calls follow the navigator's links and look formats up by node index; for every node they write the Kserd at that node with the formats of its subtree in preorder, after any text already in the buffer, panicking exactly when the plain recursive definition does. Hence write_string and as_str_with_config equal the recursive definition.", "quantifier": "for all Kserds, all nodes, all format vectors, all columns and buffers, all reachable formatters", "why_tests_cant": "a writer using the wrong node's format or a wrong link shows only where siblings differ in size or format", "anchors": ["src/fmt/mod.rs: write_node", "src/fmt/cntr.rs: write", "src/fmt/seqs.rs: write", "src/fmt/maps.rs: write", "src/fmt/tuples.rs: write", "src/fmt/formatter.rs: write_string"]}
{"id": "C52", "title": "Written text is a fixed point", "statement": "Writing a Kserd, parsing the text and writing the result under the same configuration gives the same text again. The text depends on numbers through their own texts only: exchanging numbers for ones with the same text changes neither layout nor text.", "quantifier": "for all Kserds, all configurations, all exchanges of numbers", "why_tests_cant": "the second writing runs the solver again on a Kserd with other number representations; layouts agree only if every width and every kind agrees at every node", "anchors": ["src/fmt/mod.rs: as_str_with_config", "src/fmt/solver.rs: apply_config", "src/parse/mod.rs: parse", "src/ds/num.rs: Display, FromStr"]}
{"id": "C53", "title": "The layout carries no information", "statement": "However a Kserd is laid out, whatever representation requests and configurations were applied, its text parses to the same Kserd; if different identities were shown, the results differ in identities only.", "quantifier": "for all Kserds and all pairs of reachable formatters", "why_tests_cant": "there are exponentially many layouts of one Kserd, and the verbose, concise and inline grammars are separate parsers", "anchors": ["src/fmt/formatter.rs: Formatter", "src/fmt/mod.rs: write_node", "src/parse/mod.rs: parse"]}
{"id": "C54", "title": "Ownership only decides whether borrowed types decode", "statement": "Decoding into a type with borrowed parts (&str, &[u8]) never gives anything else than decoding into the type with owned parts; types without borrowed parts decode whatever the ownership; &str and &[u8] take exactly borrowed strings and byte arrays; after mk_brw every Kserd decodes into borrowed types whenever it decodes into the owned ones.", "quantifier": "for all types and user type definitions, all Kserds with any mixture of owned and borrowed parts", "why_tests_cant": "ownership varies independently at every string inside a Kserd; tests decode single strings", "anchors": ["src/encode/decoder.rs: Decoder, deserialize_any", "src/ds/kserd.rs: mk_brw", "src/encode/mod.rs: decode"]}
{"id": "C55", "title": "Encoded Kserds are well formed", "statement": "Whatever the encoder returns has the names serde knows the values by as identities, no identity with reserved characters, containers and maps with strictly ascending unique keys at every depth, and numbers within range.", "quantifier": "for all serialized values", "why_tests_cant": "the unchecked constructors are used for primitives and for all compound serializers, so only reasoning over all call sequences excludes a bad identity", "anchors": ["src/encode/encoder.rs: Encoder, SeqLike, TupleLike, MapLike, CntrLike"]}
{"id": "C56", "title": "The order of Kserds, on paper", "statement": "Kserds are ordered by kind (unit, bool, number, string, bytes, tuple, container, sequence, map), then by contents: false before true, numbers on the number line, strings and bytes lexicographically, collections element by element with the shorter prefix first, fields and entries by key and then by value. Identities do not count. Strings compare by code points exactly as by their UTF-8 bytes.", "quantifier": "for all Kserds, all strings", "why_tests_cant": "an order can be transitive and total and still be a different one; samples compare few pairs of kinds, and almost never strings outside ASCII", "anchors": ["src/ds/kserd.rs: Ord, PartialOrd", "src/ds/val.rs: Ord, PartialOrd", "src/ds/mod.rs: Kstr, Barr"]}
{"id": "C57", "title": "What verbose text stands for", "statement": "Verbose text written by hand, with lines in any order and any repetition, nested to any depth, parses to exactly the container its lines stand for: the last identity line counts, the entries of a map and the elements of a sequence are collected by name wherever they stand, a map wins over a sequence and a sequence over a plain value, the last of several plain values counts, and identities in headings apply unless the lines below give one.", "quantifier": "for all verbose texts whose values are written inline, at any depth, with any trailing line breaks", "why_tests_cant": "line orders, repetitions and nestings multiply; the crate's own writer never produces repeated or interleaved headings, so round-trip tests never read them", "anchors": ["src/parse/cntr.rs: verbose, verbose_field, verbose_field_name_and_identity, expect_indents", "src/parse/heuristics.rs: pattern_match_verbose", "src/parse/mod.rs: kserd_nested"]}
{"id": "C58", "title": "Decoding is type sound and normalises", "statement": "Whatever Kserd is decoded, if decoding to a type succeeds the result is a value of that type down to every part: integers in range, floats representable, all fields of a struct present once and in order, variants known with matching contents. Such a value can be encoded again, and decoding that gives the same value, although the first Kserd may have been quite different.", "quantifier": "for all Kserds with numbers in range (in particular everything parsed), all types, all well-formed type definitions; stability for values whose map keys stay distinct as Kserds and whose f32 survive as f64", "why_tests_cant": "decoders are tested on what the encoder wrote; ill-fitting, hand-written input (maps for structs, floats for integers, extra or missing entries) is unbounded", "anchors": ["src/encode/decoder.rs: Deserializer for Decoder, EnumAccess, VariantAccess"]}
{"id": "C59", "title": "Accepted text is text of the grammar", "statement": "Whatever text is accepted can be read as a document of the written-out grammar: a value with delimiters or lines with headings, fields, elements and entries, every character of the text accounted for; and the Kserd returned is what the grammar says the document stands for.", "quantifier": "for all texts", "why_tests_cant": "a parser that skips or misreads characters in some rare combination of layouts passes every sample test; only a grammar for all texts accounts for each character", "anchors": ["src/parse/mod.rs: parse, kserd_root, kserd_nested, kserd_inline, kserd_concise, kserd_delimited", "src/parse/cntr.rs", "src/parse/map.rs", "src/parse/list.rs", "src/parse/names.rs", "src/parse/wsp.rs", "src/parse/prims.rs", "src/parse/heuristics.rs"]}
{"id": "C60", "title": "All text of the grammar is accepted", "statement": "Every document of the grammar, of any size and nesting and with any white space the grammar allows, is accepted with the value the grammar gives it. So exactly the texts of the grammar are accepted, and a text that can be read as two documents has one value.", "quantifier": "for all documents of the grammar with any white space behind", "why_tests_cant": "the heuristics choose between layouts by looking ahead, so a text can be refused or misread because of what follows far behind; documents are unbounded", "anchors": ["src/parse/mod.rs: parse, kserd_root, kserd_nested, kserd_inline, kserd_concise, kserd_delimited", "src/parse/heuristics.rs: pattern_match_verbose, pattern_match_delimited, recognise_concise, recognise_field_assign", "src/parse/cntr.rs"]}
{"id": "C61", "title": "Number texts and conversions give the nearest float", "statement": "A decimal literal, in any spelling with sign, leading zeros, fraction and exponent, is read as an f64 of its sign to which no other float is nearer, ties going to the even significand; it becomes infinity exactly from halfway above the largest float on. Only such literals are read as finite numbers. Integers turned into floats and f64 turned into f32 are rounded the same way.", "quantifier": "for all decimal literals of any length and exponent, all texts, all integers, all finite f64", "why_tests_cant": "wrong roundings occur at exact midpoints between neighbouring floats, with hundreds of digits; random tests never meet them", "anchors": ["src/ds/num.rs: FromStr, as_f64, From<f32>", "src/parse/prims.rs: num", "src/encode/decoder.rs: deserialize_f32"]}
{"id": "C62", "title": "Floats are written with the fewest digits, and the nearest of those", "statement": "A finite float is written as a decimal literal which reads back as the float. No literal that reads back has fewer significant digits, none with as many digits is nearer to the float, and of two equally near ones the larger is written. At most 17 digits are needed for f64, 9 for f32.", "quantifier": "for all finite floats and all decimal literals", "why_tests_cant": "there are 2^64 floats, and longer or more distant decimals also read back, so a round trip test does not notice them", "anchors": ["src/ds/num.rs: Display, From<f32>", "src/fmt.rs"]}
{"id": "C63", "title": "What a parse error says is so", "statement": "When a text is refused, the error is a list of entries, each a place in the text and a claim. Every place is a suffix of the text and the places are nested, each entry's text a part of the one reported after it. Every claim holds: an expected character is not at its place, a named construct does begin there (a string context stands behind an opening quote, an identity context at an identity, and so on), and the first entry is never a mere context. All contexts the parser can name do occur.", "quantifier": "for all texts the parser refuses and all entries of the error", "why_tests_cant": "there are 27 contexts in nested combination; tests check the rendering of some, not that each claim holds of the text", "anchors": ["src/parse/mod.rs: as_kserd", "src/parse/err.rs", "src/parse/prims.rs", "src/parse/list.rs", "src/parse/map.rs", "src/parse/cntr.rs", "src/parse/names.rs"]}
{"id": "C64", "title": "What a decoding error says is so", "statement": "Decoding gives an error exactly when it gives no value. The error is about one part of the Kserd which is looked at while decoding and which does not decode: the found kind named in the message is the kind of that part, the expected kind is what the type needs and the part is not of that kind; a reported length is the number of elements and is wrong; a missing field is not there and is no option; a duplicate field is there twice; an unknown variant is the identity and no variant; a number reported out of range has no equal in the integer type. When several parts do not decode, the error is about the first in the order of reading.", "quantifier": "for all Kserds, all types built from std types and derived user types in any (also recursive) combination, and all errors", "why_tests_cant": "tests check the text of about twenty errors on flat values; that every error of every type on every value tells the truth about the right part needs an argument over all of them", "anchors": ["src/encode/decoder.rs: unexp_err", "src/encode/decoder.rs: de_integer", "src/encode/decoder.rs: VariantAccess", "src/encode/decoder.rs: Error"]}
{"id": "C65", "title": "Which Kserds are the value of some text", "statement": "A Kserd can be written in the text format, in some way not necessarily the formatter's, if its identities are names, its field names consist of name characters and are ascending, no container in it is empty, its strings leave some delimiter free and do not look like a field where they begin a tuple or the text, its numbers are those that reading gives (no positive signed integers, only the standard NaN), and the keys of its maps have a lawful order. Conversely everything that is read has such numbers and strings and no empty containers inside tuples and keys or at the root without identity. So a number has a text iff it is no positive signed integer and no odd NaN, and a string of less than 2^20 characters has a text iff it does not look like a field. Taking for granted that NaNs carry an identity, strings are shorter than 2^20 characters, and maps are sorted with lawful primitive keys, exactly these Kserds have a text: those whose parts can all be written between delimiters, and the containers that can be written in lines and are not hollow (without identity and with nothing but hollow containers in them). What can stand between delimiters is told exactly without the restriction on keys.", "quantifier": "for all Kserds of any depth and width, all numbers, all strings, and all texts", "why_tests_cant": "that no text at all has a given value cannot be tested; the existing tests only try the formatter's own texts", "anchors": ["src/parse/mod.rs: kserd_root", "src/parse/prims.rs: parse_str", "src/parse/heuristics.rs: recognise_field_assign", "src/ds/num.rs: FromStr"]}
{"id": "C66", "title": "Debug text tells Kserds apart", "statement": "Two Kserds whose field names have no blanks have the same {:?} text exactly when they are the same but for the bits of their NaNs: constructors, identities, names, the order of entries and the sign of zero are all in it. The text also shows where the Kserd ends. Strings and identities are quoted so that different strings look different whichever characters count as printable. The text of a float that is not NaN reads as the same float, and it has a point or an exponent so it never looks like an integer. Equal Kserds may have different texts, and names with blanks can make different containers look the same.", "quantifier": "for all pairs of Kserds of any depth and width with any numbers, strings, identities and bytes, and for any set of printable characters", "why_tests_cant": "that no two of infinitely many values share a text cannot be tested; the existing tests compare two or three Debug texts", "anchors": ["src/ds/kserd.rs: Debug for Kserd", "src/ds/val.rs: Debug for Value", "src/ds/num.rs: derive(Debug)", "src/ds/barr.rs: Debug for Barr", "src/ds/kstr.rs: Debug for Kstr"]}
{"id": "C67", "title": "The texts of decoding errors are those documented and tell the errors apart", "statement": "The text of an error of the decoder is the wording of serde or of the crate: what was found (strings quoted so that they can be read back, floats with a fraction that reads as the same float, integers in full), what was expected, the length, the field, or the list of known variants in order. Two errors of decoding with the same text are the same, but for whether an integer had a signed type, the bits of NaNs, and variants whose names contain backticks.", "quantifier": "for all errors, for all types, type declarations and Kserds that give them, and for any set of printable characters", "why_tests_cant": "the existing tests compare some forty texts; that no two errors share one needs all strings and numbers", "anchors": ["src/encode/decoder.rs: Error", "src/encode/decoder.rs: unexp_err", "src/ds/num.rs: IntoIntError"]}
{"id": "C68", "title": "Errors of constructors, encoder, ToKserd and formatter say what is so, and their texts tell them apart", "statement": "The text of an identity error quotes the identity and lists characters, one of which it contains and which are exactly those no identity may contain. The text of a field name error quotes the first invalid name in order and gives a rule that it breaks. The text of a refused format request names the requested and the largest allowed layout, or the parent's layout, or the range or root rule, and that is why it was refused. The text of an encoding error is that of the first problem. Two errors of one kind with the same text are the same.", "quantifier": "for all identities, values, field lists, serialised values, Kserds, reachable formatters and requests", "why_tests_cant": "texts with quotes inside could be confused with each other; that the reason given is the true one concerns every input", "anchors": ["src/ds/kserd.rs: InvalidId", "src/ds/val.rs: InvalidFieldName", "src/encode/encoder.rs: Error", "src/fmt/formatter.rs: FmtError", "src/to_kserd.rs: ToKserdErr"]}
{"id": "C69", "title": "Node iterators give the children in order, count what is left, and stay finished; Debug of a node identifies it", "statement": "After any number j of calls of next, the iterators over all nodes, value children, key children, elements, fields and entries give item j of the list of nodes in depth-first order or of the children with their names or keys, and none from the end on; len is the number of items left and is_empty says whether there are none. Two nodes have the same Debug text exactly when identity, kind, primitive value, index, parent index, being a key and place in the parent agree, so within a navigator only the same node has the same text.", "quantifier": "for all Kserds, all nodes, any number of calls of next, all sets of printable characters", "why_tests_cant": "the tests call next on a few maps until the first None; len after steps and the text of nodes are not tested", "anchors": ["src/nav/value.rs: SeqIter", "src/nav/value.rs: NamedIter", "src/nav/value.rs: KeyedIter", "src/nav/navigator.rs: NodeIter", "src/nav/node.rs: Debug"]}
{"id": "C70", "title": "Single-line texts are accepted exactly under stated conditions, and always read as one and the same function of the Kserd", "statement": "The text written on one line for a Kserd with name-like identities, name-like ascending field names and quotable strings (once the configured identities are hidden) is accepted by the parser exactly if no unit, tuple, sequence, container or map has an identity beginning with a boolean, the text of every number is in range, and the whole is not a sequence that looks like a heading. Whenever it is accepted the value is determined: numbers as reread, units and empty tuples and empty containers become units without and empty tuples with an identity, maps are made anew of their entries. So the text reads back as the Kserd exactly under the conditions of C34: none can be dropped.", "quantifier": "for all Kserds that meet the stated conditions and all configurations without width limit", "why_tests_cant": "C34 gives sufficient conditions; that they are necessary says something about every text outside of them, also that none of those is accepted as something else by accident", "anchors": ["src/fmt/mod.rs: Kserd::as_str_with_config", "src/parse/mod.rs: parse", "src/fmt/prims.rs: fmt_str"]}
{"id": "C71", "title": "The pretty debug text says as much as the plain one", "statement": "Two Kserds whose field names have no blanks have the same {:#?} text exactly when they have the same {:?} text, and so do two nodes of navigators. The pretty text also shows where the Kserd ends, though its parts are indented once more on every level.", "quantifier": "for all Kserds with field names without blanks, all navigators and nodes, and every notion of which characters print as they are", "why_tests_cant": "two different nested values could be laid out as the same lines; no finite set of samples excludes that", "anchors": ["src/ds/kserd.rs: Debug for Kserd", "src/ds/val.rs: Debug for Value", "src/nav/node.rs: Debug for Node"]}
{"id": "C72", "title": "Which layout every node gets under a width limit", "statement": "After apply_config on a new formatter every node has the least of three layouts: the one the room left to it suggests, the most verbose one its kind allows, and its parent's. The documented preference of inline over concise over verbose holds for the root if its concise text is not estimated to be wider than its inline text. It fails otherwise, and more room can make a node more verbose.", "quantifier": "for all Kserds and all configurations", "why_tests_cant": "the layout of a node depends on all its ancestors and on the keys of maps; tests look at the text of a few values", "anchors": ["src/fmt/solver.rs: apply_config", "src/fmt/solver.rs: min_line_repr", "src/fmt/formatter.rs: apply_config"]}
{"id": "C73", "title": "Applying a configuration again changes nothing", "statement": "Applying a configuration to a formatter a second time in succession leaves the formatter as it is, whatever was done to it before. On a new formatter the result depends on nothing but the Kserd and the configuration; on a formatter that was configured otherwise before, it can depend on that.", "quantifier": "for all formatters that can be reached by any sequence of requests and configurations, and all configurations", "why_tests_cant": "the state a formatter can be in before depends on arbitrarily many requests", "anchors": ["src/fmt/solver.rs: apply_config", "src/fmt/formatter.rs: apply_config"]}
{"id": "C74", "title": "How long the text on one line is, and when it fits", "statement": "Without a width limit the text of a Kserd in which no tuple identity is hidden has exactly the characters of its parts: literals, names, brackets, separators and shown identities. The formatter's estimate is exactly that for Kserds without byte arrays, map entries and identities on units and tuples whose strings are printable ASCII without quotes and backslashes, and in general differs from it by characters that are listed for every kind of part. A Kserd is put on one line exactly if that line with these corrections fits the limit, and one with none exactly if that line fits the width limit, provided the estimate of its concise text does not exceed the line.", "quantifier": "for all Kserds, configurations and width limits", "why_tests_cant": "an estimate that is off by one shows only for values whose line is exactly as long as the limit", "anchors": ["src/fmt/solver.rs: inline_width", "src/fmt/solver.rs: min_line_repr", "src/fmt/mod.rs: as_str_with_config"]}
{"id": "C75", "title": "Which inline and concise texts are read, and as what", "statement": "In a formatter state without verbose containers, and apart from sequences, containers and maps with the identity true or false, the text of ordinary Kserds is accepted exactly if no composite has an identity that begins with a boolean, every number is in range, no inf or NaN on a line of its own is followed by an opening bracket, and a text on one line is not taken for a heading. Whenever it is accepted, the value is the Kserd as displayed, with its numbers reread, empty composites and units as units or empty tuples, and maps made anew. It is exactly the Kserd as displayed, its numbers reread, under the conditions of C35.", "quantifier": "for all Kserds and all formatter states reachable by any sequence of requests and configurations", "why_tests_cant": "the white space between elements decides what a text over several lines means, and layouts nest to any depth", "anchors": ["src/fmt/formatter.rs: write_string", "src/parse/list.rs: concise_list_kserds", "src/parse/cntr.rs: concise_cntr_kserds", "src/parse/map.rs: concise_map_kserds"]}
{"id": "C76", "title": "Whatever stands on one line fits the limit by itself", "statement": "When a width limit w is configured, then in every layout the formatter chooses, verbose ones included, each non-empty tuple, container, sequence or map that is put on one line has a text of at most w characters when it is written by itself on one line under the same configuration.", "quantifier": "for all Kserds, all configurations with a width limit, and all nodes of the Kserd at any depth", "why_tests_cant": "the layout of a node depends on the layouts of all nodes above it, and verbose layouts do not keep the limit as a whole", "anchors": ["src/fmt/solver.rs: apply_config", "src/fmt/solver.rs: inline_widths", "src/fmt/solver.rs: calculate_offset"]}
{"id": "C77", "title": "Writing appends to the buffer", "statement": "write_string keeps whatever text the buffer it is given holds and puts behind it a text that does not depend on the buffer; whether it panics does not depend on the buffer either.", "quantifier": "for all Kserds, all formatter states reachable by requests, identity switches and configurations, and all buffers", "why_tests_cant": "writers remove characters from the buffer again (trailing separators, blanks after identities), in every nesting of all layouts", "anchors": ["src/fmt/formatter.rs: write_string", "src/fmt/mod.rs: write_node", "src/fmt/tuples.rs: write", "src/fmt/seqs.rs: write"]}
{"id": "C78", "title": "Comparing a Number with a number of a Rust type", "statement": "partial_cmp of a Number with a Number or with a number of any Rust type always gives an ordering, never None and never a panic. An integer Number compares with an integer of any type as the two integers do. A float Number equals an integer of at most 53 bits if and only if they are the same real number. An f32 made into a Number compares with, and equals, another f32 exactly as the two f32s do.", "quantifier": "for all Numbers, and all values of all fourteen primitive number types", "why_tests_cant": "f32 values go through their shortest decimal text; about 2^64 pairs of f32 alone, among them one that does not survive the way back", "anchors": ["src/ds/num.rs: partial_eq_impl", "src/ds/num.rs: partial_ord_impl", "src/ds/num.rs: f32_to_f64"]}
{"id": "C79", "title": "The comparison operators follow one order, and equality follows it too", "statement": "partial_cmp of two Values or two Kserds always gives an ordering, never None and never a panic, and it is that of Ord. a < b holds if and only if a comes before b in the order of Values, a > b if and only if b comes before a, a <= b and a >= b if and only if the other does not come before; identities do not count. Of a < b, b < a and (a <= b and b <= a) exactly one holds. a == b holds if and only if a <= b and a >= b.", "quantifier": "for all pairs of Values and Kserds of any depth, with any numbers", "why_tests_cant": "the derived partial order, the derived total order and the hand written equality are three separate pieces of code over an unbounded recursive type", "anchors": ["src/ds/kserd.rs: PartialOrd for Kserd", "src/ds/val.rs: derive(PartialOrd) for Value", "src/ds/kstr.rs: derive(PartialOrd)", "src/ds/barr.rs: derive(PartialOrd)", "src/ds/num.rs: PartialOrd for Number"]}
{"id": "C80", "title": "Nodes are equal exactly if they are the same node", "statement": "Two nodes are == if and only if they belong to the same navigator and have the same index, whatever Kserds they hold. A navigator always has a root, which holds the Kserd it was made from, and a node is == the root exactly if it has no parent. Going from a node to a child, by key or by value, and back to the parent gives a node == the first.", "quantifier": "for all Kserds, all navigators of them and all pairs of their nodes", "why_tests_cant": "equality compares pointers while the index is a stored number; that the two agree is an invariant of the flattening loop for trees of any size", "anchors": ["src/nav/node.rs: PartialEq for Node", "src/nav/node.rs: parent", "src/nav/node.rs: index", "src/nav/navigator.rs: get", "src/nav/navigator.rs: root"]}
{"id": "C81", "title": "A clone is the same Kserd", "statement": "Cloning a Kserd or a Value gives the same value with the same identities at every depth, and every string and byte array in it is borrowed or owned exactly as in the original.", "quantifier": "for all Kserds and Values of any depth, with any mixture of borrowed and owned data", "why_tests_cant": "Clone is written by hand for Kserd and Value and equality ignores identities and ownership, so that comparing a clone with == shows neither", "anchors": ["src/ds/kserd.rs: Clone for Kserd", "src/ds/val.rs: Clone for Value", "src/ds/kstr.rs: derive(Clone)", "src/ds/barr.rs: derive(Clone)"]}
