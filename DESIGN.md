# Formal model of kserd in Lean 4

Source of truth: `/repo` (kurtlawrence/kserd at the pinned commit), read as text. Nothing here runs the
Rust code: the tie between model and code is the file/line citation on every model definition, and the
mutation log (`seeded/LOG.jsonl`) that shows which theorems notice which wrong models.

## Layout

* `lean/Verif/Model/*` – executable model, one module per source module. Every definition cites lines of `/repo`
  and says what is simplified.
* `lean/Verif/Spec/*` – small specifications used in theorem statements, written without the model's helpers.
* `lean/Verif/Lemmas/*` – helper lemmas.
* `lean/Verif/Props/*` – the property theorems by group, each with a concrete case that meets its hypotheses.
* `lean/Verif/Conformance/*` – the crate's own tests (`/repo/tests` and the `tests` modules in `/repo/src`) transcribed and run on the model with `#guard`, about 330 checks. They are tests, not proofs, and no property rests on them: they show that the model gives the outputs the crate's authors recorded (parse results, formatted texts, error backtraces, offsets, encode-format-parse-decode round trips). All of them pass. Left out: random fuzz loops, and `100_000` as a number text (see `Number.parseU128`).
* `seeded/LOG.jsonl` – seeded model bugs and the theorems that failed. For M001 to M263 `theorems_failed` also lists theorems that did not fail themselves but depend, by name, on a declaration that did; from M264 on it lists only theorems with an error of their own, and `failed_in_helper_lemmas` the lemmas.
  A failed build shows that a proof no longer goes through. That the claim is then false was judged by reading the edit, not checked by Lean; controls, whose edits make no claim false, are marked, and some of them fail as well.
* `seeded/auto.jsonl` – mechanically generated single-token edits of the model and the first declaration that failed. In earlier runs that may be a test (`Conformance`), which does not show that a theorem notices the edit. Where such an edit, or one that survived, was tried again without the tests (from commit a2f0de8 on also without the examples beside the theorems, which can stop a build before a theorem is reached), `again` gives the outcome; only an error in a theorem or lemma counts there. Entries without `again` whose first failure is a test have not been shown to be noticed by a theorem. Entries G… (edits of the model) and S… (edits of the specifications in `Spec`, to see that what they say matters to the proofs) were run without tests and examples from the start.
  How to read them: `theorems_failed` lists the theorems whose proof no longer goes through, either themselves or because a lemma they use
  (`failed_in_helper_lemmas`) does not; it is computed from the dependencies of each theorem at the time of the run. A build is stopped once a theorem of the claimed
  property is among them, so the list need not be complete. That a proof fails does not by itself show that the theorem is
  false for the edited model: another proof might exist, and a proof script can fail over the mere form of a term. In `auto.jsonl` only the first failing declaration is recorded. Survivors that a later theorem
  was meant to catch were run again at the commit named in their note; edits whose line no longer exists could not be, and say so.

A theorem called `Cnn_..._partial` proves part of the claim; its doc comment says what is missing. Where the code
violates the claim a theorem with a concrete witness proves it (names such as `Cnn_fails_...`, `Cnn_lost_...`,
`Cnn_not_...`).

## What is modelled

| source | model | covered |
|--------|-------|---------|
| `ds/num.rs` | `Num`, `NumPrim`, `F64`, `F32` | comparison, equality, hash input, conversions, Display, FromStr, `From` for and comparison with all number types |
| `ds/val.rs`, `ds/kserd.rs`, `lib.rs` aliases | `Kserd`, `PartialOrd`, `Access` | construction, validation, Eq, Ord, PartialOrd and its operators, accessors, mutable accessors, `with_id` |
| `ds/kstr.rs`, `ds/barr.rs`, `into_owned`, `mk_brw`, `Clone` | `Own`, `Clone` | ownership of every string and byte array |
| `to_kserd.rs` | `ToKserd` | every implementation in the file |
| `nav/*` | `Nav`, `NavIter`, `NodeEq` | flattening loop, links, iterators as lists and as states, `Node::value`, the debug self-check, `Debug` and `==` of nodes |
| `fmt/formatter.rs`, `fmt/solver.rs` | `Formatter`, `Widths` | state, requests, rules, width estimates as recursion and as memoised vectors, `apply_config` |
| `fmt/mod.rs`, `prims.rs`, `tuples.rs`, `seqs.rs`, `maps.rs`, `cntr.rs` | `Fmt`, `NavFmt` | all writers, inline, concise and verbose, by recursion over the tree and over the navigator |
| `parse/*` | `Nom`, `Parse`, `ParseErr` | the whole grammar, heuristics, error locations and backtrace |
| `encode/encoder.rs` | `Encode` | every `Serializer` method |
| `encode/decoder.rs` | `Decode` | `deserialize_any` and every overridden method, with serde's visitors for a universe of types |
| `encode/decoder.rs` with ownership | `DecodeOwn` | the same, following which strings and byte arrays are borrowed; types with `&str` and `&[u8]` |
| `encode/decoder.rs` with errors | `DecodeErr` | the same, with the error given and its text |
| `Debug` of `Kserd`, `Value`, `Number`, `Kstr`, `Barr` | `Debug`, `DebugStr`, `DebugPretty` | the plain form `{:?}` and the pretty form `{:#?}` |
| errors of constructors, encoder, `ToKserd`, formatter | `ErrText` | their texts |

Not modelled: lifetimes, memory and stack use, performance, 
`_` digit separators in `FromStr` (never passed by the parser), serde attributes, the example programs and doc tests.

## Modelling decisions

* `str`, `String` and `Kstr` are `List Char`; a Lean `Char` is exactly a Unicode scalar value. Byte offsets matter only
  for error locations, where byte lengths are sums of `Char.utf8Size`. Byte-wise string order equals code-point order (proved for the UTF-8 encoding as written out in `Spec/Order`, C56).
* `u128`/`i128` are `Nat`/`Int` with explicit range predicates. A finite `f64` is a sign and the natural number
  `|x| * 2^1074`, so every operation is exact integer arithmetic. A finite `f32` is a sign and `|x| * 2^149`.
* Float text is concrete: Display writes the shortest decimal that reads back (`F64.disp`), reading rounds to nearest
  even (`F64.parse`).
* `BTreeMap` is an association list in ascending key order, with std's `insert` and `from_iter` (stable sort, last of
  equal keys kept).
* nom combinators are re-modelled with `Ok`/`Error`/`Failure`. Recursion carries fuel; that it never runs out is a theorem
  (C31). Running out of fuel and panicking are separate outcomes.
* Panics (`unwrap`, `expect`, `unreachable!`, indexing) are explicit outcomes everywhere.
* Writers recurse over the tree and carry the navigator index of each node; C51 proves that writing through the navigator is the same.
* A serde value is the tree of `Serializer` calls it makes. Types are a universe with serde's own and derived visitors.


## Per property

### C01 – Integer numbers compare as the integers they denote (proved)

Equality and order of `Uint`/`Int` against the order of the integers they denote. Case analysis and `omega`.

Theorems: `C01_int_eq`, `C01_int_cmp`.

### C02 – Float numbers form the documented number line (proved)

Floats are embedded into a linear order (`C02_float_line`), from which the order laws follow; NaN on top, zeros equal.

Theorems: `C02_float_line`, `C02_float_order`, `C02_nan_top`, `C02_finite`.

### C03 – Number equality is an equivalence relation across representations (partial)

False of the code: `Float` against `Int` compares within 1e-10, so `==` is neither symmetric nor transitive (witnesses). Proved: reflexivity, and an equivalence on integers together with floats that are infinite, NaN, or below 2^53 and either integral or at least 1e-10 from every integer.

Theorems: `C03_refl`, `C03_not_symmetric`, `C03_not_transitive`, `C03_equivalence_partial`, `C03_exact`, `C03_tame_exact`, `C03_beyond`.

### C04 – Number ordering is a total order consistent with equality and with the documented number line (partial)

False of the code (witnesses: -0.0 below 0, negative NaN below, no transitivity, `==` and `cmp` disagree). Proved: `cmp` never panics, is antisymmetric, `C04_line_iff` says exactly which pairs follow the number line, and transitivity and consistency on the lawful class.

Theorems: `C04_never_panics`, `C04_antisymm`, `C04_line_iff`, `C04_transitive_partial`, `C04_negzero_below_zero`, `C04_negnan_below`, `C04_not_transitive`, `C04_eq_cmp_disagree`, `C04_eq_consistent_partial`, `C04_off_line`.

### C05 – Equal numbers hash equally (partial)

False of the code for zeros, NaNs and floats near integers (witnesses). Proved on the class where equal numbers have equal `f64` bits. The floats assumed well-formed are exactly those of the 2^64 bit patterns, read in `Spec/Ieee.lean` (`C05_every_float`), and `to_bits` gives back the pattern (`C05_pattern`).

Theorems: `C05_zero_hash`, `C05_nan_hash`, `C05_near_hash`, `C05_hash_partial`, `C05_bits`, `C05_hash_exact`, `C05_contract`, `C05_every_float`, `C05_pattern`.

### C06 – Integer conversions never misreport a value (partial)

Exact results of `as_u128`/`as_i128` for every number, with all float arithmetic on scaled naturals. The only unsound results come from saturation (`C06_saturates`).

Theorems: `C06_integers`, `C06_float_u128`, `C06_float_i128`, `C06_saturates`, `C06_sound_partial`.

### C07 – Integers print and parse back exactly, and out-of-range digits are rejected (proved)

Induction on decimal digits; reading of digit strings in both directions with range checks.

Theorems: `C07_digits`, `C07_neg_digits`, `C07_uint`, `C07_int`, `C07_roundtrip_eq`.

### C08 – Float values survive display and parse (proved)

Through the shortest-decimal specification of Display and correctly rounded reading; the bound is sharp (`C08_large_…`, `C08_huge_unreadable`).

Theorems: `C08_roundtrip`, `C08_large_partial`, `C08_large_asymmetric`, `C08_huge_unreadable`.

### C09 – Equality and ordering of Kserds never depend on identities (proved)

Mutual induction over Kserds: erasing all identities changes no comparison.

Theorems: `C09_ids_ignored`.

### C10 – Kserd equality and ordering satisfy the Eq and Ord contracts (partial)

Mutual induction over Kserds with lawful numbers. `==` and `cmp` disagree exactly on the empty tuple against the empty container (witness); `C10_agree_exact` says so for every pair, by counting empty containers as empty tuples first.

Theorems: `C10_refl`, `C10_eq_equivalence`, `C10_cmp_antisymm`, `C10_cmp_transitive`, `C10_cmp_eq_imp_eq`, `C10_agree_partial`, `C10_agree_exact`, `C10_empty_disagree`, `C10_integers_lawful`.

### C11 – with_id accepts exactly the identities free of reserved characters (proved)

List induction on the characters of the identity.

Theorems: `C11_with_id`.

### C12 – Container construction validates every name, keeps the last duplicate and yields sorted unique fields (proved)

`from_iter` of the association list: names, order, last value; validation in the order of the sorted names.

Theorems: `C12_new_cntr`.

### C13 – Map construction yields sorted unique keys with last-wins values (proved)

Sortedness, membership and independence of the order of distinct keys, for lawful keys.

Theorems: `C13_new_map`, `C13_permutation`, `C13_empty_keys_merge`.

### C14 – Accessors recognise exactly their own variant (proved)

Case analysis; field lookup by induction on sorted fields.

Theorems: `C14_accessors`, `C14_get`, `C14_get_typed`.

### C15 – Mutable accessors change only their target (proved)

A mutable reference is the data there now and the value after writing; put-get and get-put laws and the frame condition.

Theorems: `C15_value_mut`, `C15_fields_mut`, `C15_get_mut`, `C15_get_num_mut`.

### C16 – into_owned and mk_brw change ownership only (proved)

A second tree type in which each string and byte array is borrowed or owned; mutual induction.

Theorems: `C16_into_owned`, `C16_mk_brw`, `C16_equal`, `C16_ownership_invisible`.

### C17 – Standard library conversions keep data and use the documented identities (proved)

Induction over the values that have implementations; first failure reported.

Theorems: `C17_into_kserd`.

### C18 – Navigator enumerates every node once in depth-first order (proved)

Loop invariant on the stack: the list of nodes equals the preorder of the tree. Termination within the number of nodes.

Theorems: `C18_preorder`, `C18_terminates`.

### C19 – Navigator parent and child links are mutually consistent (proved)

Links are computed from the parent and position recorded in the loop; each list is characterised by an independent path specification.

Theorems: `C19_links`.

### C20 – Depth-first descendants are the contiguous block after a node (proved)

Stack invariant against the contiguous block of indices.

Theorems: `C20_descendants_depth`.

### C21 – Breadth-first descendants list each descendant once, level by level (proved)

Queue invariant: permutation, non-decreasing depth.

Theorems: `C21_descendants_breadth`, `C21_order`.

### C22 – Formatter state always honours the documented line-representation rules (proved)

Invariant over all reachable states (`Reachable`: construction, requests, switches, configurations in any order).

Theorems: `C22_new`, `C22_rules`, `C22_new_maximal`.

### C23 – Representation requests succeed exactly when allowed and fail without effect (proved)

Iff-characterisation of granted requests, of their effect on every node, and of refusal.

Theorems: `C23_granted`, `C23_effect`, `C23_refused`.

### C24 – apply_config and formatting never panic (partial)

False of the code: a string with all twenty delimiters, and a verbose composite map key, panic (witnesses). Proved: writing panics exactly for such strings; `apply_config` on a new formatter panics exactly when the layout plan of C72 (a function of the tree) makes a map key verbose — the run of the solver is followed up to the first key that is raised, up to where everything is settled as the plan says — and so `as_str_with_config` panics exactly in these two cases.

Theorems: `C24_write_partial`, `C24_write_panics`, `C24_config_partial`, `C24_config_panics`, `C24_config_exact_partial`, `C24_text_exact_partial`, `C24_unlimited_partial`.

### C25 – An unlimited width puts everything on one line (proved)

Without width limit every node is inline; the text has a line break only if some piece of data has one.

Theorems: `C25_inline`, `C25_chars`, `C25_one_line`.

### C26 – Zero width means maximum verbosity (proved)

With width 0 every node is as verbose as the rules allow.

Theorems: `C26_zero`, `C26_zero_maximal`.

### C27 – Inline text fits the width that was estimated for it (partial)

The text of a root kept inline is at most the limit plus a slack computed from the tree; `C27_too_long` shows the slack is real, so the plain claim is false of the code.

Theorems: `C27_width_partial`, `C27_too_long`.

### C28 – Identity switches show or hide identities without altering anything else (partial)

`C28_id`, `C28_config`: what `Formatter::id` and the configuration do to the switches, and that they change nothing else. `C28_hide_partial`, `C28_config_text_partial`: the text equals that of the Kserd without the hidden identities. False for hidden tuple identities and for units (witnesses). `C28_rubout_partial`: hidden tuple identities act as marks that rub out the character before them (`Spec/Rubout`).

Theorems: `C28_id`, `C28_config`, `C28_hide_partial`, `C28_config_text_partial`, `C28_tuple_eats`, `C28_unit_shown`, `C28_rubout_partial`, `C28_column_off`.

### C29 – String literals always choose a delimiter absent from the text (proved)

Delimiter choice by search in the list of twenty; reading by prefix induction.

Theorems: `C29_fails`, `C29_shape`, `C29_reads`.

### C30 – Byte array literals round trip (proved)

Bit-queue invariant of basE91 in both directions; alphabet without quote.

Theorems: `C30_no_quote`, `C30_decode`, `C30_reads`, `C30_injective`.

### C31 – Parsing terminates without panicking on every input (proved)

A predicate on parser results (rest is a suffix, no panic, enough fuel) shown for every combinator and parser; independence of the fuel.

Theorems: `C31_total`, `C31_fuel`, `C31_public`.

### C32 – Parsing accounts for the whole input (partial)

Through the grammar of C59/C60: whether text can be read as a document does not change when white space is added behind it, and a document has only one value (`Lemmas/GrammarTail`, `GrammarVal`). False of the code for a carriage return without line feed after text of several lines (witness); `C32_whitespace_exact` shows that whitespace leads to an error there and nowhere else. Text after a value as written is accepted exactly when it is whitespace, under restrictions each shown to be needed.

Theorems: `C32_whitespace_partial`, `C32_whitespace_exact`, `C32_fails_cr`, `C32_trailing`, `C32_trailing_restrictions`.

### C33 – Parsed Kserds are well formed (proved)

Same induction as C31 with well-formedness of the parsed Kserd.

Theorems: `C33_parsed`, `C33_empty_name`.

### C34 – Inline formatting parses back to an equal Kserd (proved)

The text of a Kserd is described by the relation `Txt` between Kserds and text; writers produce it, the parser reads it whatever separator follows. Hypotheses are `TextOk` at every node and `NoHeading`; each exception has a witness (`C34_lost_…`). `C34_exact`: both conditions are needed for every Kserd with quotable strings and ordered keys; that the names must be names follows from C33 applied to the Kserd that came back.

Theorems: `C34_inline`, `C34_map_keys`, `C34_lost_heading`, `C34_lost_unit`, `C34_lost_bool_id`, `C34_lost_names`, `C34_lost_string`, `C34_lost_keys`, `C34_exact`.

### C35 – Concise formatting parses back to an equal Kserd (partial)

As C34 for every reachable layout of inline, concise and verbose sequences and maps. Extra condition `Separable`, shown needed (`C35_lost_lines`). `C35_exact_partial`: `Readable` is exact, from C75, C33 and C59 (the Kserd that came back is the meaning of a derivation, in which no boolean is an identity).

Theorems: `C35_roundtrip_partial`, `C35_exact_partial`, `C35_lost_lines`.

### C36 – Verbose formatting parses back to an equal Kserd (partial)

Lines of verbose containers are described by a relation over the following text; induction over the nesting. Conditions `Readable` and `LayoutOk`; each clause is needed (`C36_lost_…`).

Theorems: `C36_roundtrip_partial`, `C36_lost_heading_identity`, `C36_lost_heading_name`, `C36_lost_map_depth`, `C36_lost_key`, `C36_lost_inf`, `C36_lost_element`, `C36_lost_str`, `C36_lost_identity`, `C36_lost_value`.

### C37 – The default text form round trips (partial)

`PlainTree` is a condition on the Kserd alone that implies the conditions of C36 in every layout. The unrestricted claim is false (witnesses, among them a panic of `as_str`).

Theorems: `C37_default_partial`, `C37_config_partial`, `C37_every_layout_partial`, `C37_layout_partial`, `C37_lost_heading`, `C37_lost_map`, `C37_lost_value`, `C37_lost_element`, `C37_panics`.

### C38 – Parse errors always carry a location inside the input (proved)

Positions are suffixes of the input (from C31); line and column arithmetic over bytes; rendering of every trace.

Theorems: `C38_location`, `C38_bounds`, `C38_backtrace`, `C38_marker`, `C38_marker_bytes`, `C38_rendered`, `C38_empty`, `trace_at`.

### C39 – Duplicate fields in text resolve to the last direct occurrence (proved)

Induction over the fields of a single-line container text with repetitions.

Theorems: `C39_last_field`.

### C40 – Serde encoding followed by decoding is the identity (partial)

Induction over the type universe. Exceptions with witnesses: keys that compare equal, newtypes named `Some`/`None`, one f32 magnitude. `C40_exact_partial`: these are all, at every depth. The converse is by size: decoding never gives more nodes than were encoded, fewer if keys merged anywhere, and what it gives contains none of the other exceptions; being the same transports both back.

Theorems: `C40_partial`, `C40_exact_partial`, `C40_keys`, `C40_orderly`, `C40_enum_key_lost`, `C40_some_lost`, `C40_f32_lost`.

### C41 – Decoding integers never truncates (partial)

Exact for integers, and for floats up to 64 bits; 128-bit types saturate, told exactly (`C41_floats_wide`).

Theorems: `C41_integers`, `C41_floats_partial`, `C41_floats_wide`, `C41_saturates`, `C41_only_numbers`.

### C42 – Encoding fails only for reserved characters in names or missing map keys (proved)

First error in traversal order, by induction over the call tree.

Theorems: `C42_error`, `C42_ok`.

### C43 – Decoding chooses the serde visitor by variant, arity and identity only (proved)

Dispatch of `deserialize_any` and of the overridden methods by variant, arity and identity; for every type exactly which Kserds decode and to what. Strings and byte arrays stand for each other through UTF-8 (a decoder of UTF-8 that is proved to be the inverse of the encoding); the keys of a map read as a struct are names, positions or bytes of names.

Theorems: `C43_number`, `C43_option`, `C43_enum`, `C43_seq`, `C43_tuple`, `C43_struct`, `C43_map`, `C43_trailing_ignored`, `C43_strings`, `C43_scalars`, `C43_tuple_structs`, `C43_struct_map`, `C43_struct_seq`.

### C44 – The two ways of producing a Kserd agree on options (partial)

False of the code for `Some` (witnesses); proved for `None`.

Theorems: `C44_none_partial`, `C44_some_dropped`, `C44_some_lost`, `C44_some_witness`.

### C45 – Node::value lists exactly the direct children (proved)

From C19: the iterators of `Node::value` list the direct children with names and keys.

Theorems: `C45_value`.

### C46 – The navigator's debug self-check never fails (proved)

Every assertion of the debug self-check holds for the constructed navigator.

Theorems: `C46_validate`.

### C47 – f32 values survive storage in a Kserd (proved)

Conversion through the shortest decimal text of the f32, read as f64, then rounded to f32. An f32 can change only if its text, at most nine digits, is read as the exact midpoint of two f32s. For each of the 277 binades a search, proved to skip no solution of the congruence (`lb_sound`, `scan_sound` in `Lemmas/F32Mid`), visits all such nine-digit decimals and finds that only one is the shortest text of an f32; the search is run by the kernel.

Theorems: `C47_exact`, `C47_survives`, `C47_never_panics`, `C47_survives_partial`, `C47_special`, `C47_lost`.

### C48 – A value survives encoding, as_str, parsing and decoding (partial)

The composition of the models of encoder, formatter, parser and decoder. A typed mutual induction over values (`Lemmas/SerdeText`) shows that the Kserd the text reads as (numbers reread, hidden identities dropped, empty containers as empty tuples) decodes to the same value; C37, C36 and C34 supply the text stages; `C48_layout_partial` needs only that the layout chosen meets the conditions of C36. Witnesses for what is lost: a struct variant without fields, negative zero, an array of length zero, enums without tuple identities.

Theorems: `C48_config_partial`, `C48_default_partial`, `C48_inline_partial`, `C48_layout_partial`, `C48_lost_variant`, `C48_lost_zero`, `C48_lost_array`, `C48_lost_name`.

### C49 – A layout that is not verbose keeps the width limit on every line (partial)

The solver run is a sequence of requests (`applyConfig_inv`); the invariant `Snug` says that a node on a line of its own is inline only if it must be or its estimate fits from its column on, and `calculate_offset` is shown to compute that column. A mutual induction over the Kserd (`Lemmas/WriteLines`) then bounds every line the writer makes. Witnesses where the limit is exceeded.

Theorems: `C49_lines_partial`, `C49_empty_too_long`, `C49_keys_too_long`, `C49_verbose_too_long`, `C49_default_partial`.

### C50 – The solver's width vectors hold the right widths (proved)

`Model/Widths` follows the code: vectors of optional widths, recursion over the navigator's links, lookups that may panic. Invariant: every stored width is that of its node and nothing stored is lost (`Good`, `Ext`); recursion on the size of the subtree, children located by C19 and C45. The recursive totals are then shown equal to the sum over `preorder` and to the greatest end column over `Column`; the widths of single Kserds are those of `Spec/Width`, given as the exact width with listed errors. `C50_config` shows the solver over the vectors equal to the recursive model for every reachable formatter, so C22 to C28 and C49 hold of it.

Theorems: `C50_inline`, `C50_concise`, `C50_config`.

### C51 – Writing through the navigator writes the tree (proved)

`Model/NavFmt` follows the code: writers take navigator nodes, list children with `Node::value` and carry `field_name` and `inline_field_id`. From C19 and C45 the children's indices are those of consecutive subtrees (`value_chain`); induction on the fuel of `write_node` and `cntr::write` together.

Theorems: `C51_node`, `C51_write`, `C51_as_str`.

### C52 – Written text is a fixed point (partial)

Every step of navigator, solver and writer is shown to commute with exchanging numbers for ones of the same text (`Lemmas/Renum`); a number that reads back prints the same again (`disp_reread`); reading back a Kserd without empty containers only exchanges numbers; C37 and C28 supply parsing and hidden identities. `C52_settles_partial`: what a plain Kserd reads back as is plain, shows all its identities and has neither `-0` nor empty containers (`Lemmas/Settle`), so the fixed point theorem applies to it.

Theorems: `C52_numbers`, `C52_text_partial`, `C52_default_partial`, `C52_settles_partial`, `C52_minus_zero`, `C52_empty`.

### C53 – The layout carries no information (partial)

Corollary of C36 for every layout that is `Readable` and `LayoutOk`, in particular (C37) for every layout of plain Kserds: the parsed Kserd is a function of the displayed Kserd, and displayed Kserds differ in identities only. `C53_agree_partial`: `ReadAs` is a function where map keys are lawful (structural induction), and C75 says that accepted texts are read so.

Theorems: `C53_any_partial`, `C53_layouts_partial`, `C53_agree_partial`.

### C54 – Ownership only decides whether borrowed types decode (partial)

`Model/DecodeOwn` decodes Kserds whose strings tell whether they are owned. One induction on the nesting shows that the result is that of the model without ownership, or a failure that only happens when some condition (types without references, or borrowed throughout and no `&str` keys) is violated; C16 supplies what `mk_brw` does. Witness: `&str` keys.

Theorems: `C54_sound`, `C54_owned_types`, `C54_borrowed_partial`, `C54_mk_brw_partial`, `C54_strings`, `C54_encoded_partial`, `C54_str_keys`, `C54_example`.

### C55 – Encoded Kserds are well formed (proved)

Mutual induction over serialized values with an invariant for maps under construction: keys once in the map stay, so if all keys of the result are lawful every intermediate map was sorted.

Theorems: `C55_identities`, `C55_sorted`, `C55_numbers`, `C55_field_names`.

### C56 – The order of Kserds, on paper (proved)

Mutual induction over both Kserds against an independent inductive order (`Spec/Order`); UTF-8 by cases on the four encoding lengths.

Theorems: `C56_strings`, `C56_order`, `C56_utf8`.

### C57 – What verbose text stands for (proved)

`Spec/VerboseText` describes lines, their text and, by an inductive relation, the container they stand for. `Lemmas/VerboseText`: mutual induction over lines shows what every line parser returns; `Lemmas/Assemble`: an invariant of the accumulating loop relates its four maps to the lines read so far. Uniqueness by induction.

Theorems: `C57_verbose`, `C57_lost_heading`, `C57_lost_element`.

### C58 – Decoding is type sound and normalises (partial)

Induction over the decoding fuel: if decoding of parts returns values of their types, so does one step; by cases on type and visitor call. Stability: the names in a typed value are the names of the definitions (structural induction on the value), then C40. `C58_exact_partial` is the converse, from `C40_exact_partial`; `C58_unstable` a text whose value is not stable.

Theorems: `C58_sound`, `C58_text`, `C58_stable_partial`, `C58_exact_partial`, `C58_unstable`.

### C59 – Accepted text is text of the grammar (proved)

Spec/Grammar: syntax trees with all their white space, their text, where they can be read (Reads) and what they stand for (Means). Induction over the fuel of the mutually recursive parsers; each combinator gives back the piece of tree it has read.

Theorems: `C59_sound`, `C59_delimited`.

### C60 – All text of the grammar is accepted (proved)

Mutual structural induction over the syntax trees, for all text that may follow; the lookahead heuristics are characterised exactly (LinesAhead, BracketAhead, AssignAhead). The exact acceptance theorem and unambiguity follow from both directions.

Theorems: `C60_complete`, `C60_accepts`, `C60_value`, `C60_unambiguous`, `C60_delimited`, `C60_corners`.

### C61 – Number texts and conversions give the nearest float (proved)

Spec/Decimal: literals, their spellings and their rational value, independent of the model. Generic rounding of rationals to b-bit significands (Lemmas/Rounding, RatRound): nearest, ties to even, monotone; F64.parse is inverted exactly (Lemmas/DecimalText).

Theorems: `C61_reads_nearest`, `C61_only_literals`, `C61_integer_nearest`, `C61_narrow_nearest`, `C61_narrow_special`.

### C62 – Floats are written with the fewest digits, and the nearest of those (proved)

Generic search for the shortest candidate (Lemmas/Shortest, Best): rounding is monotone, so if any literal with k digits reads back, one of the two neighbours of the float on the k-digit grid does; the nearer is taken.

Theorems: `C62_shortest_nearest`, `C62_shortest_nearest32`.

### C63 – What a parse error says is so (proved)

Spec/Says: what each kind of entry asserts, by reference to the text and its places only; an unknown context asserts False. One invariant (Lemmas/Says, Tr) is carried through every parser and combinator: errors of alternatives, repetitions and sequences. The empty text, which `C63_worded` leaves out, has its two traces in `C38_empty` and its backtrace in `C63_empty`.

Theorems: `C63_says`, `C63_unclosed_string`, `C63_all_occur`, `C63_byte_array`, `C63_worded`, `C63_empty`, `C63_empty_worded`.

### C64 – What a decoding error says is so (partial)

Model/DecodeErr repeats the decoder with errors; Lemmas/DecodeErr proves it gives the same results. Spec/DecodeErr says which parts are read (Child, Reads) and what each message asserts (Describes, Misfit, WrongLength, Says) by the shape of values only. Induction over depth: an error of one level comes from a child or is true of this level (Lemmas/DecodeSays, step_err). Spec/DecodeFirst lists what is looked at in order (Plan) and says which step an error belongs to (Fault); the errors of the loops over elements, entries and fields are the first error of that list (Lemmas/DecodeFirst).

Theorems: `C64_result`, `C64_says_partial`, `C64_first_partial`, `C64_calls_big_zero`, `C64_calls_floats`.

### C65 – Which Kserds are the value of some text (proved)

Spec/Express gives the conditions per node, and InLines/AsField/Hollow for containers in lines. Sufficient: every node is spelt as a concise tree of the grammar (Lemmas/ExpressTree, structural induction), containers that need it as lines with tabs, doubled identity lines and harmless extra fields (Lemmas/ExpressBuild, ExpressWhole, induction over InLines); C60 reads them back and the value is unique. Necessary: from the grammar tree of the text (C59) by induction over trees, lines and documents (Lemmas/ExpressRange, ExpressExact, ExpressLines). 2^20 characters by counting (EX.free).

Theorems: `C65_expressible`, `C65_range`, `C65_necessary`, `C65_exact`, `C65_delimited`, `C65_whole`, `C65_more`, `C65_hollow`, `C65_numbers`, `C65_strings`, `C65_strings_id`, `C65_none`.

### C66 – Debug text tells Kserds apart (proved)

Model/Debug writes the text with std's builders spelt out. Unique reading by mutual structural induction with the rest of the text as a parameter (Lemmas/Debug): what a value begins with gives its constructor, quoting is undone character by character, names end at the blank. Floats: the text is a decimal literal (Lemmas/DebugNum) which C61 reads. Exponents: no float lies between `1e-4` and the float nearest to it, by C61.

Theorems: `C66_debug_same`, `C66_debug_ends`, `C66_debug_string`, `C66_debug_float`, `C66_debug_float_decimal`, `C66_exponent`, `C66_equal_may_differ`, `C66_names_with_blanks`.

### C67 – The texts of decoding errors are those documented and tell the errors apart (proved)

Spec/DecodeMsg gives the wordings as relations (quoting, decimals, lists), met by case analysis (Lemmas/DecodeMsg). Unique reading: descriptions other than strings have no comma, strings end at the closing quote (C66), names at the backtick. C67_decode takes from C64 which descriptions occur.

Theorems: `C67_wording`, `C67_tells`, `C67_decode`, `C67_same_integer`, `C67_ticks`.

### C68 – Errors of constructors, encoder, ToKserd and formatter say what is so, and their texts tell them apart (proved)

Each text is a function of the error (`Model/ErrText`). The theorems start from the constructor, request or encoding that failed, and use C12, C23, C42 for why it failed. That texts differ is by cancelling the fixed words and the characters of the name.

Theorems: `C68_identity`, `C68_field_name`, `C68_formatter`, `C68_encoder`, `C68_told_apart`.

### C69 – Node iterators give the children in order, count what is left, and stay finished; Debug of a node identifies it (proved)

Iterators are states with a step (`Model/NavIter`); `Gives` and `Counts` (Spec/Iter) speak of any number of steps and follow from an invariant between the state and the list to come. The lists are those of C19 and C45. Text of nodes: each part is read uniquely (C66), one after the other.

Theorems: `C69_nodes`, `C69_children`, `C69_value`, `C69_debug`, `C69_debug_same`.

### C70 – Single-line texts are accepted exactly under stated conditions, and always read as one and the same function of the Kserd (proved)

The text on one line is written out as a function of the Kserd (`Lemmas/InlineText`). Both directions go through the grammar of C59 and C60: every tree with that text has the shape of the Kserd (`node_same`, an induction over the Kserd), and such a tree exists if the Kserd is legible (`node_tree`). At the root, the text is never that of lines: no `=` before the first stop, and no heading, since the text ends where the line end would be (`no_sub`, `no_elem`).

Theorems: `C70_accept`, `C70_value`, `C70_back`, `C70_string_needed`.

### C71 – The pretty debug text says as much as the plain one (proved)

Indented lines end where a line is not indented (`padFrom_inj`), so the parts of a builder can be taken out of the text; then induction as for C66. Layout: both forms are renderings of one document (Spec/DebugDoc); indentation of an indented text adds up (Lemmas/DebugDoc).

Theorems: `C71_same`, `C71_ends`, `C71_node`, `C71_layout`, `C71_node_layout`.

### C72 – Which layout every node gets under a width limit (partial)

The order of the breadth first list (C21_order) makes every node come after its parent and a map value after its key's subtree root; an invariant over the fold of requests says that the nodes handled have the least of wish, kind and parent, and that the rest are as high as their parents allow; then induction over the tree relates offsets found by walking up with those of the recursive function `layouts`.

Theorems: `C72_layouts`, `C72_preference_partial`, `C72_fits_but_broken`, `C72_not_monotone`.

### C73 – Applying a configuration again changes nothing (partial)

Each step of a second run asks for the layout the node has, or for one that is refused for the same reason; so each step is the identity. For a formatter with a history, the nodes not asked yet keep what they had, cut down to their parents' layouts; this survives a request that raises a node, because what is inside was no higher than the node.

Theorems: `C73_again`, `C73_new_partial`, `C73_history`, `C73_from_history`, `C73_fits`.

### C74 – How long the text on one line is, and when it fits (proved)

Mutual induction over the Kserd as for C27, with an equation in place of the inequality; the sum of the nodes' own widths is compared part by part with the estimate, whose errors (`missed1`, `surplus1`) are listed in `Spec/Width` for every kind of value; C72 gives the decision for the root.

Theorems: `C74_length`, `C74_reckoned`, `C74_estimate`, `C74_fits_exact`, `C74_fits`.

### C75 – Which inline and concise texts are read, and as what (proved)

As C70, for texts over several lines: a layout (`Lemmas/Laid`) is a Kserd with the white space before each element; every tree of the grammar with the text of a layout has the shape of the layout (`node_laid`), and such a tree exists if the Kserd is legible and separable (`laid_tree`). The writers write a layout of the displayed Kserd (`node_laying`). The statement says exactly which of the conditions of C35 matter for acceptance and that all matter for reading back; `C75_split` is a new exception: text that is accepted with another value.

Theorems: `C75_accept`, `C75_value`, `C75_back`, `C75_split`.

### C76 – Whatever stands on one line fits the limit by itself (partial)

Induction over the preorder number, from the description of the final layouts in C72: a node is on one line because its estimate fits the room left to it, or because its parent is, whose estimate is no smaller. The text by itself is no longer than the estimate and the slack, as in C27.

Theorems: `C76_alone_partial`, `C76_exact_partial`, `C76_plain_partial`.

### C77 – Writing appends to the buffer (partial)

One induction over the tree for all writers: if a change to text leaves alone what is put behind, writing after the change is the change of what is written. Used with putting text in front (`C77_appends_partial`) and with rubbing out characters before marks (`C28_rubout_partial`). `C77_panics` from C24.

Theorems: `C77_appends_partial`, `C77_panics`, `C77_eats`, `C28_rubout_partial`.

### C78 – Comparing a Number with a number of a Rust type (proved)

From C01, C02 and C04 by way of the conversions into a Number. For f32: the f64 read from the text of an f32 lies in the rounding interval of the f32, so the conversion is monotone; it is injective because all but one value come back (C47), and that one is told from its neighbour by computation. The f32s assumed well-formed are exactly those of the 2^32 bit patterns (`C78_every_f32`).

Theorems: `C78_answers`, `C78_integers`, `C78_line_iff`, `C78_float_integer`, `C78_beyond`, `C78_f32_order`, `C78_f32_by_text`, `C78_every_f32`.

### C79 – The comparison operators follow one order, and equality follows it too (partial)

The `partial_cmp` derived for Value is the lexicographic comparison (`partialList_lex`), as `cmp` is (C56); numbers by C04. The operators then from C56 and antisymmetry (C10). Equality from C10_agree_partial and C10_agree_exact; the counterexamples by computation.

Theorems: `C79_answers`, `C79_values`, `C79_kserds`, `C79_trichotomy`, `C79_eq_partial`, `C79_eq_emptied_partial`, `C79_eq_disagree`.

### C80 – Nodes are equal exactly if they are the same node (proved)

Pointers are an address of the navigator and a place in its vector; the index is the number stored in the entry. They agree by C18; parents and children by C19.

Theorems: `C80_same`, `C80_root`, `C80_back`.

### C81 – A clone is the same Kserd (proved)

Structural induction over Kserds with ownership.

Theorems: `C81_clone`, `C81_value`.


## Trusted base

* The Lean 4 kernel and the axioms listed below.
* That the model says what the cited lines of `/repo` do.
* std: `BTreeMap`, `str` methods (`lines` splits at `\n` and drops one `\r` before it), integer parsing and display,
  float arithmetic by IEEE-754, `Display for f64/f32` as the shortest decimal that reads back (the nearest such, ties
  upwards, as in std's flt2dec). That the model's computation does this is proved (C62); that std does it is assumed.
* `fast_float::parse` as correctly rounded reading (that the model rounds correctly is proved, C61); `lexical_core` integer parsing as exact with overflow errors.
* nom 7 combinators (complete parsers on `&str`) as in `Model/Nom.lean`.
* The basE91 reference algorithm for the crate `base91`.
* serde 1.0: the visitors of std types and of derived `Deserialize` code (also `str::from_utf8`, as the inverse of the encoding), and that `Serialize` implementations propagate
  errors.


### Axioms of every claimed theorem

* `none`: C81_clone, C81_value

* `propext, Quot.sound`: C01_int_cmp, C02_float_line, C02_float_order, C02_nan_top, C04_antisymm, C10_integers_lawful, C13_empty_keys_merge, C16_ownership_invisible, C38_bounds, C61_narrow_special

* `propext`: C03_not_symmetric, C03_not_transitive, C04_negzero_below_zero, C04_negnan_below, C04_not_transitive, C04_eq_cmp_disagree, C05_zero_hash, C05_nan_hash, C05_near_hash, C06_saturates, C10_empty_disagree, C15_value_mut, C79_eq_disagree

* `propext, Classical.choice, Quot.sound`: the remaining 344 claimed theorems


No theorem depends on any other axiom; the sources contain no axiom declarations.
