{
 "claims": [
  {
   "property": "C01",
   "status": "proved",
   "theorems": [
    "KS.Props.C01_int_eq",
    "KS.Props.C01_int_cmp"
   ],
   "note": ""
  },
  {
   "property": "C02",
   "status": "proved",
   "theorems": [
    "KS.Props.C02_float_line",
    "KS.Props.C02_float_order",
    "KS.Props.C02_nan_top",
    "KS.Props.C02_finite"
   ],
   "note": ""
  },
  {
   "property": "C03",
   "status": "partial",
   "theorems": [
    "KS.Props.C03_refl",
    "KS.Props.C03_not_symmetric",
    "KS.Props.C03_not_transitive",
    "KS.Props.C03_equivalence_partial",
    "KS.Props.C03_exact",
    "KS.Props.C03_tame_exact",
    "KS.Props.C03_beyond"
   ],
   "note": "The code violates the full statement: C03_not_symmetric and C03_not_transitive are proved counterexamples. C03_exact says for every pair when it is ==. Equivalence proved on integers, and floats that are not finite or are below 2^53 and integral or at least 1e-10 from every integer; below 2^53 these are all on which equality with an integer is exact (C03_tame_exact); from 2^53 on some are left out on which it is exact as well (C03_beyond)."
  },
  {
   "property": "C04",
   "status": "partial",
   "theorems": [
    "KS.Props.C04_never_panics",
    "KS.Props.C04_antisymm",
    "KS.Props.C04_line_iff",
    "KS.Props.C04_transitive_partial",
    "KS.Props.C04_negzero_below_zero",
    "KS.Props.C04_negnan_below",
    "KS.Props.C04_not_transitive",
    "KS.Props.C04_eq_cmp_disagree",
    "KS.Props.C04_eq_consistent_partial",
    "KS.Props.C04_off_line"
   ],
   "note": "The code violates the full statement (proved counterexamples). C04_line_iff characterises exactly which pairs follow the number line, C04_off_line what the others give."
  },
  {
   "property": "C05",
   "status": "partial",
   "theorems": [
    "KS.Props.C05_zero_hash",
    "KS.Props.C05_nan_hash",
    "KS.Props.C05_near_hash",
    "KS.Props.C05_hash_partial",
    "KS.Props.C05_bits",
    "KS.Props.C05_hash_exact",
    "KS.Props.C05_contract",
    "KS.Props.C05_every_float",
    "KS.Props.C05_pattern"
   ],
   "note": "The code violates the full statement (0.0 == -0.0 hash differently; NaNs; near integers); C05_contract lists exactly the equal pairs that hash differently."
  },
  {
   "property": "C06",
   "status": "partial",
   "theorems": [
    "KS.Props.C06_integers",
    "KS.Props.C06_float_u128",
    "KS.Props.C06_float_i128",
    "KS.Props.C06_saturates",
    "KS.Props.C06_sound_partial"
   ],
   "note": "Exact behaviour is proved for every input; the documented soundness fails only by saturation beyond the target range (C06_saturates)."
  },
  {
   "property": "C07",
   "status": "proved",
   "theorems": [
    "KS.Props.C07_digits",
    "KS.Props.C07_neg_digits",
    "KS.Props.C07_uint",
    "KS.Props.C07_int",
    "KS.Props.C07_roundtrip_eq"
   ],
   "note": ""
  },
  {
   "property": "C08",
   "status": "proved",
   "theorems": [
    "KS.Props.C08_roundtrip",
    "KS.Props.C08_large_partial",
    "KS.Props.C08_large_asymmetric",
    "KS.Props.C08_huge_unreadable"
   ],
   "note": "The property as stated is proved; the other theorems show it is sharp."
  },
  {
   "property": "C09",
   "status": "proved",
   "theorems": [
    "KS.Props.C09_ids_ignored"
   ],
   "note": ""
  },
  {
   "property": "C10",
   "status": "partial",
   "theorems": [
    "KS.Props.C10_refl",
    "KS.Props.C10_eq_equivalence",
    "KS.Props.C10_cmp_antisymm",
    "KS.Props.C10_cmp_transitive",
    "KS.Props.C10_cmp_eq_imp_eq",
    "KS.Props.C10_agree_partial",
    "KS.Props.C10_agree_exact",
    "KS.Props.C10_empty_disagree",
    "KS.Props.C10_integers_lawful"
   ],
   "note": "Proved over trees whose numbers are lawful (all integers; tame floats other than -0.0 and negative NaN). Agreement of == and cmp additionally needs no empty container: C10_empty_disagree is the proved counterexample (empty Tuple == empty Cntr but they compare unequal); C10_agree_exact says that this is the only disagreement."
  },
  {
   "property": "C11",
   "status": "proved",
   "theorems": [
    "KS.Props.C11_with_id"
   ],
   "note": ""
  },
  {
   "property": "C12",
   "status": "proved",
   "theorems": [
    "KS.Props.C12_new_cntr"
   ],
   "note": ""
  },
  {
   "property": "C13",
   "status": "proved",
   "theorems": [
    "KS.Props.C13_new_map",
    "KS.Props.C13_permutation",
    "KS.Props.C13_empty_keys_merge"
   ],
   "note": "Keys restricted to trees with lawful numbers; C13_empty_keys_merge shows the effect of the empty Tuple/Cntr equality."
  },
  {
   "property": "C14",
   "status": "proved",
   "theorems": [
    "KS.Props.C14_accessors",
    "KS.Props.C14_get",
    "KS.Props.C14_get_typed"
   ],
   "note": ""
  },
  {
   "property": "C15",
   "status": "proved",
   "theorems": [
    "KS.Props.C15_value_mut",
    "KS.Props.C15_fields_mut",
    "KS.Props.C15_get_mut",
    "KS.Props.C15_get_num_mut"
   ],
   "note": ""
  },
  {
   "property": "C16",
   "status": "proved",
   "theorems": [
    "KS.Props.C16_into_owned",
    "KS.Props.C16_mk_brw",
    "KS.Props.C16_equal",
    "KS.Props.C16_ownership_invisible"
   ],
   "note": ""
  },
  {
   "property": "C17",
   "status": "proved",
   "theorems": [
    "KS.Props.C17_into_kserd"
   ],
   "note": ""
  },
  {
   "property": "C18",
   "status": "proved",
   "theorems": [
    "KS.Props.C18_preorder",
    "KS.Props.C18_terminates"
   ],
   "note": ""
  },
  {
   "property": "C19",
   "status": "proved",
   "theorems": [
    "KS.Props.C19_links"
   ],
   "note": ""
  },
  {
   "property": "C20",
   "status": "proved",
   "theorems": [
    "KS.Props.C20_descendants_depth"
   ],
   "note": ""
  },
  {
   "property": "C21",
   "status": "proved",
   "theorems": [
    "KS.Props.C21_descendants_breadth",
    "KS.Props.C21_order"
   ],
   "note": ""
  },
  {
   "property": "C31",
   "status": "proved",
   "theorems": [
    "KS.Props.C31_total",
    "KS.Props.C31_fuel",
    "KS.Props.C31_public"
   ],
   "note": "Totality of the parser model for every string; panics (unwrap of with_id) and exhausted fuel are separate outcomes and excluded. Stack depth is not modelled."
  },
  {
   "property": "C32",
   "status": "partial",
   "theorems": [
    "KS.Props.C32_whitespace_partial",
    "KS.Props.C32_whitespace_exact",
    "KS.Props.C32_fails_cr",
    "KS.Props.C32_trailing",
    "KS.Props.C32_trailing_restrictions"
   ],
   "note": "Whitespace after any accepted text changes nothing, except a carriage return without line feed after text of several lines, where the claim is false of the code (C32_fails_cr); C32_whitespace_exact says that this is the only exception. Text after any inline or concise value as written: accepted exactly when it is whitespace, given that it does not merge with the value; C32_trailing_restrictions shows each restriction is needed."
  },
  {
   "property": "C33",
   "status": "proved",
   "theorems": [
    "KS.Props.C33_parsed",
    "KS.Props.C33_empty_name"
   ],
   "note": "Identities, field names, field order and number ranges at every depth. Noted: the empty field name is accepted."
  },
  {
   "property": "C38",
   "status": "proved",
   "theorems": [
    "KS.Props.C38_location",
    "KS.Props.C38_bounds",
    "KS.Props.C38_backtrace",
    "KS.Props.C38_marker",
    "KS.Props.C38_marker_bytes",
    "KS.Props.C38_rendered",
    "KS.Props.C38_empty",
    "KS.Props.trace_at"
   ],
   "note": "Offsets in bytes, lines as std str::lines. Every trace of every rejected input is computed without panic and points into the input."
  },
  {
   "property": "C34",
   "status": "proved",
   "theorems": [
    "KS.Props.C34_inline",
    "KS.Props.C34_map_keys",
    "KS.Props.C34_lost_heading",
    "KS.Props.C34_lost_unit",
    "KS.Props.C34_lost_bool_id",
    "KS.Props.C34_lost_names",
    "KS.Props.C34_lost_string",
    "KS.Props.C34_lost_keys",
    "KS.Props.C34_exact"
   ],
   "note": "With no width limit every Kserd that is readable once the configured identities are hidden (TextOk at every node, no heading ambiguity) is written as text that parses to it, equal in both directions when its numbers are exact. The recorded ambiguities are each shown by a C34_lost_ theorem with a concrete Kserd that does not read back."
  },
  {
   "property": "C35",
   "status": "partial",
   "theorems": [
    "KS.Props.C35_roundtrip_partial",
    "KS.Props.C35_exact_partial",
    "KS.Props.C35_lost_lines"
   ],
   "note": "Every reachable inline/concise layout (sequences and maps may be verbose too) of a readable Kserd parses to the Kserd as displayed, equal in both directions when its numbers are exact. The unrestricted claim is false: besides the C34 exceptions, an element inf or NaN on its own line followed followed by an opening bracket is misread (C35_lost_lines). C35_exact_partial: for Quotable strings, map keys in order and no hidden tuple identities, the states without verbose containers whose text reads back are exactly the Readable ones, whatever the names."
  },
  {
   "property": "C40",
   "status": "partial",
   "theorems": [
    "KS.Props.C40_partial",
    "KS.Props.C40_exact_partial",
    "KS.Props.C40_keys",
    "KS.Props.C40_orderly",
    "KS.Props.C40_enum_key_lost",
    "KS.Props.C40_some_lost",
    "KS.Props.C40_f32_lost"
   ],
   "note": "Proved for every value of every type in the universe except the proved counterexamples, which are proved to be all of them (C40_exact_partial: the round trip works if and only if the names are valid and none of these is inside): map keys that compare equal as Kserds, newtypes named Some / field-less tuple structs named None, and one f32. Field names with reserved characters are fine."
  },
  {
   "property": "C41",
   "status": "partial",
   "theorems": [
    "KS.Props.C41_integers",
    "KS.Props.C41_floats_partial",
    "KS.Props.C41_floats_wide",
    "KS.Props.C41_saturates",
    "KS.Props.C41_only_numbers"
   ],
   "note": "Exact for integers and, up to 64 bits, for floats; u128 and i128 saturate on larger floats, which is told exactly by C41_floats_wide."
  },
  {
   "property": "C42",
   "status": "proved",
   "theorems": [
    "KS.Props.C42_error",
    "KS.Props.C42_ok"
   ],
   "note": "The list of problems also includes errors raised by the value itself."
  },
  {
   "property": "C43",
   "status": "proved",
   "theorems": [
    "KS.Props.C43_number",
    "KS.Props.C43_option",
    "KS.Props.C43_enum",
    "KS.Props.C43_seq",
    "KS.Props.C43_tuple",
    "KS.Props.C43_struct",
    "KS.Props.C43_map",
    "KS.Props.C43_trailing_ignored",
    "KS.Props.C43_strings",
    "KS.Props.C43_scalars",
    "KS.Props.C43_tuple_structs",
    "KS.Props.C43_struct_map",
    "KS.Props.C43_struct_seq"
   ],
   "note": "Behaviour of serde's own and derived visitors is in the trusted base. Surplus tuple elements are ignored."
  },
  {
   "property": "C44",
   "status": "partial",
   "theorems": [
    "KS.Props.C44_none_partial",
    "KS.Props.C44_some_dropped",
    "KS.Props.C44_some_lost",
    "KS.Props.C44_some_witness"
   ],
   "note": "Holds for None; false for Some (proved)."
  },
  {
   "property": "C47",
   "status": "proved",
   "theorems": [
    "KS.Props.C47_exact",
    "KS.Props.C47_survives",
    "KS.Props.C47_never_panics",
    "KS.Props.C47_survives_partial",
    "KS.Props.C47_special",
    "KS.Props.C47_lost"
   ],
   "note": "An f32 comes back unchanged if and only if it is not one of the stated exceptions (C47_exact)."
  },
  {
   "property": "C39",
   "status": "proved",
   "theorems": [
    "KS.Props.C39_last_field"
   ],
   "note": "Single-line containers with any field order and repetition; values written as the crate writes them without width limit."
  },
  {
   "property": "C36",
   "status": "partial",
   "theorems": [
    "KS.Props.C36_roundtrip_partial",
    "KS.Props.C36_lost_heading_identity",
    "KS.Props.C36_lost_heading_name",
    "KS.Props.C36_lost_map_depth",
    "KS.Props.C36_lost_key",
    "KS.Props.C36_lost_inf",
    "KS.Props.C36_lost_element",
    "KS.Props.C36_lost_str",
    "KS.Props.C36_lost_identity",
    "KS.Props.C36_lost_value"
   ],
   "note": "Every reachable layout, with verbose containers at any depth, that is Readable and LayoutOk parses to the Kserd as displayed, equal in both directions when its numbers are exact. The unrestricted claim is false; every condition is shown necessary by a text the formatter writes and the parser rejects or misreads (C36_lost_*)."
  },
  {
   "property": "C37",
   "status": "partial",
   "theorems": [
    "KS.Props.C37_default_partial",
    "KS.Props.C37_config_partial",
    "KS.Props.C37_every_layout_partial",
    "KS.Props.C37_layout_partial",
    "KS.Props.C37_lost_heading",
    "KS.Props.C37_lost_map",
    "KS.Props.C37_lost_value",
    "KS.Props.C37_lost_element",
    "KS.Props.C37_panics"
   ],
   "note": "Every plain Kserd (PlainTree: conditions on the Kserd alone) is written by as_str, by as_str_with_config under every configuration and by every reachable formatter state, and parses to the Kserd as displayed, equal in both directions when its numbers are exact. The unrestricted claim is false: default as_str texts that are rejected or misread, and one Kserd on which as_str panics, are proved."
  },
  {
   "property": "C45",
   "status": "proved",
   "theorems": [
    "KS.Props.C45_value"
   ],
   "note": ""
  },
  {
   "property": "C46",
   "status": "proved",
   "theorems": [
    "KS.Props.C46_validate"
   ],
   "note": ""
  },
  {
   "property": "C22",
   "status": "proved",
   "theorems": [
    "KS.Props.C22_new",
    "KS.Props.C22_rules",
    "KS.Props.C22_new_maximal"
   ],
   "note": ""
  },
  {
   "property": "C23",
   "status": "proved",
   "theorems": [
    "KS.Props.C23_granted",
    "KS.Props.C23_effect",
    "KS.Props.C23_refused"
   ],
   "note": ""
  },
  {
   "property": "C24",
   "status": "partial",
   "theorems": [
    "KS.Props.C24_write_partial",
    "KS.Props.C24_write_panics",
    "KS.Props.C24_config_partial",
    "KS.Props.C24_config_panics",
    "KS.Props.C24_config_exact_partial",
    "KS.Props.C24_text_exact_partial",
    "KS.Props.C24_unlimited_partial"
   ],
   "note": "The full claim is false: strings using all twenty delimiters and verbose composite map keys panic (proved). The panics of as_str_with_config are characterised exactly: it panics if and only if the layout plan of C72 makes a map key verbose, or a string contains all twenty delimiters; without a width limit only the latter."
  },
  {
   "property": "C25",
   "status": "proved",
   "theorems": [
    "KS.Props.C25_inline",
    "KS.Props.C25_chars",
    "KS.Props.C25_one_line"
   ],
   "note": ""
  },
  {
   "property": "C26",
   "status": "proved",
   "theorems": [
    "KS.Props.C26_zero",
    "KS.Props.C26_zero_maximal"
   ],
   "note": ""
  },
  {
   "property": "C27",
   "status": "partial",
   "theorems": [
    "KS.Props.C27_width_partial",
    "KS.Props.C27_too_long"
   ],
   "note": "The full claim is false (proved counterexample); proved with the exact slack by which the estimate may fall short."
  },
  {
   "property": "C28",
   "status": "partial",
   "theorems": [
    "KS.Props.C28_id",
    "KS.Props.C28_config",
    "KS.Props.C28_hide_partial",
    "KS.Props.C28_config_text_partial",
    "KS.Props.C28_tuple_eats",
    "KS.Props.C28_unit_shown",
    "KS.Props.C28_rubout_partial",
    "KS.Props.C28_column_off"
   ],
   "note": "C28_rubout_partial says exactly which characters hidden tuple identities take away; missing there: values of several lines behind a key on one line in which the identity of a tuple is hidden, where the column is off as well (C28_column_off). The full claim is false for hidden tuple identities and for units (proved); proved for everything else, for formatter states and for whole runs of as_str_with_config. What Formatter::id and the configuration do to the switches is proved without exception."
  },
  {
   "property": "C29",
   "status": "proved",
   "theorems": [
    "KS.Props.C29_fails",
    "KS.Props.C29_shape",
    "KS.Props.C29_reads"
   ],
   "note": ""
  },
  {
   "property": "C30",
   "status": "proved",
   "theorems": [
    "KS.Props.C30_no_quote",
    "KS.Props.C30_decode",
    "KS.Props.C30_reads",
    "KS.Props.C30_injective"
   ],
   "note": "The base91 crate is re-modelled from the reference algorithm (trusted base)."
  },
  {
   "property": "C48",
   "status": "partial",
   "theorems": [
    "KS.Props.C48_config_partial",
    "KS.Props.C48_default_partial",
    "KS.Props.C48_inline_partial",
    "KS.Props.C48_layout_partial",
    "KS.Props.C48_lost_variant",
    "KS.Props.C48_lost_zero",
    "KS.Props.C48_lost_array",
    "KS.Props.C48_lost_name"
   ],
   "note": "Proved for values whose Kserd reads back (C34, C37) and without negative zeros, unusual NaNs and field-less struct variants, each of which is lost (witnesses). Missing: layouts outside the sufficient conditions of C37."
  },
  {
   "property": "C49",
   "status": "partial",
   "theorems": [
    "KS.Props.C49_lines_partial",
    "KS.Props.C49_empty_too_long",
    "KS.Props.C49_keys_too_long",
    "KS.Props.C49_verbose_too_long",
    "KS.Props.C49_default_partial"
   ],
   "note": "The full claim is false (proved counterexamples: empty collections, keys that are not primitive; verbose layouts do not keep the limit either). Proved for primitive or empty map keys with the slack by which the estimates fall short; the slack is 0 without maps, empty collections, quotes in strings, units with identity and short byte arrays."
  },
  {
   "property": "C50",
   "status": "proved",
   "theorems": [
    "KS.Props.C50_inline",
    "KS.Props.C50_concise",
    "KS.Props.C50_config"
   ],
   "note": ""
  },
  {
   "property": "C51",
   "status": "proved",
   "theorems": [
    "KS.Props.C51_node",
    "KS.Props.C51_write",
    "KS.Props.C51_as_str"
   ],
   "note": ""
  },
  {
   "property": "C52",
   "status": "partial",
   "theorems": [
    "KS.Props.C52_numbers",
    "KS.Props.C52_text_partial",
    "KS.Props.C52_default_partial",
    "KS.Props.C52_settles_partial",
    "KS.Props.C52_minus_zero",
    "KS.Props.C52_empty"
   ],
   "note": "C52_numbers is proved in full. The round trip of the text is false of the code for the float -0 and for empty containers with an identity (proved counterexamples), and where texts do not read back (C34 to C37); proved for plain Kserds without these; with these the text settles after one round (C52_settles_partial)."
  },
  {
   "property": "C53",
   "status": "partial",
   "theorems": [
    "KS.Props.C53_any_partial",
    "KS.Props.C53_layouts_partial",
    "KS.Props.C53_agree_partial"
   ],
   "note": "Proved for all layouts that are Readable and LayoutOk, which includes every layout of Kserds that are plain as shown; C53_agree_partial: without verbose containers, accepted texts of one Kserd are read as the same Kserd even if they do not read back. The full claim is false where texts do not read back (witnesses under C34 to C37)."
  },
  {
   "property": "C54",
   "status": "partial",
   "theorems": [
    "KS.Props.C54_sound",
    "KS.Props.C54_owned_types",
    "KS.Props.C54_borrowed_partial",
    "KS.Props.C54_mk_brw_partial",
    "KS.Props.C54_strings",
    "KS.Props.C54_encoded_partial",
    "KS.Props.C54_str_keys",
    "KS.Props.C54_example"
   ],
   "note": "The promise for mk_brw is false of the code for maps with keys &str or &[u8] read from containers (proved counterexample); proved for all other types."
  },
  {
   "property": "C55",
   "status": "proved",
   "theorems": [
    "KS.Props.C55_identities",
    "KS.Props.C55_sorted",
    "KS.Props.C55_numbers",
    "KS.Props.C55_field_names"
   ],
   "note": "Order of map keys is claimed for lawful numbers, because the order of numbers is not transitive otherwise (C10). Field names are not checked by the encoder (C55_field_names)."
  },
  {
   "property": "C56",
   "status": "proved",
   "theorems": [
    "KS.Props.C56_strings",
    "KS.Props.C56_order",
    "KS.Props.C56_utf8"
   ],
   "note": ""
  },
  {
   "property": "C57",
   "status": "proved",
   "theorems": [
    "KS.Props.C57_verbose",
    "KS.Props.C57_lost_heading",
    "KS.Props.C57_lost_element"
   ],
   "note": "For lines meeting `LinesOk`; that a container may not begin with a heading with identity, and an element of a sequence not with a name in `str`, is needed (proved counterexamples). Concise values over several lines inside verbose text are covered by C36 only."
  },
  {
   "property": "C58",
   "status": "partial",
   "theorems": [
    "KS.Props.C58_sound",
    "KS.Props.C58_text",
    "KS.Props.C58_stable_partial",
    "KS.Props.C58_exact_partial",
    "KS.Props.C58_unstable"
   ],
   "note": "Soundness in full. Stability needs the keys of a decoded map to stay distinct as Kserds, and f32 to survive the detour through f64; both can fail (C58_unstable, C40_enum_key_lost, C40_f32_lost), and C58_exact_partial says that nothing else can."
  },
  {
   "property": "C59",
   "status": "proved",
   "theorems": [
    "KS.Props.C59_sound",
    "KS.Props.C59_delimited"
   ],
   "note": ""
  },
  {
   "property": "C60",
   "status": "proved",
   "theorems": [
    "KS.Props.C60_complete",
    "KS.Props.C60_accepts",
    "KS.Props.C60_value",
    "KS.Props.C60_unambiguous",
    "KS.Props.C60_delimited",
    "KS.Props.C60_corners"
   ],
   "note": "The grammar states what the code accepts, including its oddities (C60_corners). The value is given by a relation; it is a function (C60_value) if the numbers in map keys are lawful as in C10, otherwise the entries of a map depend on the steps of BTreeMap and are only bounded."
  },
  {
   "property": "C61",
   "status": "proved",
   "theorems": [
    "KS.Props.C61_reads_nearest",
    "KS.Props.C61_only_literals",
    "KS.Props.C61_integer_nearest",
    "KS.Props.C61_narrow_nearest",
    "KS.Props.C61_narrow_special"
   ],
   "note": "The reading of number texts is done by fast_float and casts by the compiler; the model computes them, and the theorems say that the computation is correct rounding."
  },
  {
   "property": "C62",
   "status": "proved",
   "theorems": [
    "KS.Props.C62_shortest_nearest",
    "KS.Props.C62_shortest_nearest32"
   ],
   "note": "Writing is done by std; the direction of ties is taken from std's exact algorithm (flt2dec, dragon)."
  },
  {
   "property": "C63",
   "status": "proved",
   "theorems": [
    "KS.Props.C63_says",
    "KS.Props.C63_unclosed_string",
    "KS.Props.C63_all_occur",
    "KS.Props.C63_byte_array",
    "KS.Props.C63_worded",
    "KS.Props.C63_empty",
    "KS.Props.C63_empty_worded"
   ],
   "note": "One claim is misleading though true as far as it goes: a value of no kind at all is reported as a broken byte array (C63_byte_array), because that alternative is tried last."
  },
  {
   "property": "C64",
   "status": "partial",
   "theorems": [
    "KS.Props.C64_result",
    "KS.Props.C64_says_partial",
    "KS.Props.C64_first_partial",
    "KS.Props.C64_calls_big_zero",
    "KS.Props.C64_calls_floats"
   ],
   "note": "False of the code in two places: an integer beyond 64 bits is described as integer 0 (C64_calls_big_zero), and for f32 and f64 the expected type is called $t, a macro variable outside its macro (C64_calls_floats). C64_says_partial and C64_first_partial (which part the error is about: the first in reading order) prove everything else, with the first exception as an explicit alternative and the second in the specification."
  },
  {
   "property": "C65",
   "status": "proved",
   "theorems": [
    "KS.Props.C65_expressible",
    "KS.Props.C65_range",
    "KS.Props.C65_necessary",
    "KS.Props.C65_exact",
    "KS.Props.C65_delimited",
    "KS.Props.C65_whole",
    "KS.Props.C65_more",
    "KS.Props.C65_hollow",
    "KS.Props.C65_numbers",
    "KS.Props.C65_strings",
    "KS.Props.C65_strings_id",
    "KS.Props.C65_none"
   ],
   "note": "C65_whole is an equivalence for all Kserds that meet All Granted and All PrimKeys (no bare NaN, strings shorter than 2^20, sorted maps with lawful primitive keys); C65_necessary and C65_range hold for every text without these. Whether a Kserd with a bare NaN or with tuples as keys of maps in lines has a text depends on its surroundings and is only told in part."
  },
  {
   "property": "C66",
   "status": "proved",
   "theorems": [
    "KS.Props.C66_debug_same",
    "KS.Props.C66_debug_ends",
    "KS.Props.C66_debug_string",
    "KS.Props.C66_debug_float",
    "KS.Props.C66_debug_float_decimal",
    "KS.Props.C66_exponent",
    "KS.Props.C66_equal_may_differ",
    "KS.Props.C66_names_with_blanks"
   ],
   "note": "The plain form only, not {:#?}. std's tables of printable characters are a parameter."
  },
  {
   "property": "C67",
   "status": "proved",
   "theorems": [
    "KS.Props.C67_wording",
    "KS.Props.C67_tells",
    "KS.Props.C67_decode",
    "KS.Props.C67_same_integer",
    "KS.Props.C67_ticks"
   ],
   "note": "serde's and std's wordings are transcribed in Spec/DecodeMsg, from their sources as known; they are part of the trusted base."
  },
  {
   "property": "C68",
   "status": "proved",
   "theorems": [
    "KS.Props.C68_identity",
    "KS.Props.C68_field_name",
    "KS.Props.C68_formatter",
    "KS.Props.C68_encoder",
    "KS.Props.C68_told_apart"
   ],
   "note": ""
  },
  {
   "property": "C69",
   "status": "proved",
   "theorems": [
    "KS.Props.C69_nodes",
    "KS.Props.C69_children",
    "KS.Props.C69_value",
    "KS.Props.C69_debug",
    "KS.Props.C69_debug_same"
   ],
   "note": "Debug in the plain form only, not {:#?}."
  },
  {
   "property": "C70",
   "status": "proved",
   "theorems": [
    "KS.Props.C70_accept",
    "KS.Props.C70_value",
    "KS.Props.C70_back",
    "KS.Props.C70_string_needed"
   ],
   "note": "Strings without identity must have a free quote, or another free delimiter and nothing that looks like a field assignment; C70_string_needed is a string that is read as a container."
  },
  {
   "property": "C71",
   "status": "proved",
   "theorems": [
    "KS.Props.C71_same",
    "KS.Props.C71_ends",
    "KS.Props.C71_node",
    "KS.Props.C71_layout",
    "KS.Props.C71_node_layout"
   ],
   "note": "The builders of std (debug_struct, debug_tuple, debug_list, debug_map, PadAdapter) are re-modelled."
  },
  {
   "property": "C72",
   "status": "partial",
   "theorems": [
    "KS.Props.C72_layouts",
    "KS.Props.C72_preference_partial",
    "KS.Props.C72_fits_but_broken",
    "KS.Props.C72_not_monotone"
   ],
   "note": "The layouts are given exactly. The documented preference is false in general: proved under the condition that the concise estimate does not exceed the inline one, with a witness that it fails without."
  },
  {
   "property": "C73",
   "status": "partial",
   "theorems": [
    "KS.Props.C73_again",
    "KS.Props.C73_new_partial",
    "KS.Props.C73_history",
    "KS.Props.C73_from_history",
    "KS.Props.C73_fits"
   ],
   "note": "Idempotence is proved for every reachable formatter. Independence of the history is false in general (witness), and proved for new formatters, and where the text on one line fits. What happens to a formatter with any history is given exactly: the history matters only where a request is refused."
  },
  {
   "property": "C74",
   "status": "proved",
   "theorems": [
    "KS.Props.C74_length",
    "KS.Props.C74_reckoned",
    "KS.Props.C74_estimate",
    "KS.Props.C74_fits_exact",
    "KS.Props.C74_fits"
   ],
   "note": "The condition on the concise estimate is needed: see C72_fits_but_broken."
  },
  {
   "property": "C75",
   "status": "proved",
   "theorems": [
    "KS.Props.C75_accept",
    "KS.Props.C75_value",
    "KS.Props.C75_back",
    "KS.Props.C75_split"
   ],
   "note": "A sequence, container or map with the identity true or false, on a line of its own, is read as two elements (C75_split); such Kserds are excluded."
  },
  {
   "property": "C76",
   "status": "partial",
   "theorems": [
    "KS.Props.C76_alone_partial",
    "KS.Props.C76_exact_partial",
    "KS.Props.C76_plain_partial"
   ],
   "note": "The claim without slack is false already for the root (C27_too_long). Proved up to the slack by which the estimates of the parts fall short, and exactly where that is 0: no maps, quotes in strings, units with identity, short byte arrays and empty identities. C76_exact_partial has the exact corrections."
  },
  {
   "property": "C77",
   "status": "partial",
   "theorems": [
    "KS.Props.C77_appends_partial",
    "KS.Props.C77_panics",
    "KS.Props.C77_eats",
    "KS.Props.C28_rubout_partial"
   ],
   "note": "The full claim is false: a hidden tuple identity takes a character from the buffer (witness). Proved for all states in which none is hidden; C28_rubout_partial says what happens otherwise."
  },
  {
   "property": "C78",
   "status": "proved",
   "theorems": [
    "KS.Props.C78_answers",
    "KS.Props.C78_integers",
    "KS.Props.C78_line_iff",
    "KS.Props.C78_float_integer",
    "KS.Props.C78_beyond",
    "KS.Props.C78_f32_order",
    "KS.Props.C78_f32_by_text",
    "KS.Props.C78_every_f32"
   ],
   "note": "Comparison with an f32 is by its decimal text: a Number made from 0.1f64 equals 0.1f32 and one made from 0.1f32 as f64 does not (C78_f32_by_text). Integers beyond 53 bits are rounded before they are compared for equality with a float (C78_beyond)."
  },
  {
   "property": "C79",
   "status": "partial",
   "theorems": [
    "KS.Props.C79_answers",
    "KS.Props.C79_values",
    "KS.Props.C79_kserds",
    "KS.Props.C79_trichotomy",
    "KS.Props.C79_eq_partial",
    "KS.Props.C79_eq_emptied_partial",
    "KS.Props.C79_eq_disagree"
   ],
   "note": "All but the last sentence is proved in full. The last sentence is false: an empty tuple == an empty container and is < it, and 0 == -0.0 and is > it (C79_eq_disagree). Proved for lawful numbers without empty containers, and with empty containers counted as empty tuples."
  },
  {
   "property": "C80",
   "status": "proved",
   "theorems": [
    "KS.Props.C80_same",
    "KS.Props.C80_root",
    "KS.Props.C80_back"
   ],
   "note": "References are modelled by an address and a place in the vector; that live vectors do not share memory is assumed."
  },
  {
   "property": "C81",
   "status": "proved",
   "theorems": [
    "KS.Props.C81_clone",
    "KS.Props.C81_value"
   ],
   "note": "Lifetimes are not modelled; Clone of Cow, Vec and BTreeMap is that of std."
  }
 ]
}