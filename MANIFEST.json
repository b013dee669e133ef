{
 "claims": [
  {
   "property": "C01",
   "status": "proved",
   "theorems": [
    "C01_text_slice",
    "C01_text_slice_str",
    "C01_text_slice_step"
   ],
   "note": ""
  },
  {
   "property": "C02",
   "status": "proved",
   "theorems": [
    "C02_pair_index"
   ],
   "note": ""
  },
  {
   "property": "C03",
   "status": "partial",
   "theorems": [
    "C03_span_slice",
    "C03_pair_escapes",
    "C03_pair_wraps",
    "C03_span_pair_partial"
   ],
   "note": "slice form proved in full; the pair form escapes the span (C03_pair_escapes), proved for in-range pairs only"
  },
  {
   "property": "C04",
   "status": "partial",
   "theorems": [
    "C04_out_of_range_leaks",
    "C04_not_full",
    "C04_span_index_partial"
   ],
   "note": "in-range indices proved; out of range indices are not rejected by the code (C04_not_full)"
  },
  {
   "property": "C05",
   "status": "proved",
   "theorems": [
    "C05_covered_by",
    "C05_intersected_by",
    "C05_intersected_symm",
    "C05_covered_order",
    "C05_overloads"
   ],
   "note": ""
  },
  {
   "property": "C06",
   "status": "partial",
   "theorems": [
    "C06_both_ends",
    "C06_trim_partial",
    "C06_trim_twice"
   ],
   "note": "one trim() leaves trailing whitespace when there was leading whitespace (C06_both_ends); what it does is characterised exactly, and trimming twice meets the property"
  },
  {
   "property": "C07",
   "status": "proved",
   "theorems": [
    "C07_compile_general",
    "C07_compile_lossless"
   ],
   "note": ""
  },
  {
   "property": "C08",
   "status": "partial",
   "theorems": [
    "C08_eq_hash_mismatch",
    "C08_eq_hash_partial",
    "C08_eq_meaning"
   ],
   "note": "equal spans of different texts hash differently (C08_eq_hash_mismatch); proved within one text"
  },
  {
   "property": "C09",
   "status": "proved",
   "theorems": [
    "C09_nodespan",
    "C09_nodespan_unset",
    "C09_span_to",
    "C09_span_to_reversed"
   ],
   "note": ""
  },
  {
   "property": "C10",
   "status": "proved",
   "theorems": [
    "C10_layer_is_list",
    "C10_failed_retain_breaks",
    "C10_add_bound_breaks"
   ],
   "note": "the two side conditions are necessary: C10_failed_retain_breaks, C10_add_bound_breaks"
  },
  {
   "property": "C11",
   "status": "proved",
   "theorems": [
    "C11_len"
   ],
   "note": ""
  },
  {
   "property": "C12",
   "status": "proved",
   "theorems": [
    "C12_index",
    "C12_slice",
    "C12_slice_any",
    "C12_gap_is_visible"
   ],
   "note": "gaps are visible through layer[i] (C12_gap_is_visible); negative and missing bounds count from the number of slots (C12_slice_any)"
  },
  {
   "property": "C13",
   "status": "proved",
   "theorems": [
    "C13_neighbours",
    "C13_first_last"
   ],
   "note": ""
  },
  {
   "property": "C14",
   "status": "proved",
   "theorems": [
    "C14_len",
    "C14_nodespan",
    "C14_any_pair"
   ],
   "note": ""
  },
  {
   "property": "C15",
   "status": "proved",
   "theorems": [
    "C15_compact"
   ],
   "note": ""
  },
  {
   "property": "C16",
   "status": "partial",
   "theorems": [
    "C16_retain_partial",
    "C16_retain_fails_on_gaps"
   ],
   "note": "proved for layers without gaps; with gaps the code raises AttributeError and corrupts indices (C16_retain_fails_on_gaps)"
  },
  {
   "property": "C17",
   "status": "proved",
   "theorems": [
    "C17_attached"
   ],
   "note": ""
  },
  {
   "property": "C18",
   "status": "proved",
   "theorems": [
    "C18_sort"
   ],
   "note": ""
  },
  {
   "property": "C19",
   "status": "proved",
   "theorems": [
    "C19_gap_bound",
    "C19_gap_bound_single",
    "C19_raising_batch_not_bounded"
   ],
   "note": "a raising batch is not bounded (C19_raising_batch_not_bounded)"
  },
  {
   "property": "C20",
   "status": "partial",
   "theorems": [
    "C20_add",
    "C20_accepts",
    "C20_float_default_rejected",
    "C20_defaults_accepted_partial"
   ],
   "note": "validation, defaults and atomicity proved; that defaults alone are accepted fails for float64() (C20_float_default_rejected) and is proved for the other defaults"
  },
  {
   "property": "C21",
   "status": "proved",
   "theorems": [
    "C21_generator",
    "C21_add_many",
    "C21_bound_refused",
    "C21_accepts",
    "C21_refused_batch_stays",
    "C21_generator_not_validated"
   ],
   "note": "a refused batch is not undone (C21_refused_batch_stays); a one-shot iterator escapes validation (C21_generator_not_validated), so the property is proved for lists"
  },
  {
   "property": "C22",
   "status": "proved",
   "theorems": [
    "C22_add_field",
    "C22_remove_field",
    "C22_add_remove",
    "C22_declared_refused",
    "C22_undeclared_remove"
   ],
   "note": "a declared field is refused with TypeError instead of the documented SchemaValidationError"
  },
  {
   "property": "C23",
   "status": "partial",
   "theorems": [
    "C23_bool",
    "C23_valid_iff_partial",
    "C23_nodespan_many",
    "C23_string_with_default_unchecked",
    "C23_bool_with_default_unchecked",
    "C23_full_false"
   ],
   "note": "False as stated: types with a string or bool default are not checked at all (C23_full_false, C23_string_with_default_unchecked, C23_bool_with_default_unchecked). C23_valid_iff_partial for all types of the factories that check, with lists for noderef_many; C23_nodespan_many for NodeSpans given to noderef_many."
  },
  {
   "property": "C24",
   "status": "partial",
   "theorems": [
    "C24_cast_up",
    "C24_possible",
    "C24_merge",
    "C24_order_independent",
    "C24_nodelist_type_lost",
    "C24_nodelist_partial"
   ],
   "note": "merging proved in full; NodeList loses the merged type (C24_nodelist_type_lost)"
  },
  {
   "property": "C25",
   "status": "partial",
   "theorems": [
    "C25_del",
    "C25_referenced_refused_partial",
    "C25_removes",
    "C25_absent",
    "C25_nodespan_reference_ignored",
    "C25_cascade_leaves_field"
   ],
   "note": "node span references are ignored, cascade leaves the fields, the result is None: C25_nodespan_reference_ignored, C25_cascade_leaves_field"
  },
  {
   "property": "C26",
   "status": "proved",
   "theorems": [
    "C26_schema_error",
    "C26_undeclared"
   ],
   "note": ""
  },
  {
   "property": "C27",
   "status": "proved",
   "theorems": [
    "C27_offsets",
    "C27_ends",
    "C27_inverse"
   ],
   "note": ""
  },
  {
   "property": "C28",
   "status": "proved",
   "theorems": [
    "C28_compile_pure",
    "C28_encode_pure"
   ],
   "note": ""
  },
  {
   "property": "C29",
   "status": "proved",
   "theorems": [
    "C29_round_trip"
   ],
   "note": "observable equality is Spec.SameDoc; valid documents are Spec.Encodable (no ext fields, no None in a span field, options not named self/typename)"
  },
  {
   "property": "C30",
   "status": "proved",
   "theorems": [
    "C30_unpack_pack",
    "C30_truncated",
    "C30_prefix_free",
    "C30_sequence",
    "C30_packs"
   ],
   "note": ""
  },
  {
   "property": "C31",
   "status": "proved",
   "theorems": [
    "C31_round_trip",
    "C31_encodes"
   ],
   "note": "valid documents as in C29; C31_encodes gives the size limits under which bytes are written at all"
  },
  {
   "property": "C32",
   "status": "proved",
   "theorems": [
    "C32_stable_data",
    "C32_twice_data",
    "C32_stable",
    "C32_twice"
   ],
   "note": ""
  },
  {
   "property": "C33",
   "status": "proved",
   "theorems": [
    "C33_lazy"
   ],
   "note": ""
  },
  {
   "property": "C34",
   "status": "proved",
   "theorems": [
    "C34_block_file_magic",
    "C34_block_file_refused",
    "C34_foreign_refused",
    "C34_accepted"
   ],
   "note": "MessagePack documents (DM_1), the two reading routes, and block files (Dmf1)."
  },
  {
   "property": "C35",
   "status": "partial",
   "theorems": [
    "C35_properties_partial",
    "C35_texts_always_empty",
    "C35_all_layers_partial",
    "C35_some_layers_raise"
   ],
   "note": "properties proved; texts(*names) is always empty (C35_texts_always_empty) and document(*layers) raises KeyError unless all layers are named (C35_some_layers_raise)"
  },
  {
   "property": "C36",
   "status": "partial",
   "theorems": [
    "C36_document",
    "C36_bytes_partial",
    "C36_reference_lost",
    "C36_of_document"
   ],
   "note": "Document proved; a restored MsgpackDocument keeps its bytes but loses its reference (C36_reference_lost)"
  },
  {
   "property": "C37",
   "status": "partial",
   "theorems": [
    "C37_replaced_layer_redirects",
    "C37_replaced_text_redirects",
    "C37_removed_node_redirects",
    "C37_decoded_removed_node_redirects",
    "C37_full_false",
    "C37_validated_partial",
    "C37_noderef_index",
    "C37_nodes_index",
    "C37_nodespan_index",
    "C37_span_index"
   ],
   "note": "encoding silently redirects references: C37_replaced_layer_redirects, C37_replaced_text_redirects, C37_removed_node_redirects (validation off), C37_decoded_removed_node_redirects (decoded documents, validation on). Proved under NoImpostors/RefsChecked; indices written for resolving references are proved right in general"
  },
  {
   "property": "C38",
   "status": "proved",
   "theorems": [
    "C38_layout",
    "C38_length",
    "C38_chunks"
   ],
   "note": ""
  },
  {
   "property": "C39",
   "status": "proved",
   "theorems": [
    "C39_blocks",
    "C39_markers"
   ],
   "note": ""
  },
  {
   "property": "C40",
   "status": "proved",
   "theorems": [
    "C40_translation",
    "C40_increasing",
    "C40_tell",
    "C40_tell_before_marker"
   ],
   "note": ""
  },
  {
   "property": "C41",
   "status": "partial",
   "theorems": [
    "C41_reads_partial",
    "C41_small_partial",
    "C41_all_partial",
    "C41_fails_at_end",
    "C41_fails_inside",
    "C41_full_fails"
   ],
   "note": "The full statement fails: reads that stop exactly at the end of a segment raise AssertionError, and the initial guess is wrong near the start of later segments; both proved with witnesses. The partial theorems cover all other reads."
  },
  {
   "property": "C42",
   "status": "proved",
   "theorems": [
    "C42_round_trip",
    "C42_boundary",
    "C42_builtin_codecs",
    "C42_register",
    "C42_documents"
   ],
   "note": ""
  },
  {
   "property": "C43",
   "status": "partial",
   "theorems": [
    "C43_references_partial",
    "C43_interleaved_blocks_fail"
   ],
   "note": "False as stated: readblock() in the middle of next() gives wrong references (C43_interleaved_blocks_fail). C43_references_partial: all interleavings of next() and get(), and the references of blocks()/documents()."
  },
  {
   "property": "C44",
   "status": "proved",
   "theorems": [
    "C44_truncated"
   ],
   "note": ""
  },
  {
   "property": "C45",
   "status": "proved",
   "theorems": [
    "C45_search",
    "C45_no_conditions",
    "C45_unhashable",
    "C45_build",
    "C45_relative_path",
    "C45_files",
    "C45_other_directory_fails"
   ],
   "note": "Single files in full; several files when the working directory is the base path (C45_other_directory_fails shows that it is needed)."
  },
  {
   "property": "C46",
   "status": "proved",
   "theorems": [
    "C46_block_sizes",
    "C46_failed_flush_grows"
   ],
   "note": "C46_failed_flush_grows shows that the no-failed-flush hypothesis is needed."
  },
  {
   "property": "C47",
   "status": "proved",
   "theorems": [
    "C47_round_trip",
    "C47_names",
    "C47_names_sorted",
    "C47_names_sorted_fails"
   ],
   "note": "The tar container is a list of members; sizes and headers are not modelled."
  },
  {
   "property": "C48",
   "status": "proved",
   "theorems": [
    "C48_bfs"
   ],
   "note": ""
  },
  {
   "property": "C49",
   "status": "proved",
   "theorems": [
    "C49_dfs"
   ],
   "note": ""
  },
  {
   "property": "C50",
   "status": "partial",
   "theorems": [
    "C50_dfs_leaves",
    "C50_tree_partial",
    "C50_cycle_fails",
    "C50_sharing_fails"
   ],
   "note": "violated on cyclic and on shared graphs (C50_cycle_fails, C50_sharing_fails); exact description of what is yielded on every finite graph (C50_dfs_leaves), the property itself on trees (C50_tree_partial)"
  },
  {
   "property": "C51",
   "status": "partial",
   "theorems": [
    "C51_single",
    "C51_refused",
    "C51_several_partial",
    "C51_shadow_fails"
   ],
   "note": "proved for one property; violated when two given properties are set (C51_shadow_fails); proved for several properties when only the last is set"
  },
  {
   "property": "C52",
   "status": "proved",
   "theorems": [
    "C52_group_by_span",
    "C52_duplicate_fails"
   ],
   "note": "The group nodes and the nodes of each layer are taken as distinct; C52_duplicate_fails shows a node given twice raises KeyError. The order inside a bucket is not claimed: the code iterates a set."
  },
  {
   "property": "C53",
   "status": "proved",
   "theorems": [
    "C53_dominant_right",
    "C53_dominant_right_span"
   ],
   "note": ""
  },
  {
   "property": "C54",
   "status": "proved",
   "theorems": [
    "C54_translate",
    "C54_raises_otherwise",
    "C54_empty_interval_fails"
   ],
   "note": "C54_translate is the full positive statement, C54_raises_otherwise its converse. Mapping intervals are taken nonempty; C54_empty_interval_fails shows an empty mapping interval makes later ones raise."
  },
  {
   "property": "C55",
   "status": "proved",
   "theorems": [
    "C55_textspans",
    "C55_greedy",
    "C55_negative_start_fails"
   ],
   "note": "Token windows have nonnegative offsets; C55_negative_start_fails shows a negative start gives a wrong window."
  },
  {
   "property": "C56",
   "status": "proved",
   "theorems": [
    "C56_meaning",
    "C56_short_circuit",
    "C56_selections",
    "C56_eq",
    "C56_eq_float",
    "C56_order",
    "C56_order_complement",
    "C56_is_none",
    "C56_span_predicates",
    "C56_is_any",
    "C56_is_any_text_fails"
   ],
   "note": "NodeSpan, ExtData and dict values compare by identity and are left out (unmodelled). is_any agrees with == for values other than spans, lists and floats; C56_is_any_text_fails shows that it does not for the text of a span."
  },
  {
   "property": "C57",
   "status": "proved",
   "theorems": [
    "C57_query",
    "C57_collections",
    "C57_snapshot",
    "C57_update",
    "C57_stale_inner_fails"
   ],
   "note": "Predicates that raise make the query raise; C57_stale_inner_fails shows that update() of a query on a query reads the inner query's stored nodes."
  },
  {
   "property": "C58",
   "status": "partial",
   "theorems": [
    "C58_truncate_partial",
    "C58_no_display_fails",
    "C58_fraction_fails",
    "C58_max_columns_getter_fails"
   ],
   "note": "Violated when max_display_width is None (TypeError, C58_no_display_fails) and for fractional widths between 6 and 7 (C58_fraction_fails); proved for every other combination of settings."
  },
  {
   "property": "C59",
   "status": "proved",
   "theorems": [
    "C59_rows",
    "C59_succeeds",
    "C59_text",
    "C59_build"
   ],
   "note": "For any row formatter, so for text and HTML."
  },
  {
   "property": "C60",
   "status": "partial",
   "theorems": [
    "C60_columns_partial",
    "C60_short_row",
    "C60_once",
    "C60_line_width",
    "C60_too_wide_fails"
   ],
   "note": "Violated: a block keeps the column that exceeds max_display_width (C60_too_wide_fails; C60_columns_partial shows that every block but the last is too wide). Proved: termination, consecutive blocks, every column once, in order, exact lines and widths, and that without its last column a block fits. A shown row with fewer values than the header raises IndexError (C60_short_row)."
  },
  {
   "property": "C61",
   "status": "partial",
   "theorems": [
    "C61_escape",
    "C61_cell",
    "C61_table_partial",
    "C61_text_partial",
    "C61_text_name_fails",
    "C61_index_fails",
    "C61_wikipedia_fails"
   ],
   "note": "A small tokenizer with character references is the specification. Proved for all tables; violated for the name of a Text (C61_text_name_fails) and for a row index supplied by the caller (C61_index_fails). C61_wikipedia_fails: urn:wikipedia:x raises IndexError."
  },
  {
   "property": "C62",
   "status": "partial",
   "theorems": [
    "C62_allowed",
    "C62_length",
    "C62_unchanged_partial",
    "C62_astral_fails"
   ],
   "note": "Only allowed characters, same length, idempotent, allowed BMP characters kept. Allowed characters beyond U+FFFF are replaced by a space (C62_astral_fails: the regular expression is written with five- and six-digit \\u escapes)."
  },
  {
   "property": "C63",
   "status": "partial",
   "theorems": [
    "C63_tree_partial",
    "C63_recover",
    "C63_ids",
    "C63_verbose",
    "C63_binary_fails",
    "C63_verbose_spans_fails",
    "C63_id_field_fails",
    "C63_text_char_fails"
   ],
   "note": "The tree of every valid document without binary data shows properties, schemas, segments, every field of every node; values recoverable; xml:ids unique. Binary data and verbose_node_spans make the export fail (witnesses); a field named like xml:id is overwritten; texts are not cleaned. Float and object printing are parameters."
  },
  {
   "property": "C64",
   "status": "partial",
   "theorems": [
    "C64_types_partial",
    "C64_names_distinct",
    "C64_injective",
    "C64_option_typename_raises"
   ],
   "note": "False as stated: an option named self or typename makes decoding raise (C64_option_typename_raises). C64_types_partial for all other option names."
  },
  {
   "property": "C65",
   "status": "proved",
   "theorems": [
    "C65_round_trip",
    "C65_injective",
    "C65_bytes_raise",
    "C65_printable",
    "C65_truncated"
   ],
   "note": "json is part of the standard library: modelled from its documented grammar and pure Python sources. The decimal form of finite floats is a parameter assumed exact (Spec.FloatsExact). NaNs other than float('nan') are excluded."
  },
  {
   "property": "C66",
   "status": "proved",
   "theorems": [
    "C66_round_trip",
    "C66_stable",
    "C66_codecs_agree",
    "C66_truncated",
    "C66_bytes_refused",
    "C66_foreign",
    "C66_texts_present"
   ],
   "note": "For documents without bytes (Spec.JsonDoc); documents with bytes in a field are refused (C66_bytes_refused). Floats as in C65."
  },
  {
   "property": "C67",
   "status": "partial",
   "theorems": [
    "C67_types_partial",
    "C67_accepts",
    "C67_elements",
    "C67_column",
    "C67_layer",
    "C67_numeric_type_lost",
    "C67_types_full_false"
   ],
   "note": "elements, columns and refusals proved in full; a field with several numeric types gets no type at all (C67_numeric_type_lost), so types are proved for fields with one type name"
  },
  {
   "property": "C68",
   "status": "partial",
   "theorems": [
    "C68_add_text",
    "C68_maintext_once",
    "C68_maintext_partial",
    "C68_add_text_replaces_main",
    "C68_maintext_full_false",
    "C68_add_layer",
    "C68_contains"
   ],
   "note": "the setter refuses a second main text, but add_text('main', ...) replaces it (C68_add_text_replaces_main); no other call does"
  },
  {
   "property": "C69",
   "status": "proved",
   "theorems": [
    "C69_add",
    "C69_set"
   ],
   "note": ""
  },
  {
   "property": "C70",
   "status": "partial",
   "theorems": [
    "C70_showable",
    "C70_shows",
    "C70_caption",
    "C70_layer_prints",
    "C70_layer_partial",
    "C70_list",
    "C70_query",
    "C70_node",
    "C70_html",
    "C70_no_link",
    "C70_repr_plain",
    "C70_repr_injective",
    "C70_span_partial",
    "C70_dangling_fails",
    "C70_percent_fails",
    "C70_span_numbers_fail",
    "C70_layer_full_false"
   ],
   "note": "tables, cells, HTML and quoting proved in full, and exactly which layers print; a layer that refers to a removed node does not print (C70_dangling_fails), nor one with '%' in its name (C70_percent_fails), and rows of a node span behind a gap carry wrong numbers (C70_span_numbers_fail)"
  },
  {
   "property": "C71",
   "status": "partial",
   "theorems": [
    "C71_round_trip_partial",
    "C71_encode_pure",
    "C71_decode_twice",
    "C71_ext_data",
    "C71_ext_data_odd",
    "C71_ext_field_fails",
    "C71_full_false",
    "C71_type"
   ],
   "note": "embedding and ExtData proved in full; a document in which a layer declares an extended field cannot be encoded at all (C71_ext_field_fails, C71_full_false: the codec has no encoder for the type)"
  },
  {
   "property": "C72",
   "status": "partial",
   "theorems": [
    "C72_names",
    "C72_search_partial",
    "C72_order",
    "C72_builds",
    "C72_ignores",
    "C72_all_or_nothing",
    "C72_dotted_left_out"
   ],
   "note": "proved for files whose stem has no dot; files such as news.2019.docria are skipped without a word (C72_dotted_left_out). Processes are modelled as an order of completion."
  },
  {
   "property": "C73",
   "status": "partial",
   "theorems": [
    "C73_get_prop",
    "C73_chain",
    "C73_chain_raises",
    "C73_fld",
    "C73_is_valid",
    "C73_is_valid_partial",
    "C73_layer_getitem",
    "C73_query_field_partial",
    "C73_query_of_query_fails",
    "C73_full_false",
    "C73_wrong_kind_raises"
   ],
   "note": "all proved, is_valid() for nodes of a layer with values of the right kind in reference fields: it raises AttributeError for a node of no layer (C73_full_false) and for e.g. None or an int in a noderef or nodespan field (C73_wrong_kind_raises); query[name] only for queries of a layer, others raise AttributeError (C73_query_of_query_fails)"
  },
  {
   "property": "C74",
   "status": "partial",
   "theorems": [
    "C74_frame_partial",
    "C74_unknown",
    "C74_ref_lost",
    "C74_none_is_text",
    "C74_full_false"
   ],
   "note": "proved for layers without a field called __ref, whose values are lost (C74_ref_lost, C74_full_false), and, where spans are materialised, with spans in span fields: None becomes the text None (C74_none_is_text). A data frame is the dict of its columns."
  },
  {
   "property": "C75",
   "status": "partial",
   "theorems": [
    "C75_repr",
    "C75_printschema",
    "C75_unknown_type",
    "C75_str_partial",
    "C75_str_fails"
   ],
   "note": "str() proved for all options but a column width without display width (C75_str_fails); repr() and printschema in full, for values whose str() is modelled; a field of unknown type does not print (C75_unknown_type)"
  },
  {
   "property": "C76",
   "status": "partial",
   "theorems": [
    "C76_same_file",
    "C76_refuses",
    "C76_layout",
    "C76_byte_partial",
    "C76_byte_lost",
    "C76_full_false"
   ],
   "note": "array writes and splits in full; write(int) loses the last byte before a marker (C76_byte_lost, C76_full_false), proved for all other bytes"
  },
  {
   "property": "C77",
   "status": "partial",
   "theorems": [
    "C77_reads_partial",
    "C77_hangs",
    "C77_full_false",
    "C77_skip_uncounted",
    "C77_skip_full_false",
    "C77_available_partial",
    "C77_available_marker",
    "C77_available_over"
   ],
   "note": "read() and read(byte[],int,int) in full except over a stream that answers 0 to an empty read at its end when the file ends exactly where a marker would begin: there the loop never ends (C77_hangs, C77_full_false). skip does not count what it skips (C77_skip_uncounted, C77_skip_full_false). available counts later markers when the next thing is a marker (C77_available_over)"
  },
  {
   "property": "C78",
   "status": "partial",
   "theorems": [
    "C78_length_partial",
    "C78_from_zero",
    "C78_full_false"
   ],
   "note": "proved for positions other than 0 and outside markers; from 0 three bytes are missing (C78_from_zero, C78_full_false)"
  },
  {
   "property": "C79",
   "status": "partial",
   "theorems": [
    "C79_buffer",
    "C79_size_zero",
    "C79_deflate_partial",
    "C79_truncated_hangs",
    "C79_full_false"
   ],
   "note": "buffers of any size but 0, where array writes never return (C79_size_zero); the codec for complete input: decompress never returns on input that ends too early (C79_truncated_hangs, C79_full_false)"
  },
  {
   "property": "C80",
   "status": "partial",
   "theorems": [
    "C80_same_file_partial",
    "C80_writes",
    "C80_python_reads_partial",
    "C80_empty_lost",
    "C80_full_false",
    "C80_splits_partial",
    "C80_first_block_fails"
   ],
   "note": "proved for files with at least one document: closed without one, the header stays in the packer and the file cannot be opened (C80_empty_lost, C80_full_false); splits in front of all blocks but the first (C80_first_block_fails)"
  },
  {
   "property": "C81",
   "status": "partial",
   "theorems": [
    "C81_reads",
    "C81_python_files",
    "C81_codecs",
    "C81_java_files",
    "C81_skip_block",
    "C81_streams_partial",
    "C81_mixed_fails",
    "C81_codecfn_fails",
    "C81_full_false",
    "C81_skip_differs"
   ],
   "note": "next, skip, skip(n), count, skipBlock and nextBlock each in full; after nextBlock, next and skip raise (C81_mixed_fails, C81_full_false); skip(n) then skipBlock leaves out another block than n times skip (C81_skip_differs); a reader given a codec function opens no file (C81_codecfn_fails)"
  },
  {
   "property": "C82",
   "status": "partial",
   "theorems": [
    "C82_reads",
    "C82_alone_partial",
    "C82_block_lost",
    "C82_empty_given",
    "C82_full_false"
   ],
   "note": "every block is taken from the file by exactly one thread (C82_reads), and one thread at a time gets all of them; but block is shared, so two threads can get the same block while another is lost (C82_block_lost) or get an empty one (C82_empty_given, C82_full_false)"
  },
  {
   "property": "C83",
   "status": "partial",
   "theorems": [
    "C83_sequence_partial",
    "C83_nodespan",
    "C83_sort",
    "C83_retain_partial",
    "C83_node_lost",
    "C83_node_doubled_lost",
    "C83_id_over",
    "C83_clear_raises",
    "C83_sort_removal_lost",
    "C83_retain_false",
    "C83_full_false",
    "C83_build_partial"
   ],
   "note": "proved for calls where add and clear happen when no slot is empty, in particular for all additions before removals. Otherwise nodes are lost (C83_node_lost, C83_full_false), doubled, get ids outside the layer (C83_id_over), clear raises (C83_clear_raises); sort leaves ids (C83_sort_removal_lost); retainAll for collections without the node in slot 0, else C83_retain_false"
  },
  {
   "property": "C84",
   "status": "partial",
   "theorems": [
    "C84_compile",
    "C84_compile_any",
    "C84_span",
    "C84_sequence_partial",
    "C84_stale_lost",
    "C84_full_false",
    "C84_end_refused_over",
    "C84_python",
    "C84_surrogates_split_lost",
    "C84_set_text",
    "C84_set_text_fails"
   ],
   "note": "proved if every span given to a compile was made after the compile before or was given to that one too. Otherwise its border numbers are stale (C84_stale_lost, C84_full_false). The empty span at the end is refused, unlike in Python (C84_end_refused_over); borders inside surrogate pairs give parts that are no Unicode strings (C84_surrogates_split_lost)"
  },
  {
   "property": "C85",
   "status": "partial",
   "theorems": [
    "C85_str",
    "C85_charAt",
    "C85_subSequence_partial",
    "C85_before_given",
    "C85_covers",
    "C85_intersects_partial",
    "C85_touching_differs",
    "C85_compareTo",
    "C85_equals_partial",
    "C85_equals_differs",
    "C85_full_false"
   ],
   "note": "subSequence with a negative start reads before the span (C85_before_given); touching spans intersect, unlike in Python (C85_touching_differs); equal ends of spans that skipped a compile may be unequal (C85_equals_differs, C85_full_false)"
  },
  {
   "property": "C86",
   "status": "partial",
   "theorems": [
    "C86_stale_span_differs",
    "C86_nodespan_fails",
    "C86_sound",
    "C86_add_text",
    "C86_insert",
    "C86_remove_kept",
    "C86_remove_full_false",
    "C86_remove_text_partial",
    "C86_remove_text_refused",
    "C86_validate_partial",
    "C86_validate_full_false",
    "C86_add_layer",
    "C86_remove_layer_partial"
   ],
   "note": "soundness, adding: proved, if spans are put into fields before the next encode; otherwise they are written wrongly (C86_stale_span_differs). Removing: the text or layer always stays (C86_remove_kept, C86_remove_full_false); what happens to the fields is in C86_remove_text_partial and C86_remove_text_refused. validateSchema does not look at node spans (C86_validate_full_false, C86_nodespan_fails)"
  },
  {
   "property": "C87",
   "status": "proved",
   "theorems": [
    "C87_java_to_python",
    "C87_keeps",
    "C87_surrogate_lost",
    "C87_null_span_fails",
    "C87_undeclared_lost"
   ],
   "note": "Good excludes types the format does not have (nil) and fields that are not declared; the latter are dropped silently (C87_undeclared_lost). A span border inside a surrogate pair (C87_surrogate_lost) and a NullValue in a span field (C87_null_span_fails) are no content. Values in extended fields: C101"
  },
  {
   "property": "C88",
   "status": "partial",
   "theorems": [
    "C88_content",
    "C88_python_to_java_partial",
    "C88_readable",
    "C88_full_false",
    "C88_large_property_wraps"
   ],
   "note": "proved for contents that the Java decoder can read (JavaReadable; C88_readable gives it from conditions on the Python document). Refuted otherwise: bytes in fields and nested properties raise (C88_full_false), properties from 2^63 wrap (C88_large_property_wraps)"
  },
  {
   "property": "C89",
   "status": "partial",
   "theorems": [
    "C89_java_to_java_partial",
    "C89_full_false",
    "C89_null_property_fails"
   ],
   "note": "proved for contents that the Java decoder can read. Refuted otherwise: bytes in fields raise (C89_full_false), as do NullValue properties (C89_null_property_fails)"
  },
  {
   "property": "C90",
   "status": "proved",
   "theorems": [
    "C90_python_reads",
    "C90_java_edits",
    "C90_java_edits_java",
    "C90_passed"
   ],
   "note": "C90_passed, with C90_python_reads, C90_java_edits and C90_java_edits_java for single passes. The content must be one the Java decoder can read (JavaReadable, see C88). The Java decoder doubles the Offset of an empty text; this is harmless (C84_compile_any)"
  },
  {
   "property": "C91",
   "status": "proved",
   "theorems": [
    "C91_group_by_span",
    "C91_calls",
    "C91_layers",
    "C91_builder_ignores_field",
    "C91_duplicate"
   ],
   "note": "C91_group_by_span, C91_calls, C91_layers. Findings: C91_builder_ignores_field (builder(nodes, field) groups by \"text\"), C91_duplicate (a group node given twice)"
  },
  {
   "property": "C92",
   "status": "partial",
   "theorems": [
    "C92_dominant_right_partial",
    "C92_nested_partial",
    "C92_full_false",
    "C92_nodes_partial",
    "C92_nodespans_partial",
    "C92_unset"
   ],
   "note": "False as stated: C92_full_false, a segment that overlaps nothing is lost, because the end of an earlier unselected segment opens that one again. C92_dominant_right_partial (also for nodes and node spans) adds that reason: a longer segment ended before and was not selected; C92_nested_partial: the selection of Python if overlapping segments are nested. C92_unset: a node without the field is NullPointerException"
  },
  {
   "property": "C93",
   "status": "partial",
   "theorems": [
    "C93_header",
    "C93_compartments_partial",
    "C93_no_layers",
    "C93_rebuilt_unreadable",
    "C93_error_once",
    "C93_full_false"
   ],
   "note": "False as stated: C93_full_false, the compartment for layers is that of the first layer only. C93_compartments_partial for documents with layers: all of it, with the rest of the file, which is empty iff there is one layer. C93_no_layers: without layers the first call of each getter fails, the next calls do not. C93_rebuilt_unreadable: the constructor with four compartments leaves out the header. C93_error_once: a fault of the file is reported once only"
  },
  {
   "property": "C94",
   "status": "partial",
   "theorems": [
    "C94_transport",
    "C94_sequence",
    "C94_set",
    "C94_get_document",
    "C94_get_blob",
    "C94_calls",
    "C94_edit_partial",
    "C94_edit_lost",
    "C94_full_false"
   ],
   "note": "False as stated: C94_full_false, changes of a document whose file is known are not written (C94_edit_lost, in general). C94_edit_partial: changes of a document that was set, before its file is made, are. The rest is proved: C94_transport, C94_sequence, C94_get_document, C94_get_blob, C94_calls"
  },
  {
   "property": "C95",
   "status": "partial",
   "theorems": [
    "C95_round_trip_partial",
    "C95_writes",
    "C95_contents_partial",
    "C95_nothing_lost",
    "C95_full_false",
    "C95_close"
   ],
   "note": "False for a task that writes nothing: C95_full_false and C95_nothing_lost. C95_round_trip_partial and C95_contents_partial for one document and more, C95_writes that writing succeeds"
  },
  {
   "property": "C96",
   "status": "partial",
   "theorems": [
    "C96_valid",
    "C96_content",
    "C96_put",
    "C96_builder_partial",
    "C96_python_reads_partial",
    "C96_java_reads_partial",
    "C96_list_fails",
    "C96_span_fails",
    "C96_full_false"
   ],
   "note": "False as stated: C96_full_false; a list of nodes of two layers and a NodeSpan over two layers pass the builder (C96_list_fails, C96_span_fails). C96_builder_partial, C96_python_reads_partial, C96_java_reads_partial if the nodes given for one field are of one layer. C96_put is the acceptance of a value. C96_python_reads_partial is for documents that declare no extended field (see C101)"
  },
  {
   "property": "C97",
   "status": "partial",
   "theorems": [
    "C97_missing",
    "C97_put_get",
    "C97_same",
    "C97_parse",
    "C97_parse_span",
    "C97_print",
    "C97_widen",
    "C97_exact",
    "C97_nearest",
    "C97_narrow",
    "C97_truncate",
    "C97_base64",
    "C97_bool_string",
    "C97_nodespan_string",
    "C97_nodespan_nodes",
    "C97_bool_partial",
    "C97_double_bool",
    "C97_double_fails",
    "C97_full_false",
    "C97_nodespan_value"
   ],
   "note": "False as stated: DoubleValue.boolValue is true near zero (C97_double_fails, C97_double_bool) and DoubleValue.stringValue is null (C97_full_false). C97_bool_partial for the other values. The rest is proved: C97_put_get, C97_missing, C97_same, C97_parse, C97_parse_span, C97_print, C97_widen, C97_exact, C97_nearest, C97_narrow, C97_truncate, C97_base64, C97_bool_string, C97_nodespan_string, C97_nodespan_nodes (layers without gaps)"
  },
  {
   "property": "C98",
   "status": "partial",
   "theorems": [
    "C98_put",
    "C98_puts",
    "C98_setData",
    "C98_get",
    "C98_has",
    "C98_remove",
    "C98_default",
    "C98_forEach_partial",
    "C98_node_partial",
    "C98_addField",
    "C98_plain",
    "C98_node_false",
    "C98_reference_refused",
    "C98_reference_read",
    "C98_reference_invented",
    "C98_reference_missing",
    "C98_reference_plain",
    "C98_full_false"
   ],
   "note": "False as stated (C98_full_false; C98_node_false: for every class with a field): has is always true for a field of the class, remove leaves it, the default is always taken (C98_has, C98_remove, C98_default); a missing reference reads as the first node or fails (C98_reference_invented, C98_reference_missing, C98_reference_refused). C98_node_partial and C98_forEach_partial are what holds; C98_plain: all of it for a class without fields"
  },
  {
   "property": "C99",
   "status": "partial",
   "theorems": [
    "C99_refl",
    "C99_symm",
    "C99_trans",
    "C99_hash",
    "C99_values",
    "C99_types",
    "C99_texts",
    "C99_spans_partial",
    "C99_spans_cover",
    "C99_nodes_partial",
    "C99_sequence_partial",
    "C99_layers",
    "C99_answers",
    "C99_hash_fails",
    "C99_map_partial",
    "C99_add_partial",
    "C99_span_partial",
    "C99_moved_lost",
    "C99_compact_lost",
    "C99_compiled_lost",
    "C99_nodes_over",
    "C99_again_over",
    "C99_arrays_differ",
    "C99_spans_differ",
    "C99_removed_fails",
    "C99_full_false",
    "C99_hash_codes"
   ],
   "note": "False as stated (C99_full_false): two nodes of a layer can be equal (C99_nodes_over, C99_again_over), arrays and spans of nodes and extension values are equal only to themselves (C99_arrays_differ), spans that cover the same can differ (C99_spans_differ, C85_equals_differs), and compaction and compile change hash codes so that maps lose their keys (C99_moved_lost, C99_compiled_lost); removed nodes have no hash code (C99_removed_fails). The contract itself holds (C99_refl, C99_symm, C99_trans, C99_hash)"
  },
  {
   "property": "C100",
   "status": "partial",
   "theorems": [
    "C100_shared",
    "C100_refused",
    "C100_built",
    "C100_built_type",
    "C100_apart_partial",
    "C100_fields",
    "C100_document",
    "C100_schema_partial",
    "C100_schemas",
    "C100_copy",
    "C100_add",
    "C100_add_layer",
    "C100_schema_fails",
    "C100_remove_field_partial",
    "C100_values_left",
    "C100_late_fails",
    "C100_argument_fails",
    "C100_full_false"
   ],
   "note": "False as stated (C100_full_false): `build()` hands over the map of the builder, and documents share the Schema.Layers of the Schema they are made from, so everything from one builder has the same fields at all times (C100_shared, C100_late_fails, C100_argument_fails); removing a field in one document leaves the values in the others (C100_values_left); `Document.add(Layer)` does not tell the Schema (C100_schema_fails). What comes from different builders is independent (C100_apart_partial), and the Schema is right if only Schema.Layers are added (C100_schema_partial)"
  },
  {
   "property": "C101",
   "status": "partial",
   "theorems": [
    "C101_nested",
    "C101_readable_partial",
    "C101_other_types_fail",
    "C101_same",
    "C101_java_keeps",
    "C101_not_written_back",
    "C101_full_false",
    "C101_java_type"
   ],
   "note": "False as stated (C101_full_false): a value of any extended type other than \"doc\" makes Python's decoder fail with AttributeError (C101_other_types_fail), as it asks the bytes for an attribute `data`. A file is read if and only if all extended values are of type \"doc\" and can be read themselves (C101_readable_partial), then with all content (C101_nested). Python cannot write a document with an extended field again (C101_not_written_back). In Java values keep type and bytes (C101_java_keeps) if they were of the type of the field; otherwise they change to it (C101_java_type)"
  },
  {
   "property": "C102",
   "status": "partial",
   "theorems": [
    "C102_same",
    "C102_converted",
    "C102_columns",
    "C102_int_text",
    "C102_refused_partial",
    "C102_decoded_converts",
    "C102_full_false"
   ],
   "note": "False as stated (C102_full_false): decoded documents have types that check nothing, so 3.7 in a field of 32-bit integers is written as 3, and a Node in a field of NodeSpans as the span between its neighbours (C102_decoded_converts). Encoding does exactly what it would do with the converted value in place (C102_same); whenever it works, all values are of the declared type or convertible (C102_converted), and what is written is of the kind of the column (C102_columns). With types that check, and validation, values of other types are refused, apart from bools for integers (C102_refused_partial)"
  },
  {
   "property": "C103",
   "status": "partial",
   "theorems": [
    "C103_remove",
    "C103_remove_partial",
    "C103_generator",
    "C103_gaps_hidden",
    "C103_set_fields",
    "C103_add_forever",
    "C103_none_given",
    "C103_full_false"
   ],
   "note": "False as stated (C103_full_false): removing all of 20 nodes in a loop leaves six, since the layer is compacted after six removals and the loop skips six nodes. What holds for every layer is C103_remove; C103_remove_partial gives the stated result where the layer is not compacted. Filtering iterators never give None (C103_gaps_hidden), but a loop over a layer without gaps can (C103_none_given)"
  },
  {
   "property": "C104",
   "status": "proved",
   "theorems": [
    "C104_more",
    "C104_more_refused",
    "C104_java_more",
    "C104_cut",
    "C104_cut_from_java",
    "C104_java_cut",
    "C104_java_cut_from_python",
    "C104_lazy_more",
    "C104_lazy_cut",
    "C104_debug",
    "C104_debug_cut",
    "C104_debug_no_check"
   ],
   "note": "The Java half is for documents that the Java decoder can read (as C88, C89) and of less than 2 GiB"
  },
  {
   "property": "C105",
   "status": "partial",
   "theorems": [
    "C105_sound_partial",
    "C105_read",
    "C105_ends",
    "C105_once",
    "C105_raise",
    "C105_twice",
    "C105_remove",
    "C105_remove_partial",
    "C105_remove_every_false",
    "C105_remove_all_false",
    "C105_remove_all_partial",
    "C105_copy",
    "C105_add",
    "C105_clear",
    "C105_removeIf",
    "C105_full_false",
    "C105_removed_node_seen"
   ],
   "note": "A loop that removes nodes from a layer of more than 16 slots skips nodes (C105_remove_every_false, C105_remove_all_false, C105_full_false); proved what it does exactly, and when it removes all"
  },
  {
   "property": "C106",
   "status": "partial",
   "theorems": [
    "C106_closed",
    "C106_keeps_partial",
    "C106_with_partial",
    "C106_frozen",
    "C106_close_twice",
    "C106_late_write",
    "C106_crash",
    "C106_buffered",
    "C106_missing",
    "C106_exclusive",
    "C106_others",
    "C106_append",
    "C106_late_write_false",
    "C106_failed_write_false",
    "C106_flush_false",
    "C106_failed_open"
   ],
   "note": "Documents written after close() are lost and those of a failing compression are kept (C106_late_write_false, C106_failed_write_false), flush() does not reach the disk (C106_buffered, C106_flush_false); the rest is proved, for sessions whose compressions succeed and that write nothing after close()"
  },
  {
   "property": "C107",
   "status": "partial",
   "theorems": [
    "C107_header",
    "C107_reads_partial",
    "C107_skip_block",
    "C107_streams",
    "C107_python_files",
    "C107_java_files",
    "C107_skip_fails",
    "C107_full_false"
   ],
   "note": "skip(n) for exactly the documents before the cut raises (C107_skip_fails, C107_full_false); the rest is proved. Nothing is said of a reader after it has raised"
  },
  {
   "property": "C108",
   "status": "partial",
   "theorems": [
    "C108_write",
    "C108_write_iff",
    "C108_write_inj",
    "C108_read",
    "C108_text_partial",
    "C108_name_fails",
    "C108_colon_fails",
    "C108_xmlns_fails",
    "C108_brace_fails",
    "C108_inject_fails",
    "C108_char_fails",
    "C108_crlf_fails",
    "C108_full_false"
   ],
   "note": "documents with names or characters that XML does not allow (C108_name_fails, C108_colon_fails, C108_xmlns_fails, C108_brace_fails, C108_inject_fails, C108_char_fails, C108_full_false); all others are proved, and for trees without names in braces the condition is shown to be necessary (C108_write_iff)"
  },
  {
   "property": "C109",
   "status": "partial",
   "theorems": [
    "C109_closed_partial",
    "C109_lag",
    "C109_first_exception",
    "C109_failed_open",
    "C109_failed_block",
    "C109_frozen",
    "C109_close_twice",
    "C109_late_write_false",
    "C109_retry_false",
    "C109_mixture_false",
    "C109_full_false"
   ],
   "note": "sessions that go on after an exception of the stream (C109_retry_false, C109_mixture_false, C109_failed_block, C109_full_false), documents after close() (C109_late_write_false), sessions without a document (C80_empty_lost). Proved: all sessions up to and including the first exception of the stream"
  },
  {
   "property": "C110",
   "status": "partial",
   "theorems": [
    "C110_closed_partial",
    "C110_all_or_nothing",
    "C110_lag",
    "C110_first_exception",
    "C110_failed_open",
    "C110_failed_block",
    "C110_frozen",
    "C110_close_twice",
    "C110_late_write_false",
    "C110_short_lost",
    "C110_stays_open",
    "C110_recovers",
    "C110_retry_false",
    "C110_short_false",
    "C110_full_false"
   ],
   "note": "file objects that write less than they are given (C110_short_lost, C110_short_false, C110_full_false), sessions that go on after an exception of a file object that has written a part (C110_retry_false), or go on with write only (C110_failed_block), documents after close() (C110_late_write_false). Proved: all sessions up to and including the first exception of the file object, and all sessions whatever on one that has written nothing when it raises"
  },
  {
   "property": "C111",
   "status": "partial",
   "theorems": [
    "C111_chunks",
    "C111_small",
    "C111_written_partial",
    "C111_large_block_lost",
    "C111_large_document_lost",
    "C111_short_magic_false",
    "C111_no_tell_false",
    "C111_empty_read_lost",
    "C111_full_false"
   ],
   "note": "file objects whose first read returns fewer than four bytes (C111_short_magic_false, C111_full_false), without a position (C111_no_tell_false), that return nothing although the file goes on (C111_empty_read_lost); blocks and documents larger than the buffer (C111_large_block_lost, C111_large_document_lost). Proved: all files, whatever is in them, on all other file objects, up to the first object that is too large"
  },
  {
   "property": "C112",
   "status": "partial",
   "theorems": [
    "C112_nothing_partial",
    "C112_first_exception",
    "C112_position_lost",
    "C112_part_false",
    "C112_full_false",
    "C112_retry_false"
   ],
   "note": "file objects that raise after some bytes or write short (C112_part_false, C112_full_false; C112_position_lost: for good); C112_retry_false: a document writer on a boundary writer duplicates a beginning of the block that it writes again. Proved: all file objects that write nothing when they raise, and all that do not write short up to and including the first exception"
  },
  {
   "property": "C113",
   "status": "partial",
   "theorems": [
    "C113_reads_partial",
    "C113_one_segment_partial",
    "C113_seek_partial",
    "C113_marker_false",
    "C113_after_false",
    "C113_behind_false",
    "C113_full_false"
   ],
   "note": "parts that end before or within a marker (C113_marker_false, C113_full_false, C113_after_false) or shortly behind one (C113_behind_false). Proved: all other parts, all files of one segment, recovery by seek"
  },
  {
   "property": "C114",
   "status": "partial",
   "theorems": [
    "C114_payload_partial",
    "C114_written_partial",
    "C114_end_false",
    "C114_open_false",
    "C114_full_false"
   ],
   "note": "files that end where the next marker would be (C114_open_false, C114_end_false, C114_full_false); boundaries above 20, files of more than 2^b / 4 segments or larger than the unpacker's buffer are not covered"
  }
 ]
}