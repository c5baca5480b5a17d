{
 "claims": [
  {
   "property": "C01",
   "status": "proved",
   "theorems": [
    "Verif.Props.C01_lexing_lossless"
   ],
   "note": ""
  },
  {
   "property": "C02",
   "status": "proved",
   "theorems": [
    "Verif.Props.C02_lexing_contiguous_and_terminates",
    "Verif.Props.C02_single_call"
   ],
   "note": ""
  },
  {
   "property": "C03",
   "status": "proved",
   "theorems": [
    "Verif.Props.C03_lexemes_are_utf8"
   ],
   "note": ""
  },
  {
   "property": "C04",
   "status": "proved",
   "theorems": [
    "Verif.Props.C04_line_and_column"
   ],
   "note": "A lone carriage return also ends a line for line_of; the theorem covers every location with no carriage return between it and the end of its line."
  },
  {
   "property": "C05",
   "status": "partial",
   "theorems": [
    "Verif.Props.C05_includes_are_inserted_text",
    "Verif.Props.C05_end_of_document_violated",
    "Verif.Props.C05_peek_partial",
    "Verif.Props.C05_source_count_violated"
   ],
   "note": "Token delivery, byte skipping and blank line skipping are proved to read the flat text for every history of includes with fewer than 65535 sources. Violated for look-ahead: peek/is_eof only look one source up, so the end of the document is reported early when an included file ends with an include (C05_end_of_document_violated); C05_peek_partial proves the rest. The 65536th source panics (C05_source_count_violated)."
  },
  {
   "property": "C06",
   "status": "proved",
   "theorems": [
    "Verif.Props.C06_include_depth_bounded"
   ],
   "note": "Also a bound on the total number of includes."
  },
  {
   "property": "C07",
   "status": "partial",
   "theorems": [
    "Verif.Props.C07_skips_to_own_endif_partial",
    "Verif.Props.C07_nested_ifeval_violated",
    "Verif.Props.C07_one_line_conditional_violated",
    "Verif.Props.C07_quoted_directive_violated"
   ],
   "note": "Proved for bodies made of text and ifdef/ifndef blocks of any nesting; violated for nested ifeval, one-line conditionals and directives mentioned inside a text line (C07_*_violated)."
  },
  {
   "property": "C08",
   "status": "partial",
   "theorems": [
    "Verif.Props.C08_ifdef_any_all_partial",
    "Verif.Props.C08_ifndef_plus_violated"
   ],
   "note": "ifdef with commas/plus and ifndef with commas proved; ifndef with + violated (C08_ifndef_plus_violated)."
  },
  {
   "property": "C09",
   "status": "partial",
   "theorems": [
    "Verif.Props.C09_well_nested_document_partial",
    "Verif.Props.C09_nested_endif_violated",
    "Verif.Props.C09_stray_endif_violated"
   ],
   "note": "Delivery without diagnostics proved for Doc.Supported documents; the stack of open conditionals is never popped, so named endifs of outer blocks are rejected and stray endifs accepted (C09_*_violated)."
  },
  {
   "property": "C10",
   "status": "partial",
   "theorems": [
    "Verif.Props.C10_comparisons_follow_order_partial",
    "Verif.Props.C10_operator_spelling",
    "Verif.Props.C10_ne_negates_eq_partial",
    "Verif.Props.C10_bool_and_nil_partial",
    "Verif.Props.C10_mixed_types_violated",
    "Verif.Props.C10_nil_asymmetric_violated",
    "Verif.Props.C10_lone_quote_violated",
    "Verif.Props.C10_coerce_total_partial",
    "Verif.Props.C10_quoted_string",
    "Verif.Props.C10_integers"
   ],
   "note": "Same-type operands proved; mixed types and empty operands violated; a lone quote panics (C10_*_violated)."
  },
  {
   "property": "C11",
   "status": "partial",
   "theorems": [
    "Verif.Props.C11_selects_requested_lines_partial",
    "Verif.Props.C11_trailing_newline_partial",
    "Verif.Props.C11_trailing_blank_line_violated",
    "Verif.Props.C11_invalid_ranges_violated"
   ],
   "note": "Proved for every list of ranges on files not ended by a newline, and on files ended by one when no range reaches past the last line. Violated: an open range adds a blank line for the final newline; a value without a valid range selects everything (C11_*_violated). A range ending at usize::MAX panics (modelled as none)."
  },
  {
   "property": "C12",
   "status": "partial",
   "theorems": [
    "Verif.Props.C12_selects_tagged_regions_partial",
    "Verif.Props.C12_unclosed_region_reported",
    "Verif.Props.C12_wildcards",
    "Verif.Props.C12_two_exclusions_violated",
    "Verif.Props.C12_inner_region_violated",
    "Verif.Props.C12_exclusion_first_violated",
    "Verif.Props.C12_trailing_blank_line_violated"
   ],
   "note": "Proved for every nesting of regions with requests a;b;.., !a;!b;.., a;!b (no a inside b) and the four wildcards. Violated for a;!b;!c, !b;a, and an a region inside a b region under a;!b (C12_*_violated). The directive recogniser is a parameter."
  },
  {
   "property": "C13",
   "status": "partial",
   "theorems": [
    "Verif.Props.C13_uniform_indentation_partial",
    "Verif.Props.C13_blank_line_violated",
    "Verif.Props.C13_trailing_spaces_violated",
    "Verif.Props.C13_mark_violated"
   ],
   "note": "Proved for texts of non-empty lines without left-out marks and without final newline. Violated for blank lines, final newline and marks (C13_*_violated)."
  },
  {
   "property": "C14",
   "status": "partial",
   "theorems": [
    "Verif.Props.C14_heading_level_partial",
    "Verif.Props.C14_clamped_between_violated",
    "Verif.Props.C14_nested_include_violated",
    "Verif.Props.C14_overflow_violated"
   ],
   "note": "holds when the sum of offsets stays in range and the include offset is not changed inside a nested include; otherwise violated (clamping between steps, nested include restores wrong offset, i8 overflow)"
  },
  {
   "property": "C15",
   "status": "partial",
   "theorems": [
    "Verif.Props.C15_secure_never_reads",
    "Verif.Props.C15_link_text_partial",
    "Verif.Props.C15_link_bracket_violated",
    "Verif.Props.C15_uri_needs_permission_partial",
    "Verif.Props.C15_permitted_uri_requested",
    "Verif.Props.C15_single_slash_uri_violated",
    "Verif.Props.C15_stdin_violated",
    "Verif.Props.C15_requested_path"
   ],
   "note": "secure mode: never calls the resolver (proved). Remote fetch permission holds unless the target is spelt with one slash (http:/host), which is requested without permission (violated). Link text proved for targets and attributes without further brackets, otherwise violated"
  },
  {
   "property": "C16",
   "status": "proved",
   "theorems": [
    "Verif.Props.C16_inside_base_dir",
    "Verif.Props.C16_included_text_inside_base_dir"
   ],
   "note": ""
  },
  {
   "property": "C17",
   "status": "proved",
   "theorems": [
    "Verif.Props.C17_secure_never_reads",
    "Verif.Props.C17_exact_requests"
   ],
   "note": ""
  },
  {
   "property": "C18",
   "status": "proved",
   "theorems": [
    "Verif.Props.C18_precedence",
    "Verif.Props.C18_doctype_flags"
   ],
   "note": "Whole history of job/header/body assignments; computed doctype flags stated separately."
  },
  {
   "property": "C19",
   "status": "partial",
   "theorems": [
    "Verif.Props.C19_readonly_fixed",
    "Verif.Props.C19_safe_mode_fixed",
    "Verif.Props.C19_doctype_violated"
   ],
   "note": "Read-only job attributes and the safe mode are fixed for every history. Violated for the document type itself: a header can change a doctype the job fixed read-only (C19_doctype_violated)."
  },
  {
   "property": "C20",
   "status": "proved",
   "theorems": [
    "Verif.Props.C20_rejected_unchanged",
    "Verif.Props.C20_rejections",
    "Verif.Props.C20_body_accepts_iff"
   ],
   "note": ""
  },
  {
   "property": "C21",
   "status": "proved",
   "theorems": [
    "Verif.Props.C21_title_switches_exclusive",
    "Verif.Props.C21_last_assignment_wins",
    "Verif.Props.C21_title_shown_as_asked"
   ],
   "note": ""
  },
  {
   "property": "C22",
   "status": "proved",
   "theorems": [
    "Verif.Props.C22_author_attributes",
    "Verif.Props.C22_adding_authors_succeeds"
   ],
   "note": "Names must be non-empty: Author::initials panics on an empty name (modelled as none)."
  },
  {
   "property": "C23",
   "status": "proved",
   "theorems": [
    "Verif.Props.C23_doctype_round_trip",
    "Verif.Props.C23_special_section_round_trip",
    "Verif.Props.C23_names_injective"
   ],
   "note": ""
  },
  {
   "property": "C24",
   "status": "partial",
   "theorems": [
    "Verif.Props.C24_truncate_violated",
    "Verif.Props.C24_truncate_then_len_panics",
    "Verif.Props.C24_deq_refines_list_partial"
   ],
   "note": "Deq refines a list for all operations except truncate when the front was advanced: truncate compares with the absolute position (C24_truncate_violated)."
  },
  {
   "property": "C25",
   "status": "partial",
   "theorems": [
    "Verif.Props.C25_insert_violated",
    "Verif.Props.C25_subs_attribute_violated",
    "Verif.Props.C25_append_violated",
    "Verif.Props.C25_append_panics",
    "Verif.Props.C25_step",
    "Verif.Props.C25_substitutions_consistent_partial",
    "Verif.Props.C25_subs_attribute_membership",
    "Verif.Props.C25_subs_attribute_order_partial",
    "Verif.Props.C25_normal_group_means_normal",
    "Verif.Props.C25_verbatim_group_violated"
   ],
   "note": "Holds for the operations other than the violated ones (C25_*_violated): insert/append do not maintain order/flags, subs=verbatim is not the verbatim group."
  },
  {
   "property": "C26",
   "status": "proved",
   "theorems": [
    "Verif.Props.C26_base64_round_trip",
    "Verif.Props.C26_base64_length",
    "Verif.Props.C26_base64_injective"
   ],
   "note": ""
  },
  {
   "property": "C27",
   "status": "partial",
   "theorems": [
    "Verif.Props.C27_print_parse_partial",
    "Verif.Props.C27_backslash_uri_violated",
    "Verif.Props.C27_trailing_backslash_violated",
    "Verif.Props.C27_join_components",
    "Verif.Props.C27_join_absolute_partial",
    "Verif.Props.C27_join_separator_violated",
    "Verif.Props.C27_pop",
    "Verif.Props.C27_pop_keeps_root_partial",
    "Verif.Props.C27_pop_drive_violated",
    "Verif.Props.C27_file_name",
    "Verif.Props.C27_file_name_violated",
    "Verif.Props.C27_dirname_unix_partial"
   ],
   "note": "round trip, join and pop hold except for backslash spellings, mixed separators and drive roots, which are violated"
  },
  {
   "property": "C28",
   "status": "partial",
   "theorems": [
    "Verif.Props.C28_uid_injective",
    "Verif.Props.C28_uid_fits",
    "Verif.Props.C28_multi_uid",
    "Verif.Props.C28_extend_covers_partial",
    "Verif.Props.C28_extend_sources_violated",
    "Verif.Props.C28_extend_fits",
    "Verif.Props.C28_spanning",
    "Verif.Props.C28_move",
    "Verif.Props.C28_steps",
    "Verif.Props.C28_shift",
    "Verif.Props.C28_coalesce"
   ],
   "note": "`SourceLocation::extend` keeps the source of the first location: merging locations of different sources gives a span that covers neither (C28_extend_sources_violated); within one source all claims hold"
  },
  {
   "property": "C29",
   "status": "partial",
   "theorems": [
    "Verif.Props.C29_take_returns_pushed",
    "Verif.Props.C29_nothing_lost",
    "Verif.Props.C29_trim_end_violated",
    "Verif.Props.C29_trim_end_partial",
    "Verif.Props.C29_location",
    "Verif.Props.C29_commit",
    "Verif.Props.C29_location_covers_text"
   ],
   "note": "trimming the end shortens the location by one position per character although positions count bytes (C29_trim_end_violated); holds for one-byte blanks and everything else"
  },
  {
   "property": "C30",
   "status": "partial",
   "theorems": [
    "Verif.Props.C30_fresh",
    "Verif.Props.C30_separator_violated",
    "Verif.Props.C30_allowed_characters",
    "Verif.Props.C30_document_unique",
    "Verif.Props.C30_custom_duplicate_violated",
    "Verif.Props.C30_anchor_duplicate_violated",
    "Verif.Props.C30_words",
    "Verif.Props.C30_tags_do_not_count"
   ],
   "note": "generated ids are pairwise distinct, but an author-given id or an inline anchor may coincide with a generated one, and an empty prefix with a non-ASCII separator panics (violation theorems)"
  },
  {
   "property": "C31",
   "status": "partial",
   "theorems": [
    "Verif.Props.C31_never_stops",
    "Verif.Props.C31_first_wins_partial",
    "Verif.Props.C31_last_heading_wins",
    "Verif.Props.C31_heading_overwrites_violated",
    "Verif.Props.C31_duplicates_reported",
    "Verif.Props.C31_strict_first_duplicate"
   ],
   "note": "section and part headings overwrite an existing anchor without diagnostics (C31_heading_overwrites_violated); for all other anchors the first wins"
  },
  {
   "property": "C32",
   "status": "partial",
   "theorems": [
    "Verif.Props.C32_default_never_fails_partial",
    "Verif.Props.C32_order",
    "Verif.Props.C32_mirrors_partial",
    "Verif.Props.C32_skip_panics_violated",
    "Verif.Props.C32_appendix_panics_violated",
    "Verif.Props.C32_preface_nests_violated"
   ],
   "note": "proved: never panics without a toc or with toclevels ≤ 2, any source; lists exactly the in-sequence sections of at most that depth in document order (any depth); in strict mode the table has the shape of the tree for every depth, articles and books without special sections. Violated: skipped level with toclevels ≥ 4 panics; book appendix at part level with toclevels ≥ 3 panics; chapters after a part-level preface are nested in it"
  },
  {
   "property": "C33",
   "status": "partial",
   "theorems": [
    "Verif.Props.C33_terminates",
    "Verif.Props.C33_deeper",
    "Verif.Props.C33_stepwise",
    "Verif.Props.C33_nothing_lost_partial",
    "Verif.Props.C33_book_prefix_partial",
    "Verif.Props.C33_book_no_loss_partial",
    "Verif.Props.C33_delimiter_drops_violated",
    "Verif.Props.C33_delimiter_complaint_violated",
    "Verif.Props.C33_book_part_lost_violated",
    "Verif.Props.C33_book_after_appendix_violated",
    "Verif.Props.C33_book_last_heading_violated"
   ],
   "note": "proved: parsing ends; every section contains deeper ones only; strict mode skips no level; articles lose nothing (strict, or no delimited blocks); books keep a prefix, and everything when they start with a heading and have no special sections and parts only if they start with one. Violated: headings in delimited blocks drop their chunk; books lose parts after chapters, content after a closing appendix, and a last heading without trailing blank line"
  },
  {
   "property": "C34",
   "status": "partial",
   "theorems": [
    "Verif.Props.C34_lists_match_partial",
    "Verif.Props.C34_automatic_numbers",
    "Verif.Props.C34_written_number",
    "Verif.Props.C34_violated_blocks",
    "Verif.Props.C34_violated_zero",
    "Verif.Props.C34_violated_sentinel",
    "Verif.Props.C34_violated_large",
    "Verif.Props.C34_stops"
   ],
   "note": "Proved for every document of verbatim blocks and callout lists with numbers 1..255. Violated: numbering goes on across blocks when no list stands between them, `<0>` collides with a sentinel, `<256>` counts as automatic; 255 overflows u8."
  },
  {
   "property": "C35",
   "status": "partial",
   "theorems": [
    "Verif.Props.C35_pieces_reproduce_list",
    "Verif.Props.C35_inline_pieces_reproduce_list",
    "Verif.Props.C35_split_at_top_level_commas_partial",
    "Verif.Props.C35_apostrophe_violated",
    "Verif.Props.C35_bracket_violated"
   ],
   "note": "Pieces always reproduce the list. Cuts are exactly the commas outside quotes unless a quoted string holds an odd number of the other mark which occurs again later, or a closing bracket is inside the list: C35_apostrophe_violated, C35_bracket_violated."
  },
  {
   "property": "C36",
   "status": "partial",
   "theorems": [
    "Verif.Props.C36_decision",
    "Verif.Props.C36_lists_closed",
    "Verif.Props.C36_parsing_ends",
    "Verif.Props.C36_nesting_partial",
    "Verif.Props.C36_nesting_unique",
    "Verif.Props.C36_violated_description",
    "Verif.Props.C36_violated_attached",
    "Verif.Props.C36_violated_definition",
    "Verif.Props.C36_violated_plus",
    "Verif.Props.C36_violated_enclosing",
    "Verif.Props.C36_depth_wraps"
   ],
   "note": "Decision, closing and termination for every document; nesting for documents of paragraphs and ordered, unordered and callout lists. It is violated with description lists (`* a / term:: / * b`), attached paragraphs (`* a / + / p / * b`), lines starting with `+`, and lists in attached delimited blocks: theorems C36_violated_*. List depth is recorded modulo 256."
  },
  {
   "property": "C37",
   "status": "partial",
   "theorems": [
    "Verif.Props.C37_all_kept",
    "Verif.Props.C37_first_returned_partial",
    "Verif.Props.C37_violated_inline"
   ],
   "note": "Not strict: all diagnostics are kept in order (proved without conditions). Strict: the first one is returned as the error, except inside the first paragraph of a document of type inline, where the code panics (C37_violated_inline)."
  },
  {
   "property": "C38",
   "status": "partial",
   "theorems": [
    "Verif.Props.C38_restored_partial",
    "Verif.Props.C38_macro_subs",
    "Verif.Props.C38_violated_many",
    "Verif.Props.C38_violated_neighbours",
    "Verif.Props.C38_violated_empty",
    "Verif.Props.C38_violated_own_line",
    "Verif.Props.C38_empty_line"
   ],
   "note": "Every passthrough of a paragraph written with text between one, two or three pluses and pass macros is found again in its place, with its lines of text and the substitutions it asks for (C38_restored_partial), and a macro's substitutions are those its target names (C38_macro_subs). The full claim is false of the code: passthrough 100001 stops the program (C38_violated_many), `++a++ ++b++` misses the second one (C38_violated_neighbours), `pass:[]` stops the program (C38_violated_empty), an end on a line of its own is left in the text (C38_violated_own_line). Not modelled: placeholders inside macro targets and attribute lists."
  },
  {
   "property": "C39",
   "status": "partial",
   "theorems": [
    "Verif.Props.C39_cell",
    "Verif.Props.C39_rows_partial",
    "Verif.Props.C39_implicit_partial",
    "Verif.Props.C39_ends_partial",
    "Verif.Props.C39_violated_endless",
    "Verif.Props.C39_violated_overshoot",
    "Verif.Props.C39_violated_copies",
    "Verif.Props.C39_violated_collision",
    "Verif.Props.C39_violated_first_row",
    "Verif.Props.C39_violated_incomplete",
    "Verif.Props.C39_violated_panic"
   ],
   "note": "Proved: any written cell is read back with its copies, spans, alignment, style and text; grids whose rows fill the declared (1..255) columns, with row spans contained and not starting in different rows for one row, are read back row by row; the same with columns counted from a one-line first row; with declared columns parsing ends for any tokens. Violated (witnesses): an empty table or `0+|a` never finishes; column spans overshoot a row; surplus copies make the next row too long; colliding row spans; implicit first row with a cell that spans both ways; incomplete last row kept; a copied literal cell in an implicit header panics. Not covered: 256 or more columns (truncated to u8), custom separators that are style letters."
  },
  {
   "property": "C40",
   "status": "partial",
   "theorems": [
    "Verif.Props.C40_columns_partial",
    "Verif.Props.C40_number",
    "Verif.Props.C40_malformed",
    "Verif.Props.C40_shares_partial",
    "Verif.Props.C40_violated_overflow",
    "Verif.Props.C40_violated_zero",
    "Verif.Props.C40_violated_wide",
    "Verif.Props.C40_violated_no_columns"
   ],
   "note": "Proved for multipliers from 1 up to the greatest i32, widths up to 255, and sums of widths up to 255 that are not all zero. Violated outside: widths that sum to more than 255 panic (`cols=\"100,100,100\"`), widths that are all zero print NaN, a width above 255 counts as 1, and `0*` is one column."
  },
  {
   "property": "C41",
   "status": "partial",
   "theorems": [
    "Verif.Props.C41_declared_partial",
    "Verif.Props.C41_counted_partial",
    "Verif.Props.C41_violated_first_line",
    "Verif.Props.C41_violated_blank_line",
    "Verif.Props.C41_violated_stray_quote",
    "Verif.Props.C41_violated_short",
    "Verif.Props.C41_violated_space",
    "Verif.Props.C41_violated_tab"
   ],
   "note": "Proved for declared columns and for columns counted from the first line, any separator, cell texts without white space around them (quoted ones may hold quotes, separators and line ends). Violated (witnesses): a quoted line end in the first line when columns are counted; a blank line at the end gives an extra row; short lines take cells from the next; white space around quoted text is trimmed; tab-separated tables lose an empty first cell and do not split at space-tab."
  },
  {
   "property": "C42",
   "status": "partial",
   "theorems": [
    "Verif.Props.C42_properly_nested_partial",
    "Verif.Props.C42_properly_nested_without_visible_terms",
    "Verif.Props.C42_nesting_violated",
    "Verif.Props.C42_no_panic",
    "Verif.Props.C42_texts_in_document_order",
    "Verif.Props.C42_leaves_in_document_order"
   ],
   "note": "False for visible index terms: enter_visible_index_term has no exit (C42_nesting_violated). Proved for every well-formed tree: nesting of all other calls, no panic, texts in document order."
  },
  {
   "property": "C43",
   "status": "partial",
   "theorems": [
    "Verif.Props.C43_balanced_partial",
    "Verif.Props.C43_nested_list_violated",
    "Verif.Props.C43_list_in_glossary_violated",
    "Verif.Props.C43_two_terms_violated",
    "Verif.Props.C43_no_description_violated",
    "Verif.Props.C43_no_answer_violated",
    "Verif.Props.C43_verse_violated",
    "Verif.Props.C43_preamble_toc_violated",
    "Verif.Props.C43_icons_violated",
    "Verif.Props.C43_header_cell_violated",
    "Verif.Props.C43_nested_cells_violated"
   ],
   "note": "Proved for all well-formed trees that are `Tidy`. Not proved for the rest because it is false there: nested description lists in horizontal or Q&A lists, horizontal lists in glossaries, two terms or no description in a horizontal item, no answer in a Q&A item, a verse with citation only, a table of contents in the preamble of an untitled embedded document, icons declared inside a callout list, literal or AsciiDoc cells in a header row, AsciiDoc cells in AsciiDoc cells. Each has a `_violated` theorem."
  },
  {
   "property": "C44",
   "status": "partial",
   "theorems": [
    "Verif.Props.C44_run_independent_of_bound",
    "Verif.Props.C44_terminates_partial",
    "Verif.Props.C44_terminates_acyclic_partial",
    "Verif.Props.C44_terminates_single_partial",
    "Verif.Props.C44_termination_violated",
    "Verif.Props.C44_first_reference_plain_partial",
    "Verif.Props.C44_plain_text_violated"
   ],
   "note": "False for anchor texts with two or more references on cycles (C44_termination_violated). Proved: termination when all references but the first of each anchor text can be ranked, in particular acyclic graphs and texts with at most one reference (any cycles); the first reference met while resolving is plain text, later ones are not (C44_plain_text_violated)."
  },
  {
   "property": "C45",
   "status": "proved",
   "theorems": [
    "Verif.Props.C45_xref_links_not_nested",
    "Verif.Props.C45_links_after_the_toc",
    "Verif.Props.C45_other_links_violated"
   ],
   "note": "for every document and all anchors; C45_other_links_violated shows that links made by other macros can still sit inside the link of a cross reference"
  },
  {
   "property": "C46",
   "status": "partial",
   "theorems": [
    "Verif.Props.C46_positions_partial",
    "Verif.Props.C46_book_partial",
    "Verif.Props.C46_first_appendix_partial",
    "Verif.Props.C46_letters_partial",
    "Verif.Props.C46_second_appendix_violated",
    "Verif.Props.C46_after_appendix_violated",
    "Verif.Props.C46_inside_unnumbered_violated",
    "Verif.Props.C46_after_z_violated"
   ],
   "note": "False of the code for subsections of the second and later appendices (lettered A again), sections after an appendix (restart at 1), numbered sections inside unnumbered ones and more than 26 appendices: *_violated theorems. Proved: positions for all trees of ordinary sections whose levels go down one at a time, parts and chapters of books, the first appendix with its subsections, and the letters of up to 26 appendices."
  },
  {
   "property": "C47",
   "status": "partial",
   "theorems": [
    "Verif.Props.C47_toc_matches_partial",
    "Verif.Props.C47_one_label_each",
    "Verif.Props.C47_macro_violated",
    "Verif.Props.C47_switched_violated",
    "Verif.Props.C47_preface_violated"
   ],
   "note": "False of the code when the TOC is placed by a macro after a section, when sectnums changes inside the body and for a level 0 special section in a book: *_violated theorems. Proved: for every tree with constant attributes, strictly increasing levels and appendices at listed levels, a TOC printed before the body shows exactly the body labels and leaves the counters unchanged."
  },
  {
   "property": "C48",
   "status": "partial",
   "theorems": [
    "Verif.Props.C48_numbers_partial",
    "Verif.Props.C48_forward_reference_violated",
    "Verif.Props.C48_footer_violated",
    "Verif.Props.C48_heading_violated",
    "Verif.Props.C48_hidden_title_violated"
   ],
   "note": "numbers, definitions and references for every document whose titles have a place and whose footnotes are not nested; violated by forward references, footnotes in headings listed in a table of contents, in a hidden document title and in a footer"
  },
  {
   "property": "C49",
   "status": "partial",
   "theorems": [
    "Verif.Props.C49_everything_in_its_place_partial",
    "Verif.Props.C49_texts_in_their_place_partial",
    "Verif.Props.C49_footnote_in_title_violated",
    "Verif.Props.C49_break_title_violated",
    "Verif.Props.C49_nested_footnote_violated"
   ],
   "note": "exact text of the page for every document whose titles have a place and whose footnotes are not nested, with or without cross references; violated by footnotes in block titles or in footnotes, and titles of blocks that do not show them"
  },
  {
   "property": "C50",
   "status": "partial",
   "theorems": [
    "Verif.Props.C50_no_raw",
    "Verif.Props.C50_amps_partial",
    "Verif.Props.C50_roundtrip_partial",
    "Verif.Props.C50_ascii_fits",
    "Verif.Props.C50_dropped_violated",
    "Verif.Props.C50_unanchored_violated",
    "Verif.Props.C50_long_ref_violated",
    "Verif.Props.C50_apostrophe_violated",
    "Verif.Props.C50_attribute_values_stay_inside",
    "Verif.Props.C50_url_encoding"
   ],
   "note": "no raw brackets/quotes for all texts; every ampersand starts a reference when `&#&#` does not occur; un-escaping restores the text when no six-byte window splits a character (always for ASCII), apostrophes in attributes come back curly. Violations: `&#123é` loses the ampersand, `&#&#1;` leaves a raw one, references longer than six bytes are double-escaped"
  },
  {
   "property": "C51",
   "status": "proved",
   "theorems": [
    "Verif.Props.C51_value",
    "Verif.Props.C51_injective",
    "Verif.Props.C51_range",
    "Verif.Props.C51_canonical"
   ],
   "note": "The roman crate is an external dependency that is not in the sandbox: its documented algorithm is modelled and is part of the trusted base."
  },
  {
   "property": "C52",
   "status": "partial",
   "theorems": [
    "Verif.Props.C52_captions_in_order_partial",
    "Verif.Props.C52_captions_consecutive_partial",
    "Verif.Props.C52_cells_violated"
   ],
   "note": "exact list of captions for every well-formed document without AsciiDoc table cells; inside such cells numbering restarts at 1 (C52_cells_violated)"
  },
  {
   "property": "C53",
   "status": "proved",
   "theorems": [
    "Verif.Props.C53_cell_attributes"
   ],
   "note": ""
  },
  {
   "property": "C54",
   "status": "proved",
   "theorems": [
    "Verif.Props.C54_raw_lines"
   ],
   "note": ""
  },
  {
   "property": "C55",
   "status": "partial",
   "theorems": [
    "Verif.Props.C55_shallow_include_violated",
    "Verif.Props.C55_chain_includes_accepted_partial"
   ],
   "note": "Violated with sibling includes: the check compares the source index, not the nesting (C55_shallow_include_violated); proved for chains."
  },
  {
   "property": "C56",
   "status": "partial",
   "theorems": [
    "Verif.Props.C56_ifdef_recognised_partial",
    "Verif.Props.C56_one_letter_name_violated",
    "Verif.Props.C56_ifdef_only",
    "Verif.Props.C56_endif_recognised"
   ],
   "note": "One-letter attribute names are not recognised (C56_one_letter_name_violated); everything else proved."
  },
  {
   "property": "C57",
   "status": "proved",
   "theorems": [
    "Verif.Props.C57_normalised_lines",
    "Verif.Props.C57_every_file_is_lines",
    "Verif.Props.C57_idempotent"
   ],
   "note": "For paths with an AsciiDoc extension; others are not normalised."
  },
  {
   "property": "C58",
   "status": "partial",
   "theorems": [
    "Verif.Props.C58_docinfo_remote_violated",
    "Verif.Props.C58_image_remote_violated",
    "Verif.Props.C58_image_needs_permission_partial",
    "Verif.Props.C58_docinfo_local_partial"
   ],
   "note": "violated for a docinfodir URL and for image targets spelt with one slash; proved otherwise"
  },
  {
   "property": "C59",
   "status": "partial",
   "theorems": [
    "Verif.Props.C59_docinfo_partial",
    "Verif.Props.C59_no_subs_partial",
    "Verif.Props.C59_both_files",
    "Verif.Props.C59_style_rule_violated",
    "Verif.Props.C59_comment_violated",
    "Verif.Props.C59_docinfo_newlines_violated",
    "Verif.Props.C59_docinfo_one_line_partial"
   ],
   "note": "`C59_docinfo_partial`: for every file and every setting the page gets the lines in order with exactly the substitutions asked for; missing: line ends, which the code loses (`C59_docinfo_newlines_violated`). Further violations: style rules without blanks are taken for references and dropped (`C59_style_rule_violated`), `replacements` breaks comments (`C59_comment_violated`)."
  },
  {
   "property": "C60",
   "status": "proved",
   "theorems": [
    "Verif.Props.C60_block_list_means_what_is_written",
    "Verif.Props.C60_macro_list_means_what_is_written",
    "Verif.Props.C60_compound_names",
    "Verif.Props.C60_second_id_is_reported"
   ],
   "note": "Values are the tokens handed to the inline parser; at most one id per list (a second one is a diagnostic)."
  },
  {
   "property": "C61",
   "status": "partial",
   "theorems": [
    "Verif.Props.C61_block_list_no_panic_partial",
    "Verif.Props.C61_macro_list_no_panic_partial",
    "Verif.Props.C61_formatted_text_violated"
   ],
   "note": "Proved for block lists, block macros and inline macros; formatted text panics on [id=]#x#, [role=\"\"]#x# and [.a,\"\",b]#x# (C61_formatted_text_violated)."
  },
  {
   "property": "C62",
   "status": "partial",
   "theorems": [
    "Verif.Props.C62_no_text_lost_partial",
    "Verif.Props.C62_condition",
    "Verif.Props.C62_violated"
   ],
   "note": "Proved for all documents without a list continuation line inside a delimited block. Violated otherwise: in `* a / + / ==== / x / + / y / ====` the text y disappears (parse_block.rs:397-405 drops the lines read in search of the closing delimiter)."
  },
  {
   "property": "C63",
   "status": "partial",
   "theorems": [
    "Verif.Props.C63_underline_partial",
    "Verif.Props.C63_violated_characters",
    "Verif.Props.C63_violated_line_number"
   ],
   "note": "Proved for lines of printable ASCII without trailing space and line numbers below 100000; the code misplaces the carets otherwise (C63_violated_characters, C63_violated_line_number)."
  },
  {
   "property": "C64",
   "status": "partial",
   "theorems": [
    "Verif.Props.C64_inline_parsing_ends",
    "Verif.Props.C64_no_panic_partial",
    "Verif.Props.C64_two_backslashes_violated",
    "Verif.Props.C64_scheme_at_end_violated",
    "Verif.Props.C64_mailto_violated",
    "Verif.Props.C64_bracket_in_anchor_violated",
    "Verif.Props.C64_empty_quotes_violated",
    "Verif.Props.C64_open_bracket_in_link_violated",
    "Verif.Props.C64_mailto_brackets_violated"
   ],
   "note": "termination holds for all inputs; the absence of panics is proved for text that meets `Safe` (links, cross references and footnotes with brackets included; no other macros with brackets, no index terms). Violated: two backslashes at the end of a line, a URL scheme at the end of a line, `mailto://`, an escaped bracket in an anchor text, a link with two quotes or an extra opening bracket in its brackets"
  },
  {
   "property": "C65",
   "status": "partial",
   "theorems": [
    "Verif.Props.C65_rendering_does_not_panic_partial",
    "Verif.Props.C65_footnote_in_title_violated",
    "Verif.Props.C65_image_in_title_violated",
    "Verif.Props.C65_unused_title_violated",
    "Verif.Props.C65_inline_document_violated",
    "Verif.Props.C65_hidden_document_title_violated",
    "Verif.Props.C65_nested_footnote_violated",
    "Verif.Props.C65_deep_section_violated",
    "Verif.Props.C65_short_menu_violated"
   ],
   "note": "Proved for all Renderable trees; each excluded shape has a C65_…_violated theorem that shows the panic."
  },
  {
   "property": "C66",
   "status": "partial",
   "theorems": [
    "Verif.Props.C66_tokens_are_kept_partial",
    "Verif.Props.C66_text_is_kept_partial",
    "Verif.Props.C66_comment_lines_partial",
    "Verif.Props.C66_comment_closes_phrase_violated",
    "Verif.Props.C66_moved_attributes_violated",
    "Verif.Props.C66_lost_after_bracket_violated",
    "Verif.Props.C66_three_dashes_violated",
    "Verif.Props.C66_unclosed_span"
   ],
   "note": "For ASCII text without comment lines, empty lines, `{`, `\\]` and an attribute list before a closing curly quote; at token level also with attribute references; for plain text also with comment lines anywhere. Violations proved: attribute list moved behind a closing curly quote, text lost after `\\]` in an anchor name, three dashes at a line end read as two, a mark in a comment line opens a phrase. Not covered: callouts, table cells, bracket macros, index terms."
  },
  {
   "property": "C67",
   "status": "partial",
   "theorems": [
    "Verif.Props.C67_phrases_are_recognised_partial",
    "Verif.Props.C67_no_phrases_without_formatting_partial",
    "Verif.Props.C67_other_marks_are_text_partial",
    "Verif.Props.C67_no_overlap_partial",
    "Verif.Props.C67_unconstrained_violated",
    "Verif.Props.C67_same_kind_violated",
    "Verif.Props.C67_mark_in_other_phrase_violated",
    "Verif.Props.C67_after_dot_violated",
    "Verif.Props.C67_digit_after_mark_violated",
    "Verif.Props.C67_mark_at_line_end_violated",
    "Verif.Props.C67_overlap_on_lines_violated"
   ],
   "note": "For constrained bold, italic, mono and highlight phrases, kinds not nested in themselves, text of letters, digits, spaces, line ends and `,.!?`; marks that do not stand as the language asks are text, phrases on one line do not overlap. Violations proved: `**b**` before a phrase that ends on a later line, a phrase inside a phrase of the same kind, a mark inside a phrase of another kind, a phrase after a dot, a digit after the closing mark, an opening mark at a line end, overlapping phrases on several lines. Not covered: superscript, subscript, quotes, attribute lists before a phrase."
  },
  {
   "property": "C68",
   "status": "partial",
   "theorems": [
    "Verif.Props.C68_references_are_replaced_partial",
    "Verif.Props.C68_values_are_marked_partial",
    "Verif.Props.C68_no_references_without_subs",
    "Verif.Props.C68_reading_ends_partial",
    "Verif.Props.C68_nested_reference_violated",
    "Verif.Props.C68_set_without_value_violated",
    "Verif.Props.C68_empty_value_violated",
    "Verif.Props.C68_self_reference_violated"
   ],
   "note": "Values are ASCII, not empty, without references and line ends; no line starts with a directive or an attribute entry. Violations proved: what follows a reference inside a value is lost, an attribute set without a value is shown as `{name}`, after an empty value marks of formatting are not recognised, reading a reference to an attribute that refers to itself never ends."
  },
  {
   "property": "C69",
   "status": "partial",
   "theorems": [
    "Verif.Props.C69_encodings_partial",
    "Verif.Props.C69_only_texts_partial",
    "Verif.Props.C69_mark_and_name_violated",
    "Verif.Props.C69_marked_invalid_violated",
    "Verif.Props.C69_odd_length_violated"
   ],
   "note": "Both directions proved for all texts and all bytes. Violated and excluded: a marked UTF-16 file whose directive names the encoding, bytes after a UTF-8 mark that are not UTF-8, an odd number of bytes of UTF-16."
  },
  {
   "property": "C70",
   "status": "partial",
   "theorems": [
    "Verif.Props.C70_tags_partial",
    "Verif.Props.C70_links_partial",
    "Verif.Props.C70_mail_links_partial",
    "Verif.Props.C70_alt_from_file",
    "Verif.Props.C70_images_partial",
    "Verif.Props.C70_role_violated",
    "Verif.Props.C70_target_violated",
    "Verif.Props.C70_nofollow_violated",
    "Verif.Props.C70_subject_violated",
    "Verif.Props.C70_image_violated"
   ],
   "note": "Any element, links, mail links and images are read with exactly the attributes they are given. The code writes roles, windows, link targets (quotes), subjects, bodies and image paths without escaping, so a quote there adds attributes (C70_role_violated, C70_target_violated, C70_subject_violated, C70_image_violated); nofollow is written into the window or dropped (C70_nofollow_violated). Missing: mail addresses without text but with attributes, alternative texts with markup, the special forms of images (svg, embedded data)."
  },
  {
   "property": "C71",
   "status": "partial",
   "theorems": [
    "Verif.Props.C71_links",
    "Verif.Props.C71_tags_partial",
    "Verif.Props.C71_reports_partial",
    "Verif.Props.C71_silence_partial",
    "Verif.Props.C71_missing_text",
    "Verif.Props.C71_quote_violated",
    "Verif.Props.C71_included_violated",
    "Verif.Props.C71_repeated_violated",
    "Verif.Props.C71_other_document_violated",
    "Verif.Props.C71_suffix_violated",
    "Verif.Props.C71_dot_violated",
    "Verif.Props.C71_self_violated",
    "Verif.Props.C71_files"
   ],
   "note": "Links proved for every well-formed reference; reports proved for anchors in documents without includes, for every order of the map. Violated: anchors in included files are reported as invalid, of several references with one name only the last is looked at, every reference to another document is reported, a path is matched with the end of a file name, a dot in an anchor makes a file of it in a macro, the name __self__ is never reported, targets are not escaped."
  },
  {
   "property": "C72",
   "status": "partial",
   "theorems": [
    "Verif.Props.C72_balanced_partial",
    "Verif.Props.C72_verse_violated",
    "Verif.Props.C72_callouts_after_figure_violated",
    "Verif.Props.C72_callouts_after_paragraph_violated",
    "Verif.Props.C72_header_cell_violated",
    "Verif.Props.C72_unused_title_violated",
    "Verif.Props.C72_nested_cells_violated"
   ],
   "note": "Proved for the documents `Fits` describes. For others it is false of the code, each with a theorem: a verse with a title (div closed as section), a callout list after a titled listing or after a paragraph (six bytes are cut off whatever they are), an unshown title in a preamble (buffers exchanged), a styled cell in a header row, a document in a cell of a document in a cell. Seen in the code and not modelled: part titles without id open with `<h1\">`, the text of an admonition caption is rendered twice, authors, revision and roles are written unescaped."
  },
  {
   "property": "C73",
   "status": "partial",
   "theorems": [
    "Verif.Props.C73_bare_urls_partial",
    "Verif.Props.C73_query_violated",
    "Verif.Props.C73_port_violated",
    "Verif.Props.C73_comma_violated",
    "Verif.Props.C73_closing_mark_violated"
   ],
   "note": "Proved for URLs of words, dots, slashes, dashes and the like between plain text. The code cuts a URL at ?, : and *, and takes a comma and closing marks with it (C73_query_violated, C73_port_violated, C73_comma_violated, C73_closing_mark_violated)."
  },
  {
   "property": "C74",
   "status": "partial",
   "theorems": [
    "Verif.Props.C74_header_partial",
    "Verif.Props.C74_no_header_partial",
    "Verif.Props.C74_body_starts_partial",
    "Verif.Props.C74_text_after_header_violated",
    "Verif.Props.C74_text_after_entry_violated",
    "Verif.Props.C74_comment_block_violated",
    "Verif.Props.C74_comment_after_title_violated"
   ],
   "note": "Proved when the chunk of the header holds nothing but the header and a comment block with an empty line in it ends its chunk. Violated otherwise: text directly after the header (`= Title`, `:foo: bar`, `- item`) is dropped, text after `[.role]`, `:foo: bar` is dropped, the title directly after a comment block that contains an empty line is dropped, an author after a comment line is dropped."
  },
  {
   "property": "C75",
   "status": "partial",
   "theorems": [
    "Verif.Props.C75_authors_partial",
    "Verif.Props.C75_no_panic",
    "Verif.Props.C75_reported",
    "Verif.Props.C75_one_name_violated",
    "Verif.Props.C75_hyphen_violated",
    "Verif.Props.C75_two_spaces_violated"
   ],
   "note": "Proved for last names of word characters (and spaces written as underscores), authors with at least two names, one character of white space between names when there is no middle name; no panic for all lines. Violated: `Bob` gives first name `Bo` and last name `b`; `Mary Smith-Jones` gets the middle name `Smith-`; two spaces give an empty middle name."
  },
  {
   "property": "C76",
   "status": "partial",
   "theorems": [
    "Verif.Props.C76_revision_partial",
    "Verif.Props.C76_only_version",
    "Verif.Props.C76_no_panic",
    "Verif.Props.C76_one_digit_violated"
   ],
   "note": "Proved for all versions with a date or a remark, and for `v` with a number of two or more characters; no panic for all lines. Violated for `v1`: the line is consumed and no revision number is set."
  },
  {
   "property": "C77",
   "status": "partial",
   "theorems": [
    "Verif.Props.C77_argument_partial",
    "Verif.Props.C77_no_panic",
    "Verif.Props.C77_space_violated",
    "Verif.Props.C77_empty_value_violated",
    "Verif.Props.C77_no_name_violated",
    "Verif.Props.C77_ats_violated",
    "Verif.Props.C77_line_break_violated"
   ],
   "note": "Proved for all documented forms; no panic for all arguments. Violated: `my attr=x` sets `my`, `name=` sets true, `=x` sets `x`, `name=a@@` loses both signs, a value is cut at a line break."
  },
  {
   "property": "C78",
   "status": "partial",
   "theorems": [
    "Verif.Props.C78_no_panic_partial",
    "Verif.Props.C78_keys_partial",
    "Verif.Props.C78_button_partial",
    "Verif.Props.C78_menu_partial",
    "Verif.Props.C78_shown_partial",
    "Verif.Props.C78_two_words_violated",
    "Verif.Props.C78_first_bracket_violated",
    "Verif.Props.C78_button_bracket_violated",
    "Verif.Props.C78_button_target_violated",
    "Verif.Props.C78_menu_alone_violated",
    "Verif.Props.C78_markup_violated"
   ],
   "note": "Proved for texts without an escaped bracket at the start of kbd or anywhere in btn and menu, keys without white space, and texts without `<`; the other cases are the `_violated` theorems."
  },
  {
   "property": "C79",
   "status": "partial",
   "theorems": [
    "Verif.Props.C79_entries_partial",
    "Verif.Props.C79_one_line_partial",
    "Verif.Props.C79_only_entries",
    "Verif.Props.C79_no_panic_partial",
    "Verif.Props.C79_continued_at_the_end_violated",
    "Verif.Props.C79_shortest_violated",
    "Verif.Props.C79_crlf_violated",
    "Verif.Props.C79_no_space_violated",
    "Verif.Props.C79_unset_with_value_violated",
    "Verif.Props.C79_conditional_violated",
    "Verif.Props.C79_entity_partial"
   ],
   "note": "Proved for entries over any number of lines, without carriage returns when there are several lines, without `pass:` (except for decimal character references). The converse is proved for all texts. The other cases are `_violated` theorems."
  },
  {
   "property": "C80",
   "status": "partial",
   "theorems": [
    "Verif.Props.C80_references_partial",
    "Verif.Props.C80_missing_violated",
    "Verif.Props.C80_case_violated",
    "Verif.Props.C80_escape_violated"
   ],
   "note": "Proved for values on one line whose references are set. References to attributes that are not set, with capital letters, or escaped: `_violated` theorems."
  },
  {
   "property": "C81",
   "status": "partial",
   "theorems": [
    "Verif.Props.C81_author_partial",
    "Verif.Props.C81_one_name_violated",
    "Verif.Props.C81_no_panic_partial",
    "Verif.Props.C81_missing_names_violated"
   ],
   "note": "Proved for two words or more. A single word and names from missing attributes (a panic): `_violated` theorems."
  },
  {
   "property": "C82",
   "status": "partial",
   "theorems": [
    "Verif.Props.C82_conditionals_in_texts_partial",
    "Verif.Props.C82_no_conditional_is_text",
    "Verif.Props.C82_directive_inside_a_line_violated",
    "Verif.Props.C82_no_final_line_end_violated",
    "Verif.Props.C82_spaces_in_brackets_violated",
    "Verif.Props.C82_operator_in_quotes_violated"
   ],
   "note": "Proved for the conditionals of C09, comparisons of two numbers or two quoted texts without operator characters on the left, texts without attribute references, entries and names of directives; lines that start like a conditional but are not written as one are text (C82_no_conditional_is_text). Violated: C82_no_final_line_end_violated, C82_spaces_in_brackets_violated, C82_operator_in_quotes_violated, C82_directive_inside_a_line_violated."
  },
  {
   "property": "C83",
   "status": "proved",
   "theorems": [
    "Verif.Props.C83_tokens_stay_in_their_line"
   ],
   "note": ""
  },
  {
   "property": "C84",
   "status": "partial",
   "theorems": [
    "Verif.Props.C84_address_is_link_partial",
    "Verif.Props.C84_what_is_an_address",
    "Verif.Props.C84_text_is_kept",
    "Verif.Props.C84_only_addresses",
    "Verif.Props.C84_ellipsis",
    "Verif.Props.C84_full_stop_violated",
    "Verif.Props.C84_closing_mark_violated",
    "Verif.Props.C84_hyphen_violated",
    "Verif.Props.C84_upper_case_violated",
    "Verif.Props.C84_number_violated",
    "Verif.Props.C84_digits_first_violated"
   ],
   "note": "Proved for every line of plain text with an address whose name ends with a word that starts with a letter. Missing, because the code does something else: a full stop or mark right after the address, hyphens, upper case, user names that end in a bare number or start with digits at the line start. Plus signs and other formatting in the line are not covered."
  },
  {
   "property": "C85",
   "status": "partial",
   "theorems": [
    "Verif.Props.C85_block_lines_partial",
    "Verif.Props.C85_white_line_violated",
    "Verif.Props.C85_backticks_violated"
   ],
   "note": "Proved for every listing, literal and passthrough block at the start of a source, with lines free of attribute references and directives. The property fails for lines with white space only (the first one after a line of text is lost) and for a line of three backticks with something after them (C85_white_line_violated, C85_backticks_violated)."
  },
  {
   "property": "C86",
   "status": "partial",
   "theorems": [
    "Verif.Props.C86_block_indent_partial",
    "Verif.Props.C86_empty_line_violated",
    "Verif.Props.C86_text_after_violated",
    "Verif.Props.C86_tabs_violated",
    "Verif.Props.C86_locations"
   ],
   "note": "the content of blocks without empty lines and tabulators that are followed by an empty line or the end, and (C86_locations) where the tokens of moved lines stand in the source; missing: blocks with empty lines, with tabulators, and followed by text, for which it is false (C86_…_violated)"
  },
  {
   "property": "C87",
   "status": "proved",
   "theorems": [
    "Verif.Props.C87_reports",
    "Verif.Props.C87_strict",
    "Verif.Props.C87_strict_accepts"
   ],
   "note": "Headings, paragraphs and delimiters are abstract items (how lines become items is modelled elsewhere: C30, C41, C85). The statement is about parses that end with a result: the parser panics on some books (see C33 and the table of contents), and then there is nothing to compare."
  },
  {
   "property": "C88",
   "status": "proved",
   "theorems": [
    "Verif.Props.C88_headings",
    "Verif.Props.C88_level",
    "Verif.Props.C88_levels_violated"
   ],
   "note": "both directions, for every line. The level is a u8: C88_levels_violated shows what happens with 257 marks, and that seven marks are a heading"
  },
  {
   "property": "C89",
   "status": "partial",
   "theorems": [
    "Verif.Props.C89_lists_partial",
    "Verif.Props.C89_only_items",
    "Verif.Props.C89_items_missed_violated",
    "Verif.Props.C89_items_made_up_violated"
   ],
   "note": "lists and paragraphs of source texts; missing: description lists, continuations, attribute lists and delimited blocks between items, lines with attribute references or e-mail addresses. `C89_items_missed_violated` and `C89_items_made_up_violated` show lines the code gets wrong"
  },
  {
   "property": "C90",
   "status": "proved",
   "theorems": [
    "Verif.Props.C90_comments_and_titles",
    "Verif.Props.C90_breaks",
    "Verif.Props.C90_break_is_item_violated"
   ],
   "note": "both directions, for every line. `C90_break_is_item_violated`: lists are looked for before breaks, and `***` with two blanks after it is both"
  },
  {
   "property": "C91",
   "status": "partial",
   "theorems": [
    "Verif.Props.C91_outline",
    "Verif.Props.C91_strict",
    "Verif.Props.C91_rendered",
    "Verif.Props.C91_deep_heading_panics",
    "Verif.Props.C91_deep_heading_violated",
    "Verif.Props.C91_seventh_heading_violated"
   ],
   "note": "C91_outline, C91_strict, C91_rendered: texts of headings and paragraphs (lines of text that start with a letter), no document header, attributes or block attribute lists, doctype article. The rendering claim is false for deeper headings: a section of level 7 (`========`), which strict mode accepts, makes the asciidoctor HTML backend panic (C91_deep_heading_panics, C91_deep_heading_violated), and level 6 gives an `h7` element (C91_seventh_heading_violated)."
  },
  {
   "property": "C92",
   "status": "partial",
   "theorems": [
    "Verif.Props.C92_scheme",
    "Verif.Props.C92_service_partial",
    "Verif.Props.C92_audio_partial",
    "Verif.Props.C92_file_partial",
    "Verif.Props.C92_quote_violated",
    "Verif.Props.C92_twice_violated"
   ],
   "note": "Proved for targets and attributes without `\"`, `&`, `#`, `?`, which are written unescaped (C92_quote_violated); each parameter once unless asked for in two ways (C92_twice_violated)."
  },
  {
   "property": "C93",
   "status": "partial",
   "theorems": [
    "Verif.Props.C93_url_text_partial",
    "Verif.Props.C93_link_text_partial",
    "Verif.Props.C93_notes_partial",
    "Verif.Props.C93_far_bracket_violated",
    "Verif.Props.C93_line_end_violated",
    "Verif.Props.C93_phrase_leaves_bracket_violated",
    "Verif.Props.C93_brackets_in_text_violated",
    "Verif.Props.C93_phrase_forgotten_violated",
    "Verif.Props.C93_slashes_violated",
    "Verif.Props.C93_equals_partial"
   ],
   "note": "token level: one line, plain text around the macro; text of links with nested phrases, or plain text in double quotes with equal signs (C93_equals_partial); text of cross references and footnotes plain; violated for URLs before a later bracket, at line ends, for phrases over the bracket, for texts with two slashes"
  },
  {
   "property": "C94",
   "status": "partial",
   "theorems": [
    "Verif.Props.C94_paragraphs_partial",
    "Verif.Props.C94_empty_label_violated",
    "Verif.Props.C94_indented_label_violated",
    "Verif.Props.C94_quote_line_lost_violated",
    "Verif.Props.C94_quote_lost_violated",
    "Verif.Props.C94_credit_lost_violated",
    "Verif.Props.C94_empty_quote_violated",
    "Verif.Props.C94_empty_credit_violated",
    "Verif.Props.C94_marked_brackets_violated"
   ],
   "note": "C94_paragraphs_partial proves it for the forms in Written; missing are titles, anchors and further attributes, attribute references and @ in lines, quotes in quotes, paragraphs in lists and delimited blocks, and inline parsing. The code violates the property for labels without text, labels in indented lines, quotes with lines in brackets, and it panics for empty quotes and empty attributions: the _violated theorems."
  },
  {
   "property": "C95",
   "status": "partial",
   "theorems": [
    "Verif.Props.C95_index_terms_partial",
    "Verif.Props.C95_other_texts",
    "Verif.Props.C95_line_end_violated",
    "Verif.Props.C95_two_lines_violated",
    "Verif.Props.C95_parentheses_violated",
    "Verif.Props.C95_backslash_violated",
    "Verif.Props.C95_many_parentheses_violated",
    "Verif.Props.C95_blank_violated",
    "Verif.Props.C95_first_blank_violated",
    "Verif.Props.C95_phrase_leaves_term_violated"
   ],
   "note": "`C95_index_terms_partial`: plain text and index terms with plain text, all but the last line ending with text. `C95_other_texts`: texts without index terms are parsed as before. The code violates the property in other cases: the end of the line behind a term is lost (`C95_line_end_violated`), words of a term over two lines are joined (`C95_two_lines_violated`), a term with parentheses in it is shown (`C95_parentheses_violated`), a backslash before `((()))` and 259 closing parentheses make the parser panic (`C95_backslash_violated`, `C95_many_parentheses_violated`), `((a )))` loses a parenthesis (`C95_blank_violated`), the blank before the first term is kept and empty terms are left out (`C95_first_blank_violated`), a phrase may leave its term (`C95_phrase_leaves_term_violated`)."
  },
  {
   "property": "C96",
   "status": "partial",
   "theorems": [
    "Verif.Props.C96_secure",
    "Verif.Props.C96_which",
    "Verif.Props.C96_only_if_asked",
    "Verif.Props.C96_same_file_partial",
    "Verif.Props.C96_same_address",
    "Verif.Props.C96_embedded_partial",
    "Verif.Props.C96_missing",
    "Verif.Props.C96_linked_partial",
    "Verif.Props.C96_no_ending_violated",
    "Verif.Props.C96_two_stops_violated"
   ],
   "note": "`C96_secure` and `C96_only_if_asked` hold for all settings and histories. `C96_same_file_partial`, `C96_same_address`, `C96_embedded_partial` and `C96_linked_partial` are for paths with `/` whose parts are not `http:`. Violated: the kind of a file without an ending is wrong (`C96_no_ending_violated`), and the alternative text is cut at the first full stop of the name (`C96_two_stops_violated`)."
  },
  {
   "property": "C97",
   "status": "partial",
   "theorems": [
    "Verif.Props.C97_as_it_is_partial",
    "Verif.Props.C97_size_partial",
    "Verif.Props.C97_inlined_partial",
    "Verif.Props.C97_missing",
    "Verif.Props.C97_nested_violated",
    "Verif.Props.C97_inside_violated",
    "Verif.Props.C97_no_space_violated"
   ],
   "note": "`C97_as_it_is_partial`, `C97_size_partial`, `C97_inlined_partial` and `C97_missing` are for files with one `<svg` (and, with a size, none of width, height and style inside). Violated: nested images lose what is before the last `<svg` (`C97_nested_violated`), inner elements lose sizes and styles (`C97_inside_violated`), no space between width and height (`C97_no_space_violated`)."
  },
  {
   "property": "C98",
   "status": "partial",
   "theorems": [
    "Verif.Props.C98_same_icon_partial",
    "Verif.Props.C98_label",
    "Verif.Props.C98_form",
    "Verif.Props.C98_ending_violated",
    "Verif.Props.C98_not_embedded_violated",
    "Verif.Props.C98_empty_dir_violated",
    "Verif.Props.C98_quote_violated"
   ],
   "note": "`C98_label` holds for all. `C98_same_icon_partial` is for names without full stops and a non-empty directory. Violated: `C98_ending_violated`, `C98_not_embedded_violated`, `C98_empty_dir_violated`, `C98_quote_violated`."
  },
  {
   "property": "C99",
   "status": "partial",
   "theorems": [
    "Verif.Props.C99_inline_partial",
    "Verif.Props.C99_self_partial",
    "Verif.Props.C99_block_partial",
    "Verif.Props.C99_no_link",
    "Verif.Props.C99_self_violated",
    "Verif.Props.C99_apostrophe_violated",
    "Verif.Props.C99_block_quote_violated",
    "Verif.Props.C99_second_backend_violated"
   ],
   "note": "`C99_inline_partial`, `C99_self_partial`, `C99_block_partial`, `C99_no_link`. Violated: `self` in image blocks (`C99_self_violated`, `C99_second_backend_violated`), apostrophes in lines (`C99_apostrophe_violated`), quotes in blocks, which let a link add attributes (`C99_block_quote_violated`)."
  },
  {
   "property": "C100",
   "status": "partial",
   "theorems": [
    "Verif.Props.C100_lists_partial",
    "Verif.Props.C100_deep_violated",
    "Verif.Props.C100_callout_violated",
    "Verif.Props.C100_inner_callouts_violated",
    "Verif.Props.C100_decimal_violated",
    "Verif.Props.C100_text_violated",
    "Verif.Props.C100_written_numbers",
    "Verif.Props.C100_reversed_numbers",
    "Verif.Props.C100_reversed_one_violated",
    "Verif.Props.C100_dot_numbers",
    "Verif.Props.C100_element_partial",
    "Verif.Props.C100_start_violated"
   ],
   "note": "Proved for lists up to 255 deep, callout numbers up to 254 and no callout list inside another one. Violations are theorems: crash for 256 nested lists under a description list, crash for callout 255, a nested callout list changes the numbers of the outer one, decimal/lowergreek get the letter of the depth, callout numbers are not shown with text icons, a reversed list from 1, quotes in start."
  },
  {
   "property": "C101",
   "status": "partial",
   "theorems": [
    "Verif.Props.C101_head_partial",
    "Verif.Props.C101_no_head",
    "Verif.Props.C101_body_partial",
    "Verif.Props.C101_quote_violated",
    "Verif.Props.C101_end_violated",
    "Verif.Props.C101_reference_violated",
    "Verif.Props.C101_symbol_violated",
    "Verif.Props.C101_signs"
   ],
   "note": "Proved for values without quotes and titles without `<` and `&`. Violated: `C101_quote_violated`, `C101_end_violated` (the heading can end the title element), `C101_reference_violated`, `C101_symbol_violated`."
  },
  {
   "property": "C102",
   "status": "partial",
   "theorems": [
    "Verif.Props.C102_named_partial",
    "Verif.Props.C102_stays_inside",
    "Verif.Props.C102_outside",
    "Verif.Props.C102_problem",
    "Verif.Props.C102_default",
    "Verif.Props.C102_fonts_partial",
    "Verif.Props.C102_no_panic",
    "Verif.Props.C102_command_line_violated",
    "Verif.Props.C102_secure_violated",
    "Verif.Props.C102_own_violated"
   ],
   "note": "`C102_stays_inside`, `C102_outside`, `C102_problem`, `C102_default`, `C102_no_panic` hold for all. `C102_named_partial` is for stylesheets named in the header. Violated: `C102_command_line_violated` (named on the command line: no style at all), `C102_secure_violated` (read even in secure mode), `C102_own_violated`."
  },
  {
   "property": "C103",
   "status": "partial",
   "theorems": [
    "Verif.Props.C103_table_partial",
    "Verif.Props.C103_semantic_partial",
    "Verif.Props.C103_cell",
    "Verif.Props.C103_columns_partial",
    "Verif.Props.C103_quote_violated",
    "Verif.Props.C103_fraction_violated",
    "Verif.Props.C103_zero_violated"
   ],
   "note": "proved for values without quotes and ampersands, which are written as they are, and for sums of column widths up to 255 that are not zero (C40); violated by quotes, widths with a fraction, and columns without any width; cells are proved for all cells; f32 numbers are modelled as rational numbers"
  },
  {
   "property": "C104",
   "status": "partial",
   "theorems": [
    "Verif.Props.C104_page_partial",
    "Verif.Props.C104_error_partial",
    "Verif.Props.C104_several_violated",
    "Verif.Props.C104_control_violated",
    "Verif.Props.C104_backslash_violated"
   ],
   "note": "Holds for pages without backslashes and without control characters other than ends of lines, and for single diagnostics. Violated: backslashes are not escaped (`C104_backslash_violated`), tabs and other control characters are not (`C104_control_violated`, for all such pages), and the quotes between diagnostics are escaped after they are joined, so that there is always one error (`C104_several_violated`). The errors matter little today: the function asks for a parse that is not strict."
  },
  {
   "property": "C105",
   "status": "partial",
   "theorems": [
    "Verif.Props.C105_now",
    "Verif.Props.C105_document",
    "Verif.Props.C105_reproducible",
    "Verif.Props.C105_others",
    "Verif.Props.C105_date_asked_for",
    "Verif.Props.C105_time_asked_for",
    "Verif.Props.C105_succeeds_partial",
    "Verif.Props.C105_far_violated",
    "Verif.Props.C105_last_day_violated"
   ],
   "note": "Violated at the end of time only: seconds after 9999-12-30T22:00:00Z (such as milliseconds given for seconds) and the date 9999-12-31 panic instead of being reported (`C105_far_violated`, `C105_last_day_violated`). Dates before the year 0 are not modelled. `jiff` is modelled by its documentation."
  },
  {
   "property": "C106",
   "status": "partial",
   "theorems": [
    "Verif.Props.C106_details_partial",
    "Verif.Props.C106_semantic_partial",
    "Verif.Props.C106_ids",
    "Verif.Props.C106_header_partial",
    "Verif.Props.C106_footer_partial",
    "Verif.Props.C106_markup_violated"
   ],
   "note": "For texts without `<`, `&` and quotes. Others are written as they are: `C106_markup_violated` shows a remark that is a program."
  },
  {
   "property": "C107",
   "status": "partial",
   "theorems": [
    "Verif.Props.C107_one",
    "Verif.Props.C107_without_text_partial",
    "Verif.Props.C107_always",
    "Verif.Props.C107_with_text_partial",
    "Verif.Props.C107_mail_partial",
    "Verif.Props.C107_mail_violated"
   ],
   "note": "With the conditions of C70 on targets and attributes. The address of a mail link is written as it is (`C107_mail_violated`)."
  },
  {
   "property": "C108",
   "status": "partial",
   "theorems": [
    "Verif.Props.C108_values",
    "Verif.Props.C108_none",
    "Verif.Props.C108_shown_or_reported_partial",
    "Verif.Props.C108_quiet",
    "Verif.Props.C108_macro",
    "Verif.Props.C108_parts_violated",
    "Verif.Props.C108_outside_violated",
    "Verif.Props.C108_last_definition_violated",
    "Verif.Props.C108_unknown_violated"
   ],
   "note": "Four gaps: books in parts without a preamble (`C108_parts_violated`), tables of contents asked for from outside (`C108_outside_violated`), two definitions (`C108_last_definition_violated`), unknown values (`C108_unknown_violated`)."
  },
  {
   "property": "C109",
   "status": "proved",
   "theorems": [
    "Verif.Props.C109_line_of",
    "Verif.Props.C109_line_starting",
    "Verif.Props.C109_line",
    "Verif.Props.C109_pattern"
   ],
   "note": "Lines from their start on, as all callers give them."
  },
  {
   "property": "C110",
   "status": "partial",
   "theorems": [
    "Verif.Props.C110_nothing_lost",
    "Verif.Props.C110_no_blank",
    "Verif.Props.C110_paragraphs_partial",
    "Verif.Props.C110_more_violated",
    "Verif.Props.C110_edges"
   ],
   "note": "For one blank line between paragraphs. More of them make paragraphs that start with a newline or are empty (`C110_more_violated`)."
  },
  {
   "property": "C111",
   "status": "proved",
   "theorems": [
    "Verif.Props.C111_first",
    "Verif.Props.C111_all",
    "Verif.Props.C111_priority",
    "Verif.Props.C111_empty",
    "Verif.Props.C111_single"
   ],
   "note": "for all sequences of lists and all questions; inline nodes as values are opaque"
  },
  {
   "property": "C112",
   "status": "partial",
   "theorems": [
    "Verif.Props.C112_language_partial",
    "Verif.Props.C112_source",
    "Verif.Props.C112_page_partial",
    "Verif.Props.C112_semantic_partial",
    "Verif.Props.C112_source_violated",
    "Verif.Props.C112_quote_violated"
   ],
   "note": "violated for `source` with id/role/option and no language, and for languages with quotes or ampersands; proved otherwise"
  },
  {
   "property": "C113",
   "status": "partial",
   "theorems": [
    "Verif.Props.C113_nothing_lost",
    "Verif.Props.C113_lines_partial",
    "Verif.Props.C113_comment_violated"
   ],
   "note": "nothing is lost: proved for all lines; the layout is violated for comments before empty lines and proved otherwise"
  },
  {
   "property": "C114",
   "status": "partial",
   "theorems": [
    "Verif.Props.C114_format_partial",
    "Verif.Props.C114_separator",
    "Verif.Props.C114_psv_violated"
   ],
   "note": "separator proved; format violated for `format=psv` outside of nested tables, proved otherwise"
  },
  {
   "property": "C115",
   "status": "proved",
   "theorems": [
    "Verif.Props.C115_names",
    "Verif.Props.C115_secret",
    "Verif.Props.C115_secure",
    "Verif.Props.C115_told",
    "Verif.Props.C115_no_file"
   ],
   "note": "for all paths, modes, jobs and histories; the home directory is a parameter"
  },
  {
   "property": "C116",
   "status": "partial",
   "theorems": [
    "Verif.Props.C116_check_box_partial",
    "Verif.Props.C116_blanks_violated"
   ],
   "note": "proved for every source text through the lexer; `[    ]` with several blanks is taken for an empty box (`C116_blanks_violated`)"
  },
  {
   "property": "C117",
   "status": "partial",
   "theorems": [
    "Verif.Props.C117_restored",
    "Verif.Props.C117_siblings",
    "Verif.Props.C117_own_partial",
    "Verif.Props.C117_inside_violated"
   ],
   "note": "proved without limits on nesting, except that a `subs` attribute on a block with blocks inside is in force for those blocks too (`C117_inside_violated`)"
  },
  {
   "property": "C118",
   "status": "partial",
   "theorems": [
    "Verif.Props.C118_source_partial",
    "Verif.Props.C118_nested_violated",
    "Verif.Props.C118_missing_violated"
   ],
   "note": "proved for all texts and plain values; fails for values with references in them (`C118_nested_violated`) and with `attribute-missing` set to `drop` or `drop-line` (`C118_missing_violated`)"
  },
  {
   "property": "C119",
   "status": "partial",
   "theorems": [
    "Verif.Props.C119_places_partial",
    "Verif.Props.C119_columns_violated",
    "Verif.Props.C119_text",
    "Verif.Props.C119_merged",
    "Verif.Props.C119_graph",
    "Verif.Props.C119_answer_partial",
    "Verif.Props.C119_answer_violated"
   ],
   "note": "Proved: the graph, its text, its places in bytes, an answer for plain nodes. Fails in the code: columns count bytes, not characters, and a line end after bold text (or any other kind of inline) panics."
  },
  {
   "property": "C120",
   "status": "partial",
   "theorems": [
    "Verif.Props.C120_terms_partial",
    "Verif.Props.C120_kept",
    "Verif.Props.C120_empty",
    "Verif.Props.C120_first_violated",
    "Verif.Props.C120_between_violated",
    "Verif.Props.C120_markup_violated",
    "Verif.Props.C120_fourth_violated"
   ],
   "note": "Proved for terms followed by named attributes, and that nothing is lost of macros without a term. Fails in the code: a reference before or between the terms, a fourth term (lost), markup in a reference (ignored)."
  },
  {
   "property": "C121",
   "status": "partial",
   "theorems": [
    "Verif.Props.C121_written_partial",
    "Verif.Props.C121_inline",
    "Verif.Props.C121_no_panic",
    "Verif.Props.C121_backslash_violated",
    "Verif.Props.C121_blank_violated"
   ],
   "note": "Proved for all targets without backslashes and all attribute lists of C60; no panic for every line. Fails in the code: backslashes in targets are lost; a blank behind the closing bracket makes it a paragraph."
  },
  {
   "property": "C122",
   "status": "partial",
   "theorems": [
    "Verif.Props.C122_articles_partial",
    "Verif.Props.C122_in_parts",
    "Verif.Props.C122_books_violated"
   ],
   "note": "Proved for all articles, and for what is inside the parts of a book. False in books: a discrete heading of level zero becomes a part, and one that also names a special section becomes that section, since peek_section does not look at the mark (C122_books_violated)."
  },
  {
   "property": "C123",
   "status": "partial",
   "theorems": [
    "Verif.Props.C123_blocks_partial",
    "Verif.Props.C123_header",
    "Verif.Props.C123_answer_partial",
    "Verif.Props.C123_place",
    "Verif.Props.C123_preamble_violated",
    "Verif.Props.C123_items_violated",
    "Verif.Props.C123_delimiter_violated",
    "Verif.Props.C123_unset_violated",
    "Verif.Props.C123_answer_violated"
   ],
   "note": "Proved: blocks, nesting, places, titles and text of documents written with the kit's own markers and delimiters, with no preamble and no blocks attached to list items; header, attributes and place of every document; an answer for every document of known blocks. False otherwise: see the _violated theorems. Overflow of the length of an empty source is counted as a panic (a build with overflow checks)."
  },
  {
   "property": "C124",
   "status": "partial",
   "theorems": [
    "Verif.Props.C124_attached_partial",
    "Verif.Props.C124_document_partial",
    "Verif.Props.C124_no_panic_partial",
    "Verif.Props.C124_panic_violated",
    "Verif.Props.C124_header_violated",
    "Verif.Props.C124_comment_violated"
   ],
   "note": "Proved for every body, and for whole documents that start with a title. False when the header leaves metadata behind ([.role], then an attribute entry): the parser panics at a comment, or the metadata of the next block becomes text; and false for comments after only empty lists. Sections and several blocks in one chunk are not in this model."
  },
  {
   "property": "C125",
   "status": "partial",
   "theorems": [
    "Verif.Props.C125_notes_partial",
    "Verif.Props.C125_two_violated",
    "Verif.Props.C125_none_violated",
    "Verif.Props.C125_later_violated",
    "Verif.Props.C125_nested_violated"
   ],
   "note": "Proved for kept values of one footnote with plain text. False for other values that the parser marks: pass:q[footnote:a[one] and footnote:b[two]] panics when referenced, pass:q[footnote:a]] makes the next footnote of the document panic, and pass:m[footnote:a[b footnote:c[d]]] leaves its substitutions in force. Escapes and other macros in the text are not modelled."
  },
  {
   "property": "C126",
   "status": "partial",
   "theorems": [
    "Verif.Props.C126_refused",
    "Verif.Props.C126_fixed_partial",
    "Verif.Props.C126_soft_partial",
    "Verif.Props.C126_doctype_violated",
    "Verif.Props.C126_default_violated"
   ],
   "note": "Proved for all attributes but doctype, and for values the document may change if the attribute has no default. False for -a doctype=book, which is accepted and has no effect, and for -a tip-caption=Hint@ and other attributes with a default, which keep the default."
  },
  {
   "property": "C127",
   "status": "partial",
   "theorems": [
    "Verif.Props.C127_which",
    "Verif.Props.C127_text_partial",
    "Verif.Props.C127_code",
    "Verif.Props.C127_text_violated",
    "Verif.Props.C127_comment_violated"
   ],
   "note": "Which <1> are callouts is proved for all lines, and so is that code lines without callouts at the end are shown as they are. That no text is lost is proved for lines with no whitespace but blanks and tabs and an ASCII line-comment attribute, and is false after a no-break space, and for line-comment attributes that are not ASCII."
  }
 ]
}
