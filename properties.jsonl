{"id": "C01", "title": "Tokenising a source is lossless", "statement": "Repeatedly asking the lexer for the next token of a source file until it returns nothing yields tokens whose lexemes, concatenated in order, are exactly the bytes of the file: nothing is dropped, repeated or reordered.", "quantifier": "every byte string, every set of registered plugin macro names", "why_tests_cant": "the input space is unbounded and the lexer backtracks (e-mail, footnote and uri look-ahead), so any finite corpus misses backtrack combinations", "anchors": ["parser/src/lexer/source_lexer.rs:SourceLexer::next_token", "parser/src/lexer/source_lexer.rs:SourceLexer::word", "parser/src/lexer/source_lexer.rs:SourceLexer::maybe_term_delimiter", "parser/src/lexer/source_lexer.rs:SourceLexer::maybe_entity", "parser/src/lexer/source_lexer.rs:SourceLexer::maybe_attr_ref"]}
{"id": "C02", "title": "Tokenising always terminates and makes progress, with contiguous locations", "statement": "Every token the lexer returns begins where the previous one ended, is within the file, and lexing a file of n bytes ends after finitely many calls.", "quantifier": "every byte string and every lexer position reachable from the start", "why_tests_cant": "non-termination and off-by-one location bugs only show on inputs nobody wrote a test for", "anchors": ["parser/src/lexer/source_lexer.rs:SourceLexer::next_token", "parser/src/lexer/source_lexer.rs:SourceLexer::token"]}
{"id": "C03", "title": "Tokens never split a UTF-8 character", "statement": "When the source is valid UTF-8, every token boundary is a character boundary, so building a token's text never panics.", "quantifier": "every valid UTF-8 source", "why_tests_cant": "the lexer scans bytes and stops on byte values; only an argument over all encodings excludes a stop inside a multi-byte character", "anchors": ["parser/src/lexer/source_lexer.rs:SourceLexer::token", "parser/src/lexer/source_lexer.rs:SourceLexer::advance_to_word_boundary", "parser/src/lexer/source_lexer.rs:SourceLexer::codepoint"]}
{"id": "C04", "title": "Reported line and column of a location are correct", "statement": "For any byte offset inside a source, the reported line number is one more than the number of newlines before it, the column is the distance to the start of that line, and the reported line text is the text of that line.", "quantifier": "every source and every offset in it", "why_tests_cant": "tests check a handful of offsets", "anchors": ["parser/src/lexer/source_lexer.rs:SourceLexer::line_number_with_offset", "parser/src/lexer/source_lexer.rs:SourceLexer::line_of"]}
{"id": "C05", "title": "Includes are read depth-first in place", "statement": "When includes are pushed while reading, the tokens delivered are those of the document obtained by recursively replacing each include by the included text; after an include ends, reading resumes exactly where the includer stopped, and no token is lost or delivered twice.", "quantifier": "every tree of included files of any depth and fan-out", "why_tests_cant": "depth and fan-out are unbounded", "anchors": ["parser/src/lexer/root_lexer.rs:RootLexer::next_token", "parser/src/lexer/root_lexer.rs:RootLexer::push_source"]}
{"id": "C06", "title": "Include nesting is bounded by max-include-depth", "statement": "No chain of includes nested deeper than max-include-depth is ever processed, so recursive self-inclusion terminates.", "quantifier": "every resolver behaviour (including files that include themselves) and every limit", "why_tests_cant": "unbounded depth; tests exercise a couple of limits", "anchors": ["parser/src/lexer/root_lexer.rs:RootLexer::max_include_depth", "parser/src/tasks/directives/includes/process_includes.rs:exceeded_max_include_depth"]}
{"id": "C07", "title": "A skipped conditional block is skipped exactly up to its own endif", "statement": "When a conditional directive is false, exactly the lines up to and including its matching endif are removed, nested conditionals inside it included; the line after the matching endif is the next line read.", "quantifier": "every nesting of conditional directives of any depth", "why_tests_cant": "unbounded nesting", "anchors": ["parser/src/tasks/directives/ifdef.rs", "parser/src/contiguous_lines.rs", "parser/src/tasks/directives/ifdef.rs:skip_lines_until_endif"]}
{"id": "C08", "title": "ifdef/ifndef with several attributes mean any/all", "statement": "ifdef with a comma list keeps its block iff any named attribute is set and with a plus list iff all are set; ifndef keeps its block exactly when the same ifdef would drop it.", "quantifier": "every list of attribute names and every assignment of attributes", "why_tests_cant": "exponentially many combinations", "anchors": ["parser/src/tasks/directives/ifdef.rs:Parser::evaluate_ifdef"]}
{"id": "C09", "title": "Well nested conditionals produce no diagnostics and balance", "statement": "For a document in which every conditional has its endif, properly nested, each endif is accepted and after the last endif no conditional is open.", "quantifier": "every properly nested sequence of conditional directives", "why_tests_cant": "unbounded nesting", "anchors": ["parser/src/tasks/directives/mod.rs:Parser::process_endif_directive", "parser/src/tasks/directives/ifdef.rs", "parser/src/tasks/directives/ifeval.rs"]}
{"id": "C10", "title": "ifeval compares consistently", "statement": "For any two operands, exactly the comparisons implied by their order hold: == is the negation of !=, < of >=, > of <=, and evaluation never panics.", "quantifier": "every operand pair and every operator", "why_tests_cant": "operand space unbounded", "anchors": ["parser/src/tasks/directives/ifeval.rs"]}
{"id": "C11", "title": "lines= selects exactly the requested lines", "statement": "An include with a lines attribute contributes exactly the lines of the file whose 1-based number lies in one of the listed ranges, in file order, each once.", "quantifier": "every file, every list of ranges (overlapping, unordered, open ended)", "why_tests_cant": "range combinations unbounded", "anchors": ["parser/src/tasks/directives/includes/normalize_includes.rs"]}
{"id": "C12", "title": "tags= selects exactly the tagged regions", "statement": "An include with tags contributes exactly the lines whose innermost enclosing relevant region is selected by the tag specification, never the tag directive lines themselves, in file order.", "quantifier": "every file (any nesting of regions) and every tag specification", "why_tests_cant": "nesting and specification combinations unbounded", "anchors": ["parser/src/tasks/directives/includes/tags.rs"]}
{"id": "C13", "title": "indent= re-indents an include uniformly", "statement": "An include with indent=n shifts every non-empty line by one common amount so that the least indented line has exactly n leading spaces; relative indentation and text are kept.", "quantifier": "every included text and every n", "why_tests_cant": "unbounded texts", "anchors": ["parser/src/tasks/directives/includes/process_includes.rs:_set_indentation"]}
{"id": "C14", "title": "Level offsets compose and never produce an invalid level", "statement": "The level of a heading is its written level plus the document and include offsets in force, never below 0, and outside an include the offset is restored.", "quantifier": "every heading level and every sequence of offset changes", "why_tests_cant": "unbounded sequences", "anchors": ["parser/src/tasks/heading_level.rs"]}
{"id": "C15", "title": "Secure mode never reads a file through an include", "statement": "In secure mode an include directive is replaced by a link to its target and the resolver is not called; in other modes remote targets are fetched only if uri reads are allowed and the mode is at most server.", "quantifier": "every document, every target, every attribute setting", "why_tests_cant": "security property over all inputs", "anchors": ["parser/src/tasks/directives/includes/process_includes.rs", "parser/src/tasks/directives/includes/target.rs"]}
{"id": "C16", "title": "The command line resolver never leaves the base directory outside unsafe mode", "statement": "In any mode but unsafe, the file read for an include is inside the base directory once symbolic links and dot-dot segments are resolved.", "quantifier": "every target path, every file system", "why_tests_cant": "the set of targets and link structures is unbounded", "anchors": ["cli/src/resolver.rs:CliResolver::resolve"]}
{"id": "C17", "title": "docinfo files are never read in secure mode", "statement": "In secure mode no docinfo content is requested or inserted; in other modes exactly the docinfo files named by the docinfo attribute are requested.", "quantifier": "every docinfo attribute value and every mode", "why_tests_cant": "unbounded attribute values", "anchors": ["parser/src/docinfo.rs"]}
{"id": "C18", "title": "Attribute precedence", "statement": "Reading an attribute returns, in order of preference: a read-only job value, the latest document-body value, the header value, the built-in default, and a modifiable job value only if none of those exist.", "quantifier": "every history of job, header and body assignments", "why_tests_cant": "histories are unbounded", "anchors": ["core/src/document_meta.rs:DocumentMeta::get", "core/src/document_meta.rs:DocumentMeta::insert_header_attr", "core/src/document_meta.rs:DocumentMeta::insert_doc_attr"]}
{"id": "C19", "title": "A document cannot change a read-only job attribute or its safe mode", "statement": "After the job is configured, no sequence of header assignments, body assignments, author additions or body resets changes the value read for an attribute set read-only by the job, in particular the safe-mode attributes.", "quantifier": "every history of document-level operations", "why_tests_cant": "security property over unbounded histories", "anchors": ["core/src/document_meta.rs:DocumentMeta", "core/src/job_attrs.rs:JobAttrs"]}
{"id": "C20", "title": "Rejected assignments have no effect", "statement": "Assigning a job-only attribute from a document, or a header-only attribute in the body, or a value that fails validation, returns an error and leaves every attribute unchanged.", "quantifier": "every state, key and value", "why_tests_cant": "state space unbounded", "anchors": ["core/src/document_meta.rs:DocumentMeta::insert_header_attr", "core/src/document_meta.rs:DocumentMeta::insert_doc_attr", "core/src/validate.rs:attr"]}
{"id": "C21", "title": "showtitle and notitle are never both set in a layer", "statement": "Within any one attribute layer, after any history of assignments at most one of showtitle and notitle is set, and it is the one assigned last.", "quantifier": "every history of assignments", "why_tests_cant": "histories unbounded", "anchors": ["core/src/validate.rs:attr", "core/src/attrs.rs:Attrs::insert"]}
{"id": "C22", "title": "Author attributes number authors in order", "statement": "After adding any list of authors, author_i, firstname_i, lastname_i, email_i, … describe the i-th author, the unnumbered ones the first, and authors is the comma separated list of full names.", "quantifier": "every list of authors", "why_tests_cant": "unbounded list", "anchors": ["core/src/document_meta.rs:DocumentMeta::add_author"]}
{"id": "C23", "title": "Document types and special section names round-trip", "statement": "Parsing the name of a document type or special section gives it back, and any other text is rejected.", "quantifier": "every string", "why_tests_cant": "strings are unbounded", "anchors": ["core/src/doctype.rs", "core/src/special_sect.rs"]}
{"id": "C24", "title": "The token queue behaves like a list", "statement": "Any sequence of queue operations (push, pop at both ends, restore at the front, clear, truncate, index) gives the same results as on a plain list.", "quantifier": "every operation history", "why_tests_cant": "histories unbounded", "anchors": ["parser/src/deq.rs:Deq"]}
{"id": "C25", "title": "Substitution sets keep order and membership in agreement", "statement": "After any sequence of insert, remove, prepend and append, the ordered list of active substitutions has no duplicates and contains exactly the substitutions reported as active.", "quantifier": "every operation history", "why_tests_cant": "histories unbounded", "anchors": ["parser/src/substitutions.rs:Substitutions", "parser/src/tasks/customize_subs.rs"]}
{"id": "C26", "title": "data-uri encoding is invertible base64", "statement": "Decoding the base64 text produced for any bytes gives the bytes back; the text has length 4*ceil(n/3), uses only the standard alphabet and at most two padding characters at the end.", "quantifier": "every byte string", "why_tests_cant": "unbounded", "anchors": ["parser/src/base64.rs:encode_in"]}
{"id": "C27", "title": "Paths survive printing and joining", "statement": "Parsing the printed form of a parsed path gives the same path; joining an absolute path replaces the base, joining a relative one extends it; popping never removes the root.", "quantifier": "every path string and separator", "why_tests_cant": "unbounded strings", "anchors": ["core/src/path.rs:Path"]}
{"id": "C28", "title": "Source locations identify tokens uniquely and cover them", "statement": "Distinct (include depth, start) pairs have distinct identifiers, and extending a location to another covers both.", "quantifier": "every pair of locations", "why_tests_cant": "unbounded pairs", "anchors": ["ast/src/source_location.rs:SourceLocation"]}
{"id": "C29", "title": "Collected plain text keeps every character", "statement": "Collecting text from lexemes concatenates them, taking it out returns everything since the last take, and trimming the end removes only trailing white space.", "quantifier": "every sequence of pushes, trims and takes, every Unicode text", "why_tests_cant": "unbounded histories and texts", "anchors": ["parser/src/tasks/collect_text.rs:CollectText"]}
{"id": "C30", "title": "Generated section ids are unique and terminate", "statement": "The id generated for a section differs from every id already used in the document, and generation always terminates; ids contain only allowed characters.", "quantifier": "every title, prefix, separator and every set of ids already used", "why_tests_cant": "unbounded id sets", "anchors": ["parser/src/tasks/section_id.rs"]}
{"id": "C31", "title": "The first anchor with an id wins", "statement": "If several anchors use the same id, references resolve to the first; later ones never overwrite it.", "quantifier": "every sequence of anchors", "why_tests_cant": "unbounded sequences", "anchors": ["parser/src/tasks/anchors.rs"]}
{"id": "C32", "title": "The table of contents mirrors the sections", "statement": "For every document, building the table of contents never fails, lists the sections of at most the configured depth in document order, and nests each under its parent section.", "quantifier": "every sequence of section levels, every toclevels", "why_tests_cant": "unbounded documents", "anchors": ["parser/src/tasks/parse_section.rs:Parser::push_toc_node"]}
{"id": "C33", "title": "Sections nest", "statement": "In the parsed tree every section contains only deeper sections, siblings and order are those of the source, and no heading is lost.", "quantifier": "every sequence of headings", "why_tests_cant": "unbounded documents", "anchors": ["parser/src/tasks/parse_section.rs:Parser::parse_peeked_section"]}
{"id": "C34", "title": "Callout lists match callouts", "statement": "Automatic callouts in a verbatim block are numbered 1,2,3… in order, and item k of the following callout list refers to exactly the callouts numbered k of the preceding block.", "quantifier": "every sequence of callouts and lists", "why_tests_cant": "unbounded sequences", "anchors": ["parser/src/parse_context.rs:ParseContext", "parser/src/tasks/parse_list.rs"]}
{"id": "C35", "title": "Attribute lists split only at top-level commas", "statement": "An attribute list is divided exactly at the commas outside quotes; the pieces with commas reproduce the list and quoted commas never split.", "quantifier": "every attribute list", "why_tests_cant": "unbounded quoting combinations", "anchors": ["parser/src/tasks/parse_attr_list.rs"]}
{"id": "C36", "title": "List nesting decisions form a stack discipline", "statement": "A list item starts a nested list exactly when its marker matches no open list, and continues the list with the same marker otherwise; parsing closes every list it opens.", "quantifier": "every sequence of list markers", "why_tests_cant": "unbounded sequences", "anchors": ["parser/src/list_context.rs:ListStack", "parser/src/tasks/parse_list.rs"]}
{"id": "C37", "title": "Strict mode reports the first problem, otherwise all are collected in order", "statement": "In strict mode the first diagnostic is returned as an error; otherwise every diagnostic is kept in the order raised and parsing goes on.", "quantifier": "every sequence of diagnostics", "why_tests_cant": "unbounded sequences", "anchors": ["parser/src/diagnostic.rs", "parser/src/parser.rs"]}
{"id": "C38", "title": "Passthrough content is restored where it was", "statement": "Text protected by inline passthroughs reappears unchanged at its original position however many passthroughs the document has.", "quantifier": "every number of passthroughs", "why_tests_cant": "unbounded count", "anchors": ["parser/src/tasks/parse_inlines/inline_preproc.rs", "parser/src/tasks/parse_inlines/mod.rs"]}
{"id": "C39", "title": "Table rows have the declared width", "statement": "In every parsed pipe table each row, counting column spans and cells covered by row spans from above, has exactly the table's number of columns, cells appear in source order, and parsing terminates.", "quantifier": "every sequence of cells with any spans and duplication", "why_tests_cant": "unbounded tables", "anchors": ["parser/src/tasks/table/parse_psv_table.rs", "parser/src/tasks/table/context.rs:TableContext"]}
{"id": "C40", "title": "Column specifications expand as written", "statement": "A column specification with multiplier n yields n identical columns and the resulting widths are shares of 100 percent.", "quantifier": "every specification string and list of widths", "why_tests_cant": "unbounded", "anchors": ["parser/src/tasks/table/parse_table_spec.rs", "ast/src/col_widths.rs:ColWidths"]}
{"id": "C41", "title": "CSV cells decode quoting", "statement": "For any list of cell texts, writing them as quoted CSV and parsing gives back the texts.", "quantifier": "every list of cell texts", "why_tests_cant": "unbounded", "anchors": ["parser/src/tasks/table/parse_csv_table.rs"]}
{"id": "C42", "title": "Evaluation calls are properly nested", "statement": "For every document, the sequence of enter/exit calls made on a backend is well bracketed: each enter is followed by its matching exit, properly nested, children in document order.", "quantifier": "every document tree", "why_tests_cant": "unbounded trees", "anchors": ["eval/src/eval.rs"]}
{"id": "C43", "title": "Generated HTML tags are balanced", "statement": "For every document tree the HTML written by the backend is well bracketed: every opened element is closed in the right order.", "quantifier": "every document tree", "why_tests_cant": "unbounded trees", "anchors": ["dr-html-backend/src/asciidoctor_html.rs", "backend/src/html/backend.rs"]}
{"id": "C44", "title": "Cross references terminate", "statement": "Rendering a document terminates even when anchor texts contain cross references, including references to themselves or in cycles; a reference met while resolving another one is printed as plain text.", "quantifier": "every reference graph", "why_tests_cant": "unbounded graphs and cycles", "anchors": ["eval/src/eval.rs:eval_inline"]}
{"id": "C45", "title": "No link inside a link", "statement": "Cross reference links are never nested in the output: inside an open cross-reference link no second one is opened.", "quantifier": "every nesting of references", "why_tests_cant": "unbounded nesting", "anchors": ["backend/src/html/backend.rs:HtmlBackend::enter_xref"]}
{"id": "C46", "title": "Section numbers count sections", "statement": "A numbered section's printed number is the sequence of 1-based positions of its ancestors and itself among numbered siblings, and subsections of the k-th appendix start with the k-th letter.", "quantifier": "every tree of sections", "why_tests_cant": "unbounded trees", "anchors": ["backend/src/html/backend.rs:HtmlBackend::push_section_number_prefix"]}
{"id": "C47", "title": "TOC numbers equal body numbers", "statement": "The number printed for a section in the table of contents equals the one printed at its heading.", "quantifier": "every tree of sections, every toc depth", "why_tests_cant": "unbounded trees", "anchors": ["backend/src/html/backend.rs:BackendState", "dr-html-backend/src/asciidoctor_html.rs"]}
{"id": "C48", "title": "Footnotes are numbered in order and references match definitions", "statement": "Footnotes are numbered 1,2,… in order of first use, a reference to a named footnote shows the number of its first definition, and each number is defined once at the end.", "quantifier": "every sequence of footnotes", "why_tests_cant": "unbounded sequences", "anchors": ["dr-html-backend/src/asciidoctor_html.rs:enter_footnote", "dr-html-backend/src/asciidoctor_html.rs:render_footnotes", "backend/src/html/backend.rs:HtmlBackend::prev_footnote_ref_num"]}
{"id": "C49", "title": "Buffered rendering loses nothing", "statement": "Text written while a title or footnote is being buffered ends up exactly where it is later placed; everything written before stays in place.", "quantifier": "every nesting of buffered constructs", "why_tests_cant": "unbounded nesting", "anchors": ["backend/src/html/htmlbuf.rs:AltHtmlBuf"]}
{"id": "C50", "title": "Escaping makes text safe", "statement": "Escaped text contains no raw angle bracket (nor quote when quotes are escaped), every ampersand in it starts a character reference, and un-escaping gives the text back.", "quantifier": "every Unicode text", "why_tests_cant": "unbounded texts", "anchors": ["backend/src/html/htmlbuf.rs:push_escaped"]}
{"id": "C51", "title": "Roman numerals are correct", "statement": "Book parts numbered 1..3999 print a roman numeral denoting that number, distinct numbers print distinct numerals.", "quantifier": "every number in range", "why_tests_cant": "thousands of values plus distinctness of all pairs", "anchors": ["backend/src/html/backend.rs:to_roman_numeral"]}
{"id": "C52", "title": "Captions are numbered consecutively", "statement": "Captioned blocks of one kind are numbered 1,2,3,… in document order regardless of what is between them; blocks with their own caption do not consume a number.", "quantifier": "every sequence of blocks", "why_tests_cant": "unbounded sequences", "anchors": ["dr-html-backend/src/asciidoctor_html.rs:render_block_title"]}
{"id": "C53", "title": "An AsciiDoc table cell sees the document's attributes minus the table of contents and title switches", "statement": "The attributes visible inside an AsciiDoc-style table cell are those of the enclosing document, except that the document type is article and the table-of-contents and title-switch attributes are unset.", "quantifier": "every attribute store and every attribute name", "why_tests_cant": "unbounded set of names and stores", "anchors": ["core/src/document_meta.rs:DocumentMeta::clone_for_cell"]}
{"id": "C54", "title": "Raw lines are the lines of the source", "statement": "Iterating the raw lines of a source gives its newline separated lines in order: putting the newlines back gives the source, with a final newline if it had none.", "quantifier": "every source", "why_tests_cant": "unbounded inputs", "anchors": ["parser/src/lexer/source_lexer.rs:SourceLexer::raw_lines"]}
{"id": "C55", "title": "Includes within the depth limit are accepted", "statement": "An include directive whose text would be nested no deeper than max-include-depth is processed, whatever was included before it.", "quantifier": "every include history and every limit", "why_tests_cant": "depends on the whole history of includes, tests use chains only", "anchors": ["parser/src/tasks/directives/includes/process_includes.rs:exceeded_max_include_depth", "parser/src/lexer/root_lexer.rs:RootLexer::max_include_depth"]}
{"id": "C56", "title": "Conditional directive lines are recognised", "statement": "A line ifdef::names[text] or ifndef::names[text] is recognised as a conditional with exactly these names and this text, and endif::names[] as its end, for every list of attribute names.", "quantifier": "every attribute name list and every embedded text", "why_tests_cant": "the recogniser is a pattern over unbounded strings", "anchors": ["core/src/regx.rs:DIRECTIVE_IFDEF", "core/src/regx.rs:DIRECTIVE_ENDIF", "parser/src/tasks/directives/ifdef.rs"]}
{"id": "C57", "title": "Reading an AsciiDoc file only cleans line ends", "statement": "Reading an AsciiDoc file removes from every line ended by a newline one carriage return and the spaces and tabs at its end; it changes no other byte, no number of lines and not the text after the last newline.", "quantifier": "every file", "why_tests_cant": "unbounded inputs", "anchors": ["parser/src/tasks/directives/includes/normalize_includes.rs:normalize_asciidoc"]}
{"id": "C58", "title": "No remote content is fetched without permission", "statement": "Unless allow-uri-read is set, neither docinfo files nor embedded images are requested from a remote host.", "quantifier": "every docinfo setting, image target, image directory and base directory", "why_tests_cant": "security property over all attribute values", "anchors": ["parser/src/docinfo.rs", "parser/src/tasks/parse_image_block.rs:get_image_bytes", "core/src/path.rs:Path"]}
{"id": "C59", "title": "Docinfo content is inserted unchanged", "statement": "Without docinfo substitutions, the text of a docinfo file is inserted into the output unchanged, up to line endings at the end of the file.", "quantifier": "every docinfo file", "why_tests_cant": "unbounded file contents", "anchors": ["parser/src/docinfo.rs"]}
{"id": "C60", "title": "Attribute lists mean what is written", "statement": "A list of words, quoted strings, named attributes, role/options values and style#id.role%option shorthands, with any spacing, is read as exactly these attributes in order, without diagnostics.", "quantifier": "every list of attributes written in these forms, of any length", "why_tests_cant": "unbounded lists and values; every combination of forms", "anchors": ["parser/src/tasks/parse_attr_list.rs"]}
{"id": "C61", "title": "Attribute lists never crash the parser", "statement": "Whatever stands between the brackets of an attribute list, parsing it returns attributes and diagnostics, never a panic.", "quantifier": "every token sequence between the brackets", "why_tests_cant": "the token sequences are unbounded", "anchors": ["parser/src/tasks/parse_attr_list.rs"]}
{"id": "C62", "title": "Lists, continuations and delimited blocks lose no text", "statement": "Every piece of text in a document made of paragraphs, lists, list continuations and delimited blocks appears in the parsed document exactly once and in source order, and nothing is left unread.", "quantifier": "every sequence of lines and blank lines of these kinds", "why_tests_cant": "unbounded documents with arbitrary nesting", "anchors": ["parser/src/tasks/parse_list.rs:parse_list_continuation_blocks", "parser/src/tasks/parse_block.rs:parse_delimited_block", "parser/src/tasks/parse_inlines/mod.rs:should_stop_at"]}
{"id": "C63", "title": "A printed diagnostic underlines the reported text", "statement": "When a problem at some part of a source line is reported, the printed diagnostic names the file, line and column of that part, repeats the line, and below it places carets exactly under that part, followed by the message.", "quantifier": "all sources, all lines, all positions and widths within a line, all messages", "why_tests_cant": "the alignment depends on the number of digits of the line number, on what precedes the line and on the width of the characters before the position; tests look at a few short ASCII samples", "anchors": ["parser/src/diagnostic.rs: err_at, plain_text_with", "parser/src/lexer/root_lexer.rs: line_number_with_offset, line_of"]}
{"id": "C64", "title": "Inline parsing ends and does not panic", "statement": "Parsing the inline text of a block, whatever it contains, ends, and gives a list of nodes or an error value; it does not panic.", "quantifier": "all sequences of lines and tokens, all substitutions, all stop conditions, all nesting depths", "why_tests_cant": "the parser calls itself for every span, with stop tokens that may be missing, and puts partly consumed lines back; a test shows the end of one run, not that every run ends, and cannot try every arrangement of marks", "anchors": ["parser/src/tasks/parse_inlines/mod.rs: parse_inlines_until, parse_node, push_simple", "parser/src/tasks/parse_inlines/inline_utils.rs", "parser/src/line.rs: terminates_constrained_in, continues_inline_anchor"]}
{"id": "C65", "title": "Rendering a document does not panic", "statement": "For every document tree that the parser can build, converting it to HTML with the Asciidoctor-compatible backend comes to an end with an output: no assertion about the helper buffers fails, no heading of an unknown level is asked for, no element is taken from an empty list.", "quantifier": "all document trees, all tables of anchors, all nestings of blocks, cells and texts", "why_tests_cant": "The backend keeps titles, footnotes and link targets in shared buffers across calls, so whether an assertion holds depends on everything that was rendered before; tests exercise only a few combinations.", "anchors": ["dr-html-backend/src/asciidoctor_html.rs: enter_footnote, exit_footnote, start_buffering, stop_buffering, take_buffer, enter_section_heading, visit_menu_macro", "eval/src/eval.rs: eval"]}
{"id": "C66", "title": "Inline parsing keeps the text", "statement": "Parsing the text of a paragraph into inline nodes neither drops, repeats nor reorders text: what the nodes stand for, written one after the other with the marks of the markup that they came from, is the source of the paragraph, except that an attribute reference counts as the text of its value.", "quantifier": "all texts, all mixtures and nestings of inline markup, all substitution sets", "why_tests_cant": "A phrase can be opened, escaped, left open or cut off by any other markup on any later line; each combination takes another way through the parser and text can be lost on any of them.", "anchors": ["parser/src/tasks/parse_inlines/mod.rs: parse_inlines, parse_inlines_until, parse_node, parse_unconstrained", "parser/src/tasks/parse_inlines/inline_utils.rs: CollectText, Accum::maybe_push_joining_newline", "parser/src/tasks/parse_attr_list.rs: parse_inline_anchor", "parser/src/lexer/source_lexer.rs: next_token"]}
{"id": "C67", "title": "Formatted phrases are recognised", "statement": "If a paragraph consists of text and of phrases between constrained marks (`*bold*`, `_italic_`, backquotes, `#highlight#`), nested in each other and spread over lines in any way the language allows, parsing it yields exactly this text and these phrases, with the same nesting; without the formatting substitution it yields the text with its marks.", "quantifier": "all trees of text and phrases of the four kinds, of any size and depth, over any number of lines; all sets of substitutions with or without formatting", "why_tests_cant": "The scanner decides whether a mark opens or closes a phrase by looking at the rest of the line and of the following lines, with a context that suppresses these searches; which combination of neighbours, nesting and line ends misleads it cannot be enumerated.", "anchors": ["parser/src/tasks/parse_inlines/mod.rs: parse_inlines_until, parse_node", "parser/src/tasks/parse_inlines/inline_utils.rs: starts_constrained, starts_unconstrained", "parser/src/line.rs: terminates_constrained, ends_constrained_inline", "parser/src/contiguous_lines.rs: terminates_constrained"]}
{"id": "C68", "title": "Attribute references are replaced by their values, and reading ends", "statement": "In text where attribute references are substituted, a reference `{name}` to an attribute with a value stands for that value, whatever the case of the name, and the text of the value is never taken as formatting marks; a reference to an attribute without a value is kept as it is written, left out, or makes its line go away, as `attribute-missing` says. Everything else on the lines is kept. Where references are not substituted the lines are unchanged. Reading the lines ends.", "quantifier": "all texts with any number of lines and references, all sets of attributes, all settings of attribute-missing", "why_tests_cant": "The value of a reference is pushed into a buffer that is read before the rest of the line, so that the outcome depends on what the buffer already holds and on the values of other attributes; a reference inside a value starts this again.", "anchors": ["parser/src/parser.rs: _read_line", "parser/src/tasks/attr_refs.rs: push_token_replacing_attr_ref", "parser/src/lexer/root_lexer.rs: set_tmp_buf, peek, next_token"]}
{"id": "C69", "title": "An included file is read as the same text in every supported encoding", "statement": "A text that is included from a file in UTF-8 or UTF-16, with a byte order mark, or without one and (for UTF-16) named in the include directive, is read as that text; and a file that is accepted holds the text that is read: anything else is reported as invalid.", "quantifier": "all texts of any length over all Unicode characters, all encodings and marks; all sequences of bytes", "why_tests_cant": "Surrogate pairs, marks and multi-byte characters combine without limit; a mistake shows only for particular characters, lengths and combinations of mark and directive.", "anchors": ["parser/src/tasks/directives/includes/normalize_includes.rs: normalize_encoding, convert_utf16_le, from_utf16_in"]}
{"id": "C70", "title": "Start tags say what the document says", "statement": "The start tag written for a link, a mail link, an image or any other element is one that a browser reads as a single tag with exactly the attributes the document asks for: the id, the target or source, the classes and roles in order, the title, the alternative text, the size, the window and the relations; values with special characters come back as they were written, and nothing in a value becomes another attribute.", "quantifier": "all targets, ids, roles, titles, windows, options, subjects, bodies, paths and alternative texts; every combination of links, mail links and images with and without text; any element with any attributes, classes and styles", "why_tests_cant": "a browser reads the tag character by character, and one quote in one value is enough to add an attribute; the values come from the document and can be any text", "anchors": ["backend/src/html/open_tag.rs: OpenTag::new, push_class, push_style, finish, push_link_attrs", "backend/src/html/htmlbuf.rs: push_html_attr, push_named_or_pos_attr, append_link_constraint_attrs, push_url_encoded", "backend/src/html/backend.rs: enter_link_macro, enter_mailto_macro, render_inner_image"]}
{"id": "C71", "title": "Cross references lead to what they name, and those that lead nowhere are reported", "statement": "A cross reference to an anchor becomes a link to that anchor; one to a file becomes a link to the page made from that file, or to the place on the same page if the file is included, followed by the anchor. A reference to an anchor that does not exist is reported and one that exists is not, whatever order the references are kept in; a document without reports has no dangling references. A reference without text to a missing anchor shows its name in brackets.", "quantifier": "all targets (anchors, files with any directory, name and extension, with and without anchors), both ways to write a reference, all included files, prefixes and suffixes; all documents with any number of references and anchors, every order of the hash map that holds them", "why_tests_cant": "the references are kept in a hash map whose order differs from run to run, targets are free text in which dots, slashes and hashes change the meaning, and the decision combines the file name, the list of included files and the table of anchors", "anchors": ["backend/src/utils.rs: xref::href, interdoc_xref_href, xref_path_was_included, is_interdoc", "core/src/file.rs: ext, has_adoc_ext, remove_ext, basename", "parser/src/tasks/diagnose_document.rs: diagnose_invalid_xrefs, target_data", "parser/src/parser.rs: matches_xref_target", "backend/src/html/backend.rs: enter_xref, render_missing_xref"]}
{"id": "C72", "title": "Output of the semantic HTML backend is well bracketed", "statement": "Whatever the document, the HTML that the html5s backend writes is well bracketed: every element that is opened is closed, and elements are closed in the reverse of the order in which they were opened; nothing is closed that was not opened.", "quantifier": "all document trees (any nesting of blocks, lists, tables, documents in cells, sections, parts), all anchors, all bounds on the following of cross references", "why_tests_cant": "The opening and the closing tag are written by different methods at different times, each choosing the tag from the block, the document attributes and flags kept in between; whether they agree depends on everything that comes between them, for arbitrarily deep nesting.", "anchors": ["backend-html5s/src/html5s.rs: Html5s", "backend-html5s/src/html5s.rs: render_block_title", "backend-html5s/src/html5s.rs: enter_callout_list", "eval/src/eval.rs: visit"]}
{"id": "C73", "title": "A bare URL becomes a link to itself", "statement": "If a line of text contains a URL that starts with https://, http://, ftp:// or irc://, the parsed paragraph has a link whose target is this URL, all of it and nothing else; a full stop or other sentence punctuation right after the URL is text, and the text before and after the URL is kept.", "quantifier": "every line of plain text with a URL in it, every parser context with macros substituted", "why_tests_cant": "A test fixes one URL; where the URL ends depends on every character in it and after it.", "anchors": ["parser/src/tasks/parse_inlines/mod.rs: parse_inlines_until (UriScheme)", "parser/src/line.rs: consume_url"]}
{"id": "C74", "title": "The header of a document is read and the body is kept", "statement": "When a document starts with comments, comment blocks and attribute entries and then has a header (block attributes, title, author line, revision line, attribute entries), the title, author line and revision line of that header are found, and every line after the header is left for the body. When there is no header, everything from the first line that is not a comment or an attribute entry is left for the body.", "quantifier": "every number and order of comment lines, comment blocks, attribute entries and empty lines before the header, every header, every body", "why_tests_cant": "The header is read by a recursion that skips what may stand before it chunk by chunk, and puts lines back; a unit test can try a few orders, but a chunk that is not put back loses text only for particular combinations of comment blocks, empty lines and entries.", "anchors": ["parser/src/tasks/parse_doc_header.rs: parse_document_header, parse_prefixed_exception_blocks, discard_comment_block, parse_doc_title_author_revision, is_doc_header, skip_header_doc_attrs"]}
{"id": "C75", "title": "Authors are read as they are written", "statement": "The authors of the author line, separated by semicolons, are found in the order in which they are written, each with the first name, middle names, last name and e-mail address that are written; no author line makes the parser panic.", "quantifier": "every number of authors, all names and addresses, all white space between them", "why_tests_cant": "The line is taken apart by one backtracking regular expression that is applied again and again; which text each group gets depends on every later part of the line, so a handful of names does not settle it.", "anchors": ["parser/src/tasks/parse_author_line.rs: parse_author_line, author_from, de_underscore", "core/src/types.rs: Author"]}
{"id": "C76", "title": "The revision line is read as it is written", "statement": "The revision line gives the revision number, date and remark that are written in it; no revision line makes the parser panic.", "quantifier": "every version, date and remark", "why_tests_cant": "The line is taken apart by a regular expression with optional and lazy parts; which part a text belongs to depends on where the next comma or colon is. A test with a few lines cannot show that no date or remark is cut or misplaced.", "anchors": ["parser/src/tasks/parse_revision_line.rs: parse_revision_line"]}
{"id": "C77", "title": "Attributes on the command line are set as they are written", "statement": "An argument name, name=value, name!, !name, each with an optional @, sets the attribute to true or the value, or unsets it, and lets the document change it if and only if there is an @. Unsetting with a value, and anything that is not of this form, is an error.", "quantifier": "every argument text, every definition of word characters that agrees with ASCII", "why_tests_cant": "The argument is matched by an unanchored regular expression, so the result for an odd argument is what some part of it means; tests of the documented forms do not show what happens to other names and values.", "anchors": ["cli/src/args.rs: ATTR_RE, parse_attr"]}
{"id": "C78", "title": "Keys, buttons and menus are shown as written", "statement": "`kbd:[Ctrl+T]` yields the keys written in it, `btn:[OK]` the text in its brackets, `menu:File[Save > As]` the menu and the items written in it; an escaped closing bracket is part of the text; the text after the macro is kept; the reader of the HTML sees these texts; none of these macros panics.", "quantifier": "every sequence of tokens after the name of the macro, every list of keys or items and every amount of white space around them", "why_tests_cant": "The texts are arbitrary, and a regular expression and three ways of looking for the closing bracket have to agree on where the macro ends; a test shows a few texts.", "anchors": ["parser/src/tasks/parse_inlines/mod.rs: parse_kbd_macro", "parser/src/line.rs: continues_inline_macro, consume_to_string_until, consume_macro_target", "core/src/regx.rs: KBD_MACRO_KEYS", "dr-html-backend/src/asciidoctor_html.rs: visit_keyboard_macro, visit_button_macro, visit_menu_macro"]}
{"id": "C79", "title": "Attribute entries set and unset attributes as written", "statement": "A line `:name: value` sets the attribute to the value, `:!name:` and `:name!:` unset it; names are in lower case, a value may go on on further lines, the white space around it is dropped, and nothing else is read as an entry. Reading an entry does not panic.", "quantifier": "all names, all values over any number of lines, all text after the entry, in the header and in the body; for the converse and the absence of panics all texts", "why_tests_cant": "The number of lines, the length of the value and the character where the source ends are unbounded, and the scanner works on bytes with offsets.", "anchors": ["parser/src/tasks/parse_doc_attrs.rs:try_parse_attr_def", "parser/src/tasks/parse_doc_attrs.rs:special_case_pass_macro_wrapped_attrs"]}
{"id": "C80", "title": "References in the value of an attribute entry in the header are replaced", "statement": "When an entry in the header refers to other attributes with `{name}`, its value holds their values at that point, with the text around the references unchanged.", "quantifier": "all values made of any number of pieces of text and references, all attributes", "why_tests_cant": "Any number of references at any place; each replacement goes on behind the previous one.", "anchors": ["parser/src/tasks/parse_doc_attrs.rs:replace_attr_vals", "core/src/regx.rs:ATTR_VAL_REPLACE"]}
{"id": "C81", "title": "An author entry in the header names the author", "statement": "`:author: First Middle Last` in the header of a document without an author line adds this author: the attributes `author`, `firstname`, `middlename` and `lastname` have what is written, with underscores for spaces. It does not panic.", "quantifier": "all first names, last names and any number of middle names, separated by any white space; all documents without authors", "why_tests_cant": "Any number of words of any length; the names reach the attributes through several steps.", "anchors": ["parser/src/tasks/parse_doc_attrs.rs:author_from_attr", "core/src/document_meta.rs:add_author"]}
{"id": "C82", "title": "Conditionals in a source text keep just the lines whose conditions hold", "statement": "When a document with nested `ifdef`, `ifndef` and `ifeval` conditionals is given as a text, its lines are read without a panic and without reports, and they are exactly the lines whose conditions hold, in order and unchanged; whether lines end in a line feed or in a carriage return and a line feed does not matter.", "quantifier": "all documents with conditionals nested to any depth, all attribute names, numbers and quoted texts compared, all line ends, all attribute settings", "why_tests_cant": "Tokens, regular expressions, comparisons and the skipping of blocks have to agree on every line of an unbounded document.", "anchors": ["parser/src/parser.rs:_read_line", "parser/src/lexer/source_lexer.rs:next_token", "parser/src/tasks/directives/mod.rs:try_process_directive", "parser/src/tasks/directives/ifdef.rs:skip_lines_until_endif", "parser/src/tasks/directives/ifeval.rs:try_process_ifeval_directive"]}
{"id": "C83", "title": "No token goes beyond its line", "statement": "Whatever the source, a token that contains a line feed is a line end, and a carriage return is only the first byte of a token; so reading token by token and reading line by line find the same lines.", "quantifier": "all byte sequences, all plugin macro names, all positions", "why_tests_cant": "Every kind of token looks ahead in its own way; any byte sequence may follow.", "anchors": ["parser/src/lexer/source_lexer.rs:next_token", "parser/src/parser.rs:_read_line"]}
{"id": "C84", "title": "An email address in running text becomes a link to that address", "statement": "When macros are substituted, an email address that stands in a line of plain text becomes a link to exactly that address, and the text around it is kept as it is. Nothing that does not start with an address becomes such a link, and no character of the line is lost.", "quantifier": "all addresses (user names of any number of parts, any host names), all plain text before and after them, all substitution lists with macros", "why_tests_cant": "Addresses are found by a regular expression on text that the lexer has cut into tokens; tests try a few addresses, not every user name, domain and neighbour.", "anchors": ["parser/src/line.rs: Line::push, Line::finalize_email", "core/src/regx.rs: EMAIL_RE", "parser/src/lexer/source_lexer.rs: word", "parser/src/tasks/parse_inlines/mod.rs: parse_inlines"]}
{"id": "C85", "title": "The lines between the delimiters are the content of a block", "statement": "In a listing, literal or passthrough block the content is the lines between the opening and the closing delimiter, byte for byte and in order, without the empty lines at both ends; the block ends at the first line that is its delimiter, and the lines after it are those that are read next.", "quantifier": "all four fences, all lists of lines in and after the block, both line ends, all plugin macro names", "why_tests_cant": "Blocks are read chunk by chunk, each with its own lookahead at blank lines; any list of lines may stand in the block, also ones that look like other blocks.", "anchors": ["parser/src/parser.rs: read_lines_until, read_lines", "parser/src/tasks/parse_delimited_block.rs: parse_delimited_block", "parser/src/contiguous_lines.rs: discard_leading_empty_lines"]}
{"id": "C86", "title": "indent=n moves the lines of a block together", "statement": "With the attribute indent=n the lines of a verbatim block are moved together, so that the least indented one starts with n spaces; nothing else in the lines changes, and the block ends where it ends without the attribute.", "quantifier": "all numbers n, all lists of lines with any common indentation, all lines after the block", "why_tests_cant": "The least indentation is a minimum over all lines, and lines are moved one at a time while the block is still being read.", "anchors": ["parser/src/contiguous_lines.rs: set_indentation, get_indentation", "parser/src/line.rs: set_indentation, get_indentation", "parser/src/parser.rs: read_lines_until"]}
{"id": "C87", "title": "Complaints about the structure of a document are exactly what is wrong with it", "statement": "When problems are collected instead of ending the parse, those reported about the structure of the document are, each once and in source order: level-0 sections, sections more than one level below the one around them, sections in special sections that have none, parts without sections, and delimited blocks that are not closed; nothing else is reported. In strict mode the parse ends with the first of them, and if there is none the result is the same document.", "quantifier": "all sources as sequences of chunks of headings (every level, every special kind, discrete or not), paragraphs and delimiters; articles and books, with and without table of contents", "why_tests_cant": "Reports are made at nine places while blocks are still being read, some before and some after the content they are about; whether none is missed, doubled or made up depends on the whole tree, of any depth and width.", "anchors": ["parser/src/tasks/parse_section.rs: parse_section", "parser/src/tasks/parse_book.rs: parse_book", "parser/src/tasks/parse_delimited_block.rs: parse_delimited_block", "parser/src/parser.rs: err_line, err_token_full", "ast/src/special_sect.rs: supports_subsections"]}
{"id": "C88", "title": "Headings of a source text are recognised exactly", "statement": "A line of a source text is a heading if and only if it is one or more `=` or `#`, white space, and a title; its level is the number of marks less one, and its text is the title.", "quantifier": "every list of lines, both line ends, every set of plugin macro names, every line in it", "why_tests_cant": "the lexer decides by look-ahead and by the place in the line which token a mark makes, so every combination of what stands before and after the marks would have to be tried", "anchors": ["parser/src/line.rs:Line::unadjusted_heading_level", "parser/src/line.rs:Line::is_heading", "parser/src/tasks/parse_section.rs:Parser::parse_peeked_section", "parser/src/lexer/source_lexer.rs:SourceLexer::next_token"]}
{"id": "C89", "title": "Lists of a source text are read as they are written", "statement": "A source text of paragraphs and list items, with empty lines between chunks, is parsed into those paragraphs and lists: every item line (indentation, marker, white space, text) is an item with that marker and text, the lists are nested by their markers, and no line that is not white space, a marker and white space is taken for an item.", "quantifier": "every source text of paragraphs and lists of stars, dots, dashes, numbers and callouts of any depth; for the converse every line of every source text", "why_tests_cant": "markers, indentation, numbers, depth and texts are unbounded, and recognition goes through the lexer, a regular expression and look-ahead at other lines", "anchors": ["parser/src/line.rs:Line::list_marker", "parser/src/contiguous_lines.rs:ContiguousLines::starts_list", "parser/src/tasks/parse_list.rs:Parser::parse_list", "core/src/regx.rs:REPEAT_STAR_LI_START"]}
{"id": "C90", "title": "Comment lines, block titles and breaks are recognised exactly", "statement": "A line of a source text is a comment if and only if it starts with two slashes and no third one, the title of a block if and only if it starts with a dot that is not followed by a dot or white space, a thematic break if and only if it is one of the five written forms with white space after it, and a page break if and only if it is `<<<` with white space after it.", "quantifier": "every list of lines, both line ends, every line in it", "why_tests_cant": "the tests are on token sequences, and the same bytes make other tokens in other surroundings", "anchors": ["parser/src/line.rs:Line::is_comment", "parser/src/line.rs:Line::is_chunk_title", "parser/src/tasks/parse_block.rs:Parser::parse_block"]}
{"id": "C91", "title": "The outline of a source text becomes its sections", "statement": "A text made of headings (`==` or `##`) and paragraphs, with empty lines between its chunks, becomes a document with exactly these headings and paragraphs in their order. Every heading is a section with the level it is written with, and a section contains only deeper ones. Strict mode gives the same document or stops at the first thing wrong with the headings. Rendered, a section of level n is a `div` with the class `sectn` and a heading `h(n+1)`.", "quantifier": "all sequences of chunks of headings and lines of text, all arrangements of empty lines, both line ends, all plugins, strict or not", "why_tests_cant": "It composes the lexer, the reader of chunks, the line classification and the recursive parser of sections, over texts and nestings of any size; a test shows one text at a time.", "anchors": ["parser/src/tasks/parse_section.rs: parse_section, parse_peeked_section", "parser/src/line.rs: unadjusted_heading_level", "backend/src/html/util.rs: section_class", "dr-html-backend/src/asciidoctor_html.rs: enter_section", "backend/src/html/backend.rs: enter_section_heading", "eval/src/eval.rs: eval_section"]}
{"id": "C92", "title": "Videos and audio are played as the document says", "statement": "A video whose attribute list begins with `youtube`, `vimeo` or `wistia` becomes one `iframe` whose address a browser reads as the provider's embedding address with the id of the video, and with exactly the parameters that the target (`id/list`, `id,id,id`, `id/hash`), the attributes (start, end, theme, lang, list, playlist, hash) and the options (autoplay, loop, muted, nocontrols, related, ...) ask for, each once. Any other video becomes one `video` tag and audio one `audio` tag, with the file in `imagesdir` unless the target names a scheme, the part to be played after `#`, the picture, the size, and boolean attributes exactly for the options.", "quantifier": "all targets, attribute lists and settings of imagesdir (partial: text without `\"`, `&`, `#`, `?` in what goes into addresses, which is written unescaped)", "why_tests_cant": "the three providers, seven attributes and ten options combine to thousands of addresses, times arbitrary targets; whether the separator, the order and the escapes are right must hold for all of them", "anchors": ["backend/src/html/video.rs: element, service, native_element, more_youtube_params, push_dims, Provider", "backend/src/html/backend.rs: audio_element", "core/src/regx.rs: URI_SNIFF"]}
{"id": "C93", "title": "The text in the brackets of a link, a cross reference or a footnote is its text", "statement": "`https://address[text]` and `link:address[text]` become a link to exactly the address, with the text in the brackets, formatted phrases included, as the text of the link; `xref:target[text]`, `footnote:[text]` and `footnote:name[text]` become a cross reference or a footnote with the target, the name and the text. The text before and behind the macro stays text.", "quantifier": "every line of plain text around such a macro, every address, every nesting of formatted phrases in the text of a link", "why_tests_cant": "the address, the text and the phrases in it are unbounded; the closing bracket is found by a scan over the line that interacts with nested brackets, quotes and phrases, so the cases that go wrong (brackets elsewhere in the line, phrases over the bracket, line ends) are not found by examples of well-formed links", "anchors": ["parser/src/tasks/parse_inlines/mod.rs: parse_inlines_until, parse_uri_scheme_macro, link_macro_blank_window_shorthand", "parser/src/tasks/parse_attr_list.rs: _parse_link_macro_attr_list", "parser/src/line.rs: continues_inline_macro, consume_url, consume_to_string_until"]}
{"id": "C94", "title": "A paragraph is shown as what it is written as", "statement": "A text of paragraphs separated by empty lines is shown as those paragraphs in that order: plain text as a paragraph, text behind `NOTE: ` and the other labels as an admonition without the label, lines indented by blanks as literal text without the blanks, text below a style in brackets as a block of that style, text in quotation marks followed by `-- who, where` as a quote with its attribution, and lines behind `> ` as a quote. No line is lost, none is shown twice and no mark is left in the text.", "quantifier": "every text made of any number of paragraphs of these forms, with any number of lines of any length, any number of empty lines between them, and either line ending", "why_tests_cant": "The forms are recognised by looking at tokens in the first and last lines of a paragraph, and which form wins depends on characters anywhere in it; tests sample a few paragraphs of each form and rarely two after each other.", "anchors": ["parser/src/tasks/parse_block.rs: parse_block, parse_paragraph, parse_quoted_paragraph, parse_markdown_blockquote", "parser/src/contiguous_lines.rs: is_quoted_paragraph, trim_uniform_leading_whitespace", "ast/src/block.rs: derive, derive_admonition"]}
{"id": "C95", "title": "An index term is recorded as it is written, and only what should be hidden is hidden", "statement": "In a paragraph, ((term)) becomes an index term whose text stays in the paragraph, and (((first, second, third))) an index term with exactly these terms, none of which is shown; a term in double quotes may contain commas, and blanks around the commas do not belong to the terms. All other words and all line ends stay as they are and in their order.", "quantifier": "every sequence of lines of plain text with any number of index terms of both kinds, in any place", "why_tests_cant": "Tests have about twenty texts with one or two terms; the closing parentheses are looked for in all of the text behind the term, so any longer text can change what a term is.", "anchors": ["parser/src/tasks/parse_inlines/index_term.rs: parse_index_term_shorthand, parse_index_term_concealed, consume_splitting_csv_until, terminates", "parser/src/tasks/parse_inlines/mod.rs: parse_inlines_until", "parser/src/line.rs: terminates_index_term"]}
{"id": "C96", "title": "Embedded images are the files that the links would lead to, and only where this is wanted", "statement": "With data-uri set, the file that is read for an image is the target, in imagesdir, in the directory of the document — the path the link would have had — and its bytes are what the data of the img element decode to, with the alternative text, size and title unchanged. No file is read otherwise, except for SVG images to be inlined; in secure mode none is read at all, whatever the document sets.", "quantifier": "All documents' settings, histories of attribute changes, base directories, image directories, targets, file contents and image attributes", "why_tests_cant": "Which file is read depends on the interplay of the base directory, imagesdir, the target's form, the safe mode and every attribute set before; tests try a few of these.", "anchors": ["parser/src/tasks/parse_image_block.rs: parse_image_kind, parse_data_uri, get_image_bytes, should_resolve_as_inline_svg, is_disallowed_abs_uri", "parser/src/parser.rs: lockdown_secure_mode", "backend/src/html/backend.rs: render_image, render_inner_image, push_img_path"]}
{"id": "C97", "title": "An inlined SVG image is the image of its file, with the size that is asked for", "statement": "An SVG image with the option inline is put into the page from the file its link would lead to: everything from the start of the svg element on, unchanged, without what precedes it and the spaces at the end. If the document asks for a width or height, these replace the width, height and style of the svg element and nothing else of it changes. If the file cannot be read, the alternative text is shown.", "quantifier": "All settings, paths, file texts, attributes of the svg element and sizes", "why_tests_cant": "The text is edited with regular expressions over the whole file; tests use one small file without nested elements.", "anchors": ["parser/src/tasks/parse_image_block.rs: parse_inline_svg, should_resolve_as_inline_svg", "core/src/regx.rs: SVG_PREAMBLE, SVG_START_TAG, SVG_STRIP_ATTRS", "backend/src/html/backend.rs: render_image"]}
{"id": "C98", "title": "The icon of an admonition is the same whether it is linked or embedded, and its label is always shown", "statement": "With icons as images, the icon is the file named after the admonition, or as the block says, in iconsdir, with the ending of icontype; with data-uri, this same file is read and its bytes are what the data decode to. In every icon mode the label of the admonition (the block's caption, else the document's, else its English name) is in the icon cell.", "quantifier": "All settings, admonition kinds, custom icons, captions, directories and file contents", "why_tests_cant": "The path is computed twice, in the parser for reading and in the backend for linking; no test compares the two.", "anchors": ["parser/src/tasks/parse_image_block.rs: maybe_set_admonition_icon_uri", "backend/src/html/backend.rs: push_icon_img_path, push_icon_inferred_img_ext, push_admonition_block_textlabel", "dr-html-backend/src/asciidoctor_html.rs: enter_admonition_block, push_admonition_img"]}
{"id": "C99", "title": "An image with a link is in a link that leads there", "statement": "An image with the attribute link is wrapped in exactly one a element with that address, with the title, window and relation the document asks for; with link=self the address is that of the image's own file; without the attribute there is no link.", "quantifier": "All images in lines and image blocks, all addresses, directories and attributes", "why_tests_cant": "Addresses with quotes, apostrophes, spaces or percent signs, and all combinations with window and options, are not covered by tests.", "anchors": ["dr-html-backend/src/asciidoctor_html.rs: visit_image_macro, enter_image_block", "backend-html5s/src/html5s.rs: enter_image_block"]}
{"id": "C100", "title": "Numbers, markers and check boxes of lists", "statement": "What a list shows depends only on the list and on how many lists that are not description lists are around it: the kind of numbers is the one asked for, or arabic, lower letters, lower roman, upper letters, upper roman by depth; a check box is interactive exactly if its own list has the option; items of callout lists carry the number they are written with or the one after the item before them. The ol element says class, type, start and reversed and nothing else, and browsers show for consecutively numbered items exactly the numbers that were written.", "quantifier": "all trees of lists, of any kinds and nesting, all attributes, all icon modes", "why_tests_cant": "the backend keeps a depth, a stack and a counter over the whole document; lists before, around and inside must not disturb each other for any nesting", "anchors": ["backend/src/html/list.rs: type_from_depth, type_from_class, class_from_depth", "backend/src/html/backend.rs: start_enter_ordered_list, finish_enter_ordered_list, start_enter_unordered_list", "dr-html-backend/src/asciidoctor_html.rs: enter_callout_list, enter_description_list, enter_list_item_principal, render_checklist_item", "ast/src/attr_list.rs: ordered_list_custom_number_style, unordered_list_custom_marker_style"]}
{"id": "C101", "title": "The head of a page says what the document says about itself", "statement": "In a standalone page the head has, in this order, the language, encoding, generator (unless reproducible), application name, description, keywords, copyright, icon and authors; each has the value the document gives and is there only if it is given. The title of the page is the document's title attribute, else the text of its heading, else Untitled. The body has the given id, and classes for the kind of document and the side of the table of contents. Embedded and inline documents and cells have no head.", "quantifier": "All attribute values, author lists and headings", "why_tests_cant": "Values are put between quotes and tags without being escaped; tests only use plain words.", "anchors": ["backend/src/html/backend.rs: open_doc_head, meta_tags, render_title, render_meta_authors, render_favicon, open_body, standalone", "dr-html-backend/src/asciidoctor_html.rs: enter_document", "ast/src/inline_nodes.rs: plain_text"]}
{"id": "C102", "title": "The stylesheet named by a document is the style of its page, and no file outside the working directory is read for it", "statement": "If the header names a stylesheet, it is looked for in stylesdir in the working directory, and its text is the style of the page. Except in unsafe mode the file is inside the working directory, after all links are followed, and contents of files outside make no difference. If it cannot be read the page has no style and nothing else changes. Without a stylesheet attribute the page has the default style and its fonts; with the attribute unset it has none. It never panics.", "quantifier": "All documents, directories, links, file contents and safe modes", "why_tests_cant": "Depends on the file system, on links in it and on the safe mode; there is one test with one file.", "anchors": ["cli/src/css.rs: resolve", "cli/src/main.rs: run", "backend/src/html/backend.rs: render_embedded_stylesheet", "dr-html-backend/src/asciidoctor_html.rs: render_styles"]}
{"id": "C103", "title": "The tags of tables say how a table, its columns and its cells look", "statement": "The start tag of a table says its id and roles, and the frame, the lines between cells and the stripes that the block asks for, else those the document asks for, else those of every table; it says the width of the block as a percentage, or that the table is as wide as its place or its contents. Every column has a tag that says its part of the width, in percent to four places, unless its width is automatic. The tag of a cell says whether it is a header cell, how it is aligned (by itself, else by its column), and how many columns and rows it spans. In both kinds of pages.", "quantifier": "all attribute lists of tables, all attributes of documents, all lists of column widths, all cells", "why_tests_cant": "The classes depend on several attributes of block and document, the widths on rounding of every quotient; tests look at a few tables.", "anchors": ["dr-html-backend/src/asciidoctor_html.rs:finish_open_table_tag", "backend-html5s/src/html5s.rs:finish_open_table_tag", "backend/src/html/table.rs:open_cell", "backend/src/html/table.rs:push_colgroup", "backend/src/html/open_tag.rs:push_resolved_attr_class"]}
{"id": "C104", "title": "The WebAssembly function gives JSON that says what the page is", "statement": "For every document, the text that the WebAssembly function `convert` returns is JSON; parsing it gives an object whose `success` says whether the conversion succeeded and whose `html` is the page, character for character, or whose `errors` are the texts of the diagnostics, one for each.", "quantifier": "all pages and all lists of diagnostics", "why_tests_cant": "The JSON is written by hand, with two replacements; whether it can be read depends on every character of the page, and tests look at a few pages.", "anchors": ["dr-html-wasm/src/lib.rs: convert", "web-playground/src/App.tsx: JSON.parse"]}
{"id": "C105", "title": "The date and time attributes tell the right second, and the same one for reproducible conversions", "statement": "For every clock, modification time and override given to `provide_timestamps`: `localyear`, `localdate`, `localtime` and `localdatetime` are the calendar year, date and time (UTC) of the override, else of the clock; `docyear`, `docdate`, `doctime` and `docdatetime` are those of the override, else of the last modification, else of the clock, unless a `docdate` or `doctime` was set for the job, which is then kept; with an override nothing depends on the clock or the file; the document cannot change any of them, and no other attribute changes.", "quantifier": "all seconds, modification times, overrides, job settings, and all sequences of assignments in the document", "why_tests_cant": "Calendars have leap years and months of different lengths; tests look at three instants. That a document cannot change the values ranges over all documents.", "anchors": ["parser/src/tasks/time.rs: set_datetime_attrs, to_zoned, date_from_attr_or, time_from_attr_or", "parser/src/parser.rs: provide_timestamps", "parser/src/tasks/attr_refs.rs: insert_job_attr"]}
{"id": "C106", "title": "The header and the footer of a page tell who wrote the document and which revision it is", "statement": "For every document: if it has authors or a revision, the header of its page (unless it is switched off) lists every author in order with a link for mails to the address, and the number, the date and the remark of the revision, each exactly if the document has it and as it is written there; the footer tells the number of the revision; no two elements have the same id, however many authors there are. The same holds for the semantic HTML.", "quantifier": "all documents with any number of authors, and all settings", "why_tests_cant": "Ids and new lines depend on the number of authors and on which parts are there; tests look at one or two authors.", "anchors": ["dr-html-backend/src/asciidoctor_html.rs: enter_header, exit_header, render_header_details, render_author_detail, enter_footer, exit_footer, render_division_start", "backend-html5s/src/html5s.rs: render_header_details, render_author_detail"]}
{"id": "C107", "title": "A link without a text shows the address it leads to", "statement": "A link without a text shows exactly the address it leads to; if `hide-uri-scheme` is set, a scheme of http, https, ftp, mailto, irc or file with its `://` is left out, unless nothing would remain. Hiding the scheme never changes where the link leads to. A link with a text shows the text and nothing else.", "quantifier": "every target, every list of attributes, both settings of hide-uri-scheme, every text", "why_tests_cant": "Tests try a few addresses; schemes inside of addresses, empty rests and characters that HTML gives a meaning are endless.", "anchors": ["backend/src/html/backend.rs: exit_link_macro, enter_mailto_macro", "core/src/file.rs: remove_uri_scheme"]}
{"id": "C108", "title": "A table of contents that is asked for is in the page, or it is said why not", "statement": "If the header asks for a table of contents and there are sections to list, the table is in the page; or, if its place (the macro, the preamble) is missing, there is a diagnostic that says so and shows the line of the header. Nothing is said if the place is there. A macro without a table of contents is reported with its line.", "quantifier": "every document, every position of the table, every place of the macro in blocks, lists and sections", "why_tests_cant": "Tests have one document for each position; the macro may be nested anywhere and the document may be of any form.", "anchors": ["parser/src/tasks/parse_doc_header.rs: prepare_toc", "parser/src/tasks/diagnose_document.rs: diagnose_toc", "parser/src/tasks/parse_block.rs: parse_toc_macro", "eval/src/eval.rs: eval_toc_at", "parser/src/diagnostic.rs: err_doc_attr"]}
{"id": "C109", "title": "A diagnostic about a line or about a text in it underlines just that", "statement": "A diagnostic about a line shows the number and the text of that line and underlines all of it and nothing beyond its end; one about a text in a line underlines the first place where the line has that text, and the whole line if it has none.", "quantifier": "every source, every line of it, every place in the line, every pattern", "why_tests_cant": "Tests show a few diagnostics; the arithmetic of places must be right for every line of every document.", "anchors": ["parser/src/diagnostic.rs: err_line, err_line_starting, err_line_of, err_at_pattern"]}
{"id": "C110", "title": "The paragraphs of a table cell are its text, split at blank lines", "statement": "A table cell has exactly the paragraphs that are written in it with blank lines between them; nothing of its text is lost or moved; no paragraph has a blank line in it. Only white space at the end, and newlines at the start of literal cells, are dropped.", "quantifier": "every list of inline nodes, every number of paragraphs", "why_tests_cant": "Tests have cells with one or two paragraphs; newlines may be anywhere.", "anchors": ["parser/src/tasks/table/parse_table.rs: split_paragraphs, parse_non_asciidoc_cell", "parser/src/line.rs: trim_for_cell"]}
{"id": "C111", "title": "Several attribute lists of a block work as one", "statement": "When a block (or a section, list item, ...) has several attribute lists, every question about its attributes is answered from all of them: the id, each positional attribute, each named attribute and the language are those of the first list that has one; the roles of all lists are there, in order; an option, role or positional value counts if any list has it. A list that goes before the others works as the first of them, a list without anything in it changes nothing wherever it is, and no list at all answers nothing.", "quantifier": "all sequences of attribute lists, of any number and content, and all questions", "why_tests_cant": "the combinations of lists and of which list has which answer are without bound; tests look at one or two lists", "anchors": ["ast/src/multi_attr_list.rs: MultiAttrList", "ast/src/priority_attr_list.rs: PriorityAttrList", "ast/src/attr_list.rs: AttrList, AttrData"]}
{"id": "C112", "title": "A listing is marked with the language its attributes say", "statement": "A listing is shown as source exactly if one of its attribute lists says `source` or names a language, or the document has `source-language`; the class and `data-lang` in the page are the language named first by its lists, or else that of the document; no language is made up.", "quantifier": "all attribute lists of a listing, all values of the document's attributes, both HTML backends", "why_tests_cant": "the languages are any text, and the rules depend on combinations of positional attributes with ids, roles and options", "anchors": ["ast/src/attr_list.rs: AttrList::source_language, is_source", "dr-html-backend/src/asciidoctor_html.rs: enter_listing_block", "backend-html5s/src/html5s.rs: enter_listing_block"]}
{"id": "C113", "title": "A table is made from its lines, and ends where it is closed", "statement": "The content of a table is the lines between its opening line and the first line with the same text, without comment lines, joined by line ends; nothing else of them is lost or moved, the lines after the closing line are read as if there were no table before them, and it is reported exactly if there is no closing line.", "quantifier": "all lines after the opening line of a table, in one piece or with empty lines between them, with or without a closing line", "why_tests_cant": "which lines come when, and where comments, empty lines and the closing line are among them, is without bound", "anchors": ["parser/src/tasks/table/parse_table.rs: table_content"]}
{"id": "C114", "title": "The format and separator of a table are those asked for", "statement": "The format of a table is the one its `format` attribute names (psv, csv, tsv, dsv), or else that of its opening line (`|===`, `,===`, `:===`, `!===`); `separator` replaces the separator by its first character and keeps the format, and it is reported exactly if it is not one character.", "quantifier": "all values of the attributes `format` and `separator`, all opening characters, nested tables or not", "why_tests_cant": "the values are any text", "anchors": ["parser/src/tasks/table/parse_table.rs: parse_table", "parser/src/tasks/table/mod.rs: DataFormat"]}
{"id": "C115", "title": "A document learns the name of its file, and in safe modes nothing else", "statement": "A document from a file reads the name of the file (`docname`, `docfilesuffix`, split before the last dot), whatever the job's attributes are and whatever the document assigns. In the safe modes `server` and `secure` two files of the same name in any two directories, for any two users, give documents with the very same attributes: `docdir` is empty, `docfile` is the name, `user-home` is `.`. In the other modes they are the directory, the path and the home.", "quantifier": "all paths, home directories, job settings, safe modes and histories of attribute assignments by the document", "why_tests_cant": "secrecy compares two runs for all pairs of paths, and must hold after every sequence of assignments", "anchors": ["parser/src/tasks/attr_refs.rs: set_source_file_attrs", "parser/src/parser.rs: apply_job_settings", "core/src/path.rs: file_stem, extension, dirname"]}
{"id": "C116", "title": "A list item has a check box exactly if its text starts with one", "statement": "An item of an unordered list whose text starts with `[x]`, `[*]` or `[ ]` and white space has a check box: a checked one for the first two, an empty one for the third. Its text is what follows the box. Every other item has no check box and keeps all of its text, and so do the items of ordered lists and of callout lists whatever they start with.", "quantifier": "all source texts, line ends, indents, markers, gaps and item texts of one line (without attribute references and e-mail addresses)", "why_tests_cant": "The box is recognised on tokens, and how the characters between the brackets are cut into tokens depends on what follows them. Tests look at a few boxes; that no text that is not a box loses its first characters is about all texts.", "anchors": ["parser/src/line.rs: consume_checklist_item", "parser/src/tasks/parse_list.rs: parse_list_item", "ast/src/list.rs: ListVariant::from"]}
{"id": "C117", "title": "The substitutions of a block are its own", "statement": "Every text of a document is parsed with the substitutions that its own kind of block or cell asks for (none for passthrough blocks, the verbatim ones for listings, literal blocks, source paragraphs and literal cells, the normal ones otherwise), changed by the `subs` attribute of that block only. No block changes the substitutions of the blocks after it or around it.", "quantifier": "all documents as trees of paragraphs, delimited blocks, lists, sections, tables and cells, nested to any depth, with any values of `subs`", "why_tests_cant": "The substitutions are a field of the parser that is set before a block and put back after it. That nothing leaks is a property of all sequences and nestings of blocks; a test sees two or three blocks.", "anchors": ["parser/src/parse_context.rs: set_subs_for, clone_for_cell", "parser/src/tasks/parse_block.rs: parse_delimited_block, parse_paragraph", "parser/src/tasks/table/parse_table.rs: parse_non_asciidoc_cell", "parser/src/parser.rs: cell_parser", "parser/src/tasks/customize_subs.rs: from_meta"]}
{"id": "C118", "title": "A table cell that is a document is parsed from what is written in it", "statement": "The source that the parser of an AsciiDoc cell is given is the text of the cell as it was written: attribute references are still references, to be resolved with the attributes of the cell, and nothing of the values they have outside the cell is left.", "quantifier": "all cell texts and all values of the attributes outside the cell", "why_tests_cant": "The tokens of the cell have been read with the references replaced, and the source is put together again by blanking out the tokens at the place of a reference. That nothing is lost or left over depends on the places of all tokens of all texts.", "anchors": ["parser/src/line.rs: remove_resolved_attr_refs, into_bytes", "parser/src/tasks/table/parse_table.rs: finish_cell", "parser/src/tasks/attr_refs.rs: push_token_replacing_attr_ref"]}
{"id": "C119", "title": "The graph written for the compatibility kit says what the document says, and where", "statement": "For every sequence of inline nodes for which the converter of the compatibility kit answers, the graph shows the same characters (line ends included) in the same order and the same text in bold; text that is spelt in several nodes is one text whose place goes from the first node to the last; and a place names the line and the position in the line of the first and the last byte, both counted from one. Sequences of text, bold text and line ends after text are always answered.", "quantifier": "every source text, every sequence of text, line ends and bold text nested to any depth, every range of bytes", "why_tests_cant": "The kit has a fixed list of samples; runs of text, nesting and line numbers are unbounded.", "anchors": ["tck/src/tck.rs: gen_inline_node, node_values, consolidate", "tck/src/loc.rs: Loc::from_pos, LocSpan::from_src_loc"]}
{"id": "C120", "title": "An index term macro records the terms that are written, and one that cannot be read is kept as text", "statement": "For every macro `indexterm2:[term]` and `indexterm:[first,second,third]` with terms that are words or quoted texts, followed by any named attributes, the document records just these terms in this order, shown or hidden as the macro says, with the reference of `see` or else the terms of `see-also` split at commas and without blanks around them; the text behind the macro is left alone. A macro without a first term is kept as text just as written.", "quantifier": "every list of terms, every spacing, every quoted value, every list of named attributes, every text behind the macro", "why_tests_cant": "The space of terms, values and named attributes is unbounded.", "anchors": ["parser/src/tasks/parse_inlines/index_term.rs: parse_index_term_macro", "ast/src/attr_list.rs: AttrList::named"]}
{"id": "C121", "title": "A block macro has the target and the attributes that are written, and none makes the parser panic", "statement": "A line with a macro name that is not one for running text, two colons, a target and attributes in brackets is a block macro; the image, audio, video or plugin block has just the target (attribute references as their values) and the attributes that are written, and a plugin gets the source of the line. Lines that start with macros for running text are no block macros. Every line that is recognised as a block macro is read without a panic, whatever is between its brackets.", "quantifier": "every macro name, every target, every attribute list with any spacing; every line of tokens for the absence of panics", "why_tests_cant": "Targets, attribute lists and broken lines are unbounded.", "anchors": ["parser/src/line.rs: is_block_macro, consume_macro_target, ends_with_nonescaped, reassemble_src", "parser/src/tasks/parse_image_block.rs: parse_image_block", "parser/src/tasks/parse_block.rs: parse_audio_video_macro, parse_plugin_block_macro", "parser/src/token.rs: can_start_block_macro"]}
{"id": "C122", "title": "A heading marked discrete or float is not a section", "statement": "In every document, a heading that carries the mark [discrete] (or [float]) stays a block of its own where it was written: it opens no section at any depth, takes no blocks into itself, and none of them is lost or moved; and a heading without the mark always opens a section, unless it is inside a delimited block.", "quantifier": "All sequences of headings of any level, with and without the mark and with or without a special section name, other blocks and delimited blocks nested to any depth; articles and books, strict mode or not", "why_tests_cant": "Whether a heading is looked at by the code that honours the mark or by the code that peeks for a section depends on everything that was parsed before it.", "anchors": ["parser/src/tasks/heading_level.rs: section_start_level", "parser/src/tasks/parse_section.rs: peek_section, parse_section", "parser/src/tasks/parse_block.rs: parse_block", "parser/src/tasks/parse_book.rs", "parser/src/tasks/parse_book_part.rs"]}
{"id": "C123", "title": "The graph written for the compatibility kit has every block of the document", "statement": "When the graph of a document is written for the language's compatibility kit, reading it from top to bottom gives the same blocks in the same nesting and order as the document: paragraphs, lists and their items, listings, sidebars and sections, with their places in the source, markers, delimiters, levels, titles and text; the header with its title, place and attributes; and the place of the whole document. No document makes it panic.", "quantifier": "All documents: any header and attributes, any blocks nested to any depth, any sections, any source text", "why_tests_cant": "Blocks nest without bound and every kind can be inside the other.", "anchors": ["tck/src/tck.rs: gen_doc, gen_doc_header, gen_section, gen_block, gen_list_item"]}
{"id": "C124", "title": "Block metadata belongs to the block it is written before, and to no other", "statement": "Attribute lists, anchors and titles written above a block, with comments among them, are attached to exactly that block, all of them and in order, and are not shown as its text; metadata with nothing after it is reported (an error in strict mode) and attached to nothing; a chunk of only comments becomes a comment block. No arrangement of metadata, comments, attribute entries and text makes the parser panic.", "quantifier": "All sequences of chunks of attribute lists (also empty ones), anchors, titles, comments, attribute entries and text; strict mode or not", "why_tests_cant": "Metadata is put aside and taken up again by whatever is parsed next; whether it goes to the right block depends on the whole sequence of chunks before it.", "anchors": ["parser/src/parser.rs: parse_chunk_meta, restore_peeked_meta", "parser/src/tasks/parse_block.rs: parse_block, parse_inline_comment_block", "parser/src/tasks/parse_doc_header.rs: parse_document_header, parse_doc_title_author_revision"]}
{"id": "C125", "title": "Footnotes kept in attributes show with the substitutions they were kept with, and change nothing after them", "statement": "When a footnote is kept in an attribute in a pass macro (:fn: pass:q[footnote:id[text]]) and the attribute is referenced, the footnote shows its text with the substitutions of the pass macro; footnotes written in place and all other text get those of the block; afterwards the substitutions in force are those from before. No value of such an attribute makes the parser panic.", "quantifier": "All texts with any number of footnotes written in place or kept in attributes, in any order; any substitutions of the block (macros among them) and of the pass macros", "why_tests_cant": "The substitutions are put aside at the mark of the value and taken by the next footnote, wherever that is; whether they reach the right one depends on everything in between.", "anchors": ["parser/src/tasks/parse_inlines/mod.rs: parse_inlines_until (footnote:, AttrPassDbl)", "parser/src/parse_context.rs: attr_pass_subs", "parser/src/tasks/parse_doc_attrs.rs", "core/src/regx.rs"]}
{"id": "C126", "title": "What the command line sets is what the document sees", "statement": "The command line is refused exactly if one of the attribute values is not allowed. Otherwise an attribute set (or unset) with -a has that value for the whole document whatever the document assigns, the last -a for a name counting and a title switch replacing its opposite; one set so that the document may change it (@) has that value until the document sets it; the attributes of the safe mode are those of the mode.", "quantifier": "All lists of attribute arguments with any names, values and repetitions; any doctype, safe mode and embedding; all histories of assignments by the document", "why_tests_cant": "The arguments pass through validation, the settings and the document's start before the first line is read; whether one survives depends on all the others and on the whole document.", "anchors": ["cli/src/args.rs: TryFrom<Args>", "core/src/job_settings.rs: From<JobSettings>", "core/src/job_attrs.rs: insert", "core/src/document_meta.rs: new, get"]}
{"id": "C127", "title": "The callouts of a verbatim line are those at its end, and no code is lost", "statement": "In a line of a listing, <1>, <.> and <!--1--> are callouts exactly when nothing but callouts and blanks follows to the end of the line; elsewhere they are shown as written. Every character of the line but blanks before and among the callouts is shown, in order, and a line that does not end with a callout or a blank is shown exactly as it is.", "quantifier": "All lines of text, blanks, special characters, comment marks (#, //, ;;) and callouts in any order and of any length", "why_tests_cant": "Which reading a <1> gets depends on the whole rest of the line, and trimming before a callout works on whatever text was collected before it.", "anchors": ["parser/src/tasks/parse_inlines/mod.rs: parse_inlines_until (CalloutNumber), push_callout_tuck", "parser/src/line.rs: continues_valid_callout_nums", "parser/src/tasks/collect_text.rs: trim_end"]}
