# Formal model of asciidork in Lean 4 — design

## Method

* `/verif/lean/Verif/Model/*.lean` — executable, total Lean definitions transcribing functions of
  `/repo` one by one. Every definition carries a comment with the file and lines it models; every
  simplification is named in that comment. `&mut` becomes a returned value, `Result`/`Option` stay
  data, and a Rust panic (index out of bounds, `unwrap` on `None`, `debug_assert`, arithmetic
  underflow) is an explicit `none`/error value, never a totalised default.
* `/verif/lean/Verif/Spec/*.lean` — small independent specifications (what the English says), when a
  property needs vocabulary that the model does not share.
* `/verif/lean/Verif/Props/*.lean` — the property theorems only, each with a non-vacuity `example`.
* `/verif/lean/Verif/Lemmas/*.lean` — helper lemmas.

Where the unchanged code violates a property, a theorem named `…_violated` proves the negation with a
concrete witness and a `…_partial` theorem proves the strongest true part.

## Plan per property

| id | modelled | how proved |
|----|----------|-----------|
| C01 | `SourceLexer::next_token` and everything it calls, index based on a byte list | one-step lemma: token = slice from old to new position; induction on remaining length |
| C02 | same | same one-step lemma; well-founded recursion accepted by the kernel |
| C03 | same, plus a UTF-8 boundary predicate | one-step lemma: new position is a boundary because the scan stops only next to ASCII bytes |
| C04 | `line_number_with_offset`, `line_of` | induction on offset against a split-at-newline specification |
| C05 | `RootLexer::{next_token,push_source,maybe_advance_source}` as a stack machine | simulation with a recursive tree-flattening specification |
| C06 | `exceeded_max_include_depth`, `max_include_depth` | invariant: nesting depth ≤ source index ≤ limit |
| C07 | `skip_lines_until_endif` over classified lines | induction over nested blocks |
| C08 | `evaluate_ifdef` decision | direct, with violation witness for `ifndef::a+b` |
| C09 | `ifdef_stack` handling | violation witness (stack never popped) + partial |
| C10 | `ifeval` coercion and comparison | case analysis; panic value explicit |
| C11 | line range parsing and selection | list induction against a "number in a range" specification |
| C12 | tag spec parsing, strategy, tag stack, selection | induction over lines |
| C13 | `_set_indentation` | list induction; violation witness for the placeholder |
| C14 | heading level arithmetic (`i8`) and the offset bookkeeping around includes | arithmetic; overflow explicit; violation witnesses for clamping order, nested includes and overflow |
| C15 | the include decision function with the resolver as a logged oracle, the link substitution, `Path` based target resolution | case analysis on the log; violation witnesses for `http:/host` and stdin |
| C16 | `CliResolver::resolve` for files; `canonicalize` is an oracle constrained by an inductive relation `Leads` (symlinks, `.`, `..`) | `Leads` is deterministic; prefix lemma on canonical paths; composed with the include decision |
| C17 | `docinfo.rs`: mode test, attribute parsing, requested file names | splitting/joining lemma, case analysis |
| C18 | `DocumentMeta::get` and the insert operations over association maps | refinement to a history based specification |
| C19 | same | induction over operation list |
| C20 | same | case analysis; whole state equality |
| C21 | `validate::attr` + `Attrs::insert` | invariant by induction |
| C22 | `add_author` | induction over author list |
| C23 | `DocType`, `SpecialSection` tables | case analysis over strings |
| C24 | `Deq` | refinement to `List`; violation witness for `truncate` |
| C25 | `Substitutions` | invariant by induction; violation witnesses |
| C26 | `encode_in` | round trip with an independent decoder, bit-level lemmas |
| C27 | `Path` | round trip and case analysis, violation witnesses |
| C28 | `Model/SourceLoc.lean`: locations, spans over several sources, merging and shifting | invariants (start ≤ stop) by induction over the operations; witness for merging across sources |
| C29 | `Model/CollectText.lean`: the text collector (push, trim, take, commit) | induction over the pushes; witness for trimming a wide blank |
| C30 | `Model/SectionId.lean`: id generation from titles, separators, numbering of repeats | pigeonhole for termination of the numbering loop, induction over the headings of a document; witnesses for the panic and for author ids |
| C31 | `Model/Anchors.lean`: the anchor table as a sequence of registrations | induction over the registrations; exact rule for headings; witness of the overwrite |
| C32 | Model/Sections.lean: chunks of headings, delimiter lines and other blocks; push_toc_node, parse_section, parse_block, parse_book, parse_book_part | entries in document order by a relation kept by every parser function; strict mode: the table is a zipper whose open place moves with the section level; no panic for toclevels ≤ 2 by cases on push_toc_node; panics with deeper tables as witnesses |
| C33 | same model | items of the tree read in order plus the unread rest equal the source: invariant of every parser function; levels by the section_level of the context; termination by the number of unread items |
| C34 | push_callout, advance_callout_list, get_callouts (parse_context.rs:133-178), parse_callout_num (token.rs:130-145) and the callout part of parse_list_item, over a history of blocks, callouts, lists and items, with checked `u8` arithmetic (`Model/Callouts.lean`) | `numbers` and `Shows` say what numbers and references there should be (`Spec/Callouts.lean`); induction over groups of blocks followed by a list (`C34_lists_match_partial`); counterexamples for blocks without a list between them, `<0>`, numbers above 255 |
| C35 | `find_delimiters`, the cutting loop and the last piece of `_parse_attr_list`, on token lists | invariant: the delimiter stack and counter describe the pieces read so far; simulation of an independent top-level splitter |
| C36 | list_context.rs (`ListStack`), parse_list.rs and the parts of parse_block.rs that lists are made of, over classified lines: `parseBlock`, `parseList`, `parseItem`, `itemBlocks`, `nestedList`, `contBlocks`, `descBlocks` (`Model/Lists.lean`); fuel stands for recursion | the decision for every stack and marker (`C36_decision`); stack restored by a simultaneous induction over the ten mutually recursive functions (`C36_lists_closed`); termination by a weighted count of the lines left (`C36_parsing_ends`); nesting by induction on the number of rows (`C36_nesting_partial`) and uniqueness of the well-nested tree (`C36_nesting_unique`); counterexamples for description lists, attached paragraphs, `+…` lines, attached delimited blocks |
| C37 | what a parse does with diagnostics: a tree of reports, AsciiDoc cells (own parser, relined) and the inline doctype's first paragraph (`.expect`) | mutual induction over the tree: not strict, all diagnostics in order; strict, the first one |
| C38 | the pass that takes passthroughs out of the lines of a paragraph (pluses, `pass` macros, their substitutions, content over several lines), the placeholder text and its index, and putting the content back | a document as the author writes it (pieces) is written to token lines; induction over pieces for the replacement loop, digits for the index; violations at 100000, for neighbours, empty macros and ends on their own line |
| C39 | parse_table.rs, parse_psv_table.rs, parse_dsv_table.rs, parse_csv_table.rs and the cell specs of parse_table_spec.rs over tokens (Model/Tables) | a grid of written cells is read back row by row (induction over rows with the number of phantom columns of each row as invariant); with declared columns parsing ends for any tokens (each row consumes tokens or spilled copies); witnesses where rows come out too long or parsing never ends |
| C40 | `Verif/Model/Columns.lean`: the parser of the `cols` attribute (`parse_table_spec.rs:1-88`), the count of columns and the percentages printed in the `colgroup` (`html/src/table.rs`, `ast/src/table.rs`). Simplifications: `f32` as exact rationals; `\d` and `\s` match ASCII only. | A writer of column specifications (`Verif/Spec/Columns.lean`) is inverted by the parser, by induction on the specification; the shares are shown to sum to 100 by rational arithmetic. Four inputs are shown to break the English claim. |
| C41 | parse_csv_table.rs, parse_dsv_table.rs over tokens (Model/Tables) | lines of cells, quoted or not, written with doubled quotes, are read back with their texts, by induction over tokens of a cell, cells of a line, lines |
| C42 | Model/Ast (document tree), Model/Eval (`eval.rs` as a function from trees to the list of calls) | mutual induction over the tree: the trace without `enter_visible_index_term` is in the inductive predicate `Nested`; texts in document order against `docTexts`; witness `((x))` for the missing exit |
| C43 | Html.enter/exit/visitCall as a machine over tokens (Model/Html), Eval.trace (Model/Eval); specification: Spec.Html.Balanced, Spec.Balanced.Tidy. | A checker with a stack of open elements accepts exactly the well bracketed outputs (`balanced_iff`). Tables `ent` and `lea` give the effect of each enter and exit call on that stack, for what is known of the state at that place (embedded, inline doctype, table cell, description list layouts, attributes when they cannot change). Then induction over the tree. Ten witnesses show where tags are not balanced. |
| C44 | Model/Eval: `eval_inline` with the flag `resolving_xref` and a bound on nested anchor texts | rank argument on the reference graph, monotonicity in the bound; an anchor text with two references to itself reaches every bound |
| C45 | the HTML backend as a machine over the evaluator's calls, output as a list of tags and texts (`Model/Html`) | invariant over all traces the evaluator can make (`Lemmas/EvalInd`, `Lemmas/HtmlXref`) |
| C46 | Model/Numbering.lean: counters, appendix state, part numbers, driven over a tree of sections | induction over the tree against positions among numbered siblings; witnesses for the second appendix, sections after an appendix, numbered inside unnumbered, after Z |
| C47 | same model plus the TOC walk | simulation of the body walk by the TOC walk; witnesses for a toc macro in mid-document, switched `sectnums`, a level 0 preface in a book |
| C48 | the footnote calls of the HTML backend (Model/Html.lean) in whole documents; what a reader sees of the output (Spec/Notes.lean: marks, references, list of notes) | from C49's layout theorem: facts about `layout` by induction over texts and footnotes, with the invariant that names of notes are distinct |
| C49 | main buffer, alternate buffer, title and footnote calls of the backend for all blocks, lists, tables, cells and sections (Model/Html.lean, Model/Eval.lean); `layout` of texts and footnotes in Spec/Notes.lean | mutual induction over the document (Lemmas/NotesDoc.lean): after each part, buffers are as before and exactly the laid out texts were appended; Lemmas/NotesTree.lean relates the calls for a text to the text |
| C50 | `push_escaped` with the six-byte window and the unanchored numeric-reference regex, attribute values, `push_url_encoded` (Model/Escape) | induction on the text; un-escaping is defined independently in Spec/Escape; the three defects are separate witnesses |
| C51 | Model/Roman.lean: the `roman` crate's algorithm (greedy digit table; crate itself not in the sandbox, so this is part of the trusted base) | arithmetic per decimal digit, value read back by an independent subtractive-notation reader |
| C53 | `DocumentMeta` for AsciiDoc table cells | case analysis over attribute names |
| C54 | `raw_lines` | list induction against join/split |
| C55 | `exceeded_max_include_depth` | violation witness (counts sources), chain case |
| C56 | `Model/DirRegex.lean`: the regular expressions for directives | The regular expressions are run symbolically, in both directions: what is written is matched, and only that. |
| C57 | `normalize_asciidoc` | list induction over lines |
| C58 | targets requested for docinfo files and for embedded images | case analysis; violation witnesses |
| C59 | `docinfo.rs`: line ends, `docinfosubs`, references (the regular expression `ATTR_VAL_REPLACE` in the regex model), `attribute-missing`, sequences of characters, joining of the two files (`Model/Docinfo.lean`, `Model/IncludeProcess.lean`) | relational specification of lines, references and sequences that every text has a reading in; induction over these readings; violation witnesses |
| C52 | `render_block_title` and the caption counters inside the same model | induction over the document tree against a specification that lists captioned blocks in document order (`Spec/Captions`, `Lemmas/HtmlCaptions`) |
| C60 | `attr_ir`, `parse_attr`, `parse_key_value_attr`, `parse_attr_subgroups`, `unquote`, `trim`, shorthand loop | writer of attribute lists; each written form is balanced (one piece) and is read back |
| C61 | the same functions with panics as `none` | case analysis: the scans that select a branch establish what its `unwrap`s need |
| C62 | the model of C36 (`Model/Lists.lean`), with the text that each line carries | texts of the result followed by the texts of what is left equal the texts of the input, by simultaneous induction with the invariant that no lone `+` stands inside a delimited block (`C62_no_text_lost_partial`); counterexample otherwise (`C62_violated`) |
| C63 | `err_at`, `err_token_start`, `err_line_of`, `plain_text` over bytes, on top of the source location model (C04) | for any source split into lines and any line split into three parts, the printed text is computed by rewriting with C04; the gutter width lemma is about the number of decimal digits |
| C64 | `parse_inlines_until` with all its cases in order, over lines of tokens: Model/Inlines.lean; from text to lines: Model/InlineText.lean. Not modelled: links with a list of attributes in the brackets, macros with brackets other than links, cross references and footnotes, index terms, bibliography anchors (`unsupported`) | a bound on the steps (`go_cost`: no case leaves more to consume than it found) gives termination without conditions; `go_safe` shows that no case panics on text that meets `Safe`; counterexamples for each condition of `Safe` |
| C65 | Spec/Renders.lean, Model/Html.lean (the backend as a state machine whose failed assertions are `none`) | induction over the tree with an invariant on the second buffer and the mode flags (Lemmas/Renders.lean); partial: titles with footnotes or self-linked images, titles that are not shown, nested footnotes, sections of level 7, menus of one item are excluded, with a theorem for each that shows the panic |
| C66 | Spec/InlineSource.lean (relation between nodes and source), Model/Inlines.lean, Model/InlineText.lean, Model/Lexer.lean | a relation `Reads` between nodes and text; one lemma for each case of the token loop that the text consumed is the text of the node made, then well-founded induction over the fuelled loop with the open phrases as context (Lemmas/InlineSource.lean); from text to lines of tokens through the lexer (Lemmas/InlineText.lean); partial: `PlainText` excludes comment lines, empty lines, escaped closing brackets, attribute lists before a curly quote, two slashes after an opening bracket and (for text) references; theorems show the loss in these cases |
| C67 | the phrases are trees (`Spec/Phrases.lean`), written as text and lexed by the model of the lexer; `Inlines.parse` is the model of the inline parser | The recursion of the parser is turned into a big-step relation (`Run`); induction on the tree shows that each phrase is opened at its first mark, that nothing inside it closes it or an outer phrase, and that its last mark closes it. Counterexamples for unconstrained marks, same-kind nesting, marks in other phrases and marks after a dot. |
| C68 | Reading a line: `_read_line`, `push_token_replacing_attr_ref` and the temporary buffer of the lexer, over the tokens of a text, with a step budget (`Model/AttrRefs.lean`). | `Spec/AttrRefs.lean` gives what a line stands for, token by token, and the conditions. A plain value is pushed and read back in a fixed number of steps; induction on the lines. Ending: induction on the ranks of the references that are left to be replaced. Self reference: the state repeats, so that no budget is enough. |
| C69 | `normalize_encoding` on lists of bytes (`Model/Encoding.lean`); UTF-8 validation is Lean's own `ByteArray.validateUTF8`. | `Spec/Encoding.lean` defines the encodings of a text and the ways a file may hold it. Decoding is proved inverse to encoding in both directions by induction; UTF-8 never starts with FE or FF. |
| C70 | OpenTag (id, classes, styles, attributes in the order of the calls), the link and mail link tags with their constraints (target, rel, nofollow), the tag of an image. Spec/StartTag.lean is the part of the WHATWG tokeniser that reads a start tag, and says what a link and an image should be read as. | the tag is shown to be a list of well formed attributes, and the tokeniser reads any such list back (induction over the list and over the characters of each value); escaping is undone by C50. |
| C71 | file names (extension, base name), the link of a reference, the tag, the text of a reference without text; the map of references, target_data, the matching of paths with sources, the loop that reports. Spec/Xref.lean has references as a small type (top, anchor, file), how they are written and where they should lead. | the parts of a path are recovered from its text; the map keeps one entry for each name, the last place, and the loop is a filter, so that its outcome does not depend on the order. |
| C72 | The html5s backend as a machine on the calls of the evaluator (Model/Html5s), sharing state and tokens with the model of the html5 backend (Model/Html); `Balanced` (Spec/Html), `Fits` (Spec/Html5s) | Each group of calls writes a balanced piece, and after which pieces the output ends with `</div>`: mutual induction over the tree, carrying whether the title buffer is in use (Lemmas/Html5s, Html5sDoc, Html5sBalanced). The code violates the full statement: a titled verse, a callout list not after `</div>`, titles that are not shown in a preamble, styled cells in header rows, documents in cells of documents in cells |
| C73 | `Model/Inlines.lean` (`urlAct`, `urlLen`), `Spec/Urls.lean`: tokens of plain text, the tokens of a URL, what may follow it. | Run of the inline parser over the text before, the URL and the text after it (`Lemmas/Urls.lean`). Violated for URLs with a query or a port, before a comma and before the closing mark of a phrase: `C73_…_violated`. |
| C74 | `parse_doc_header.rs` over chunks of classified lines (Model/DocHeader.lean). | The steps before the header are shown to depend only on what is left (the step budget does not matter, by strong induction on the number of lines), then each item is skipped by one equation; induction on items and chunks. Violations by evaluation. |
| C75 | The regular expression of `parse_author_line.rs` in a model of backtracking matching (Model/Regex.lean, Model/AuthorLine.lean). | A greedy repetition of a class is shown to try all lengths from the longest on; then for each author the only length of the middle names that lets the rest match is computed (word boundaries inside the last name are excluded); induction on the authors. No panic: every match captures the first and last name (induction on regular expressions). |
| C76 | `parse_revision_line.rs` with its three regular expressions (Model/AuthorLine.lean). | Evaluation of the match for all texts of the form, with the lemmas about greedy and lazy repetition. No panic: the version group holds no line break, so the search for the number succeeds. |
| C77 | `parse_attr` of `cli/src/args.rs` with its regular expression (Model/CliAttr.lean). | Evaluation of the match for all arguments of the documented forms, no panic by induction on regular expressions, violations by evaluation. |
| C78 | The three macros on the tokens after their name (`Model/UiMacros.lean`), with the regular expression for keys run by the model of regular expressions, and the HTML written for them. | Induction over the written keys (`Spec/UiMacros.lean`: `Keys`, `Items`, `Body`); what the reader sees is the HTML without its tags (`seen`). Counterexamples: a key of two words, an escaped bracket first in `kbd:[…]` or anywhere in `btn:[…]`, `btn:foo[bar]` (panic), `menu:File[]` (panic when written), `<` in a text. |
| C79 | `Model/AttrEntry.lean`: `try_parse_attr_def` and the special case for pass macros, on the source text; the regular expressions through `Model/Regex.lean` | Induction over the lines of the value; inversion of the scanner for the converse; the lines are joined by a fuelled loop whose budget is shown to suffice. The exceptions are `_violated` theorems. |
| C80 | `Model/AttrEntry.lean`: `replace_attr_vals` (a `replace_all` with a regular expression) | Induction over the pieces of the value, with the search for the next match as a lemma. |
| C81 | `Model/AttrEntry.lean`: `author_from_attr`, the part of `try_parse_attr_def` for the header; `add_author` in `Model/Meta.lean` | Induction over the words, then the insertions of `add_author` key by key. |
| C82 | `Model/DirText.lean`: lines of tokens, `_read_line`, the directives; on top of `Model/Lexer.lean`, `Model/DirRegex.lean`, `Model/Directives.lean`, `Model/Ifeval.lean` | The tokens of a line concatenate to it and only the first is a directive (C83 and UTF-8); the regular expressions match what is written; then C09. Violated without a final line end, with spaces in the brackets of `ifeval`, and with operators in quotes. |
| C83 | `next_token` (`Model/Lexer.lean`) | Case analysis over the arms of the lexer: the bytes after the first of a token are no line ends. |
| C84 | `Model/Email.lean`: the expression `EMAIL_RE` (run by the matcher of `Model/Regex.lean`), `Line::push` and `Line::finalize_email`; `linesOf` in `Model/InlineText.lean` pushes the tokens of every line through it. The node of the link keeps the address, not the scheme `mailto`. | The matcher is proved to find a match exactly when the expression matches (`Spec/RegexLang.lean`, `run_sound`, `run_complete`); the expression is read off as user name, `@`, domain. The tokens of the line are proved part by part (`Lemmas/LexParts.lean`), `finalize_email` walks back over them to the start of the address, and the inline parser is run on the result. The full stop, hyphen, upper case, number and closing mark cases are `_violated` theorems. |
| C85 | Model/Verbatim: read_lines, read_lines_until, the verbatim branch of parse_delimited_block, delimiter tokens, discarding of empty lines; on tokens lexed from the source (Model/DirText lexLines) | Lemmas/LexKinds: what the first token of a line is; Lemmas/Verbatim: a line is a delimiter just when its text is; induction over the chunks of the block; witnesses for lines with white space only and for backticks |
| C86 | Model/Verbatim: get_indentation, set_indentation of lines and of chunks, their place in read_lines_until | minimum over the lines; what moving does to the text of one line; block_indent for blocks without empty lines; witnesses for empty lines, text after the block, tabulators |
| C87 | Model/Sections (reports of parse_section, parse_part, parse_delimited_block in strict and in collecting mode), Model/SpecialSect | Spec/Complaints lists what is wrong in a finished tree; by induction over the fuel every parser function appends exactly the complaints of what it returns, and the strict run returns the first of them (relation Told between the two runs) |
| C88 | Model/LineKinds (headingLevel, headingText on the tokens of Model/Lexer) | lemmas that say which token starts at each byte of a line (Lemmas/LineStart); both directions for every line; `_violated` for marks beyond the levels there are |
| C89 | Model/LineKinds (list_marker with its regular expression, item texts, the chunks of a source) composed with Model/Lists | each written item or text line is classified as such; empty lines make the chunks; then C36. Converse: the marker of a line determines its bytes |
| C90 | Model/LineKinds (isComment, isTitle, breakOf) | both directions for every line from the token lemmas; `_violated` for breaks that are taken for items |
| C91 | `Model/Outline.lean`: chunks of token lines to headings and paragraphs, the section parser of `Model/Sections.lean` on them, and `section_class` with the tags of sections | composition of the lexer lemmas (`lexed_lines`, `chunks_laid`), C33, C32 and C87; induction over the section tree for the levels |
| C92 | Model/Media.lean: `video.rs` (all functions) and `audio_element`; `URI_SNIFF` as a regular expression of Model/Regex. | Spec/Media: how a browser reads an address (path, parameters, fragment), which parameters are wanted (an inductive relation that names each attribute and option), which file is played, media fragments. Spec/StartTag's tokeniser reads the tag, also with attributes without value. Address: path and parameters are an invariant of the buffer (`Has`). Findings: quotes in targets break out of the attribute (`C92_quote_violated`); parameters that are asked for in two ways are written twice (`C92_twice_violated`). |
| C93 | Model/Inlines.lean (`linkScan`, `linkAct`, `linkNode`, `uriMacroAct`, `macroAct`, the actions `link` and `note`), Spec/Brackets.lean | the scan for the bracket of a text without brackets, quotes and equal signs (`linkScan_free`); the runs of the token loop (`Run`) over plain text, then the macro, then plain text; the text of a link is run by the lemma for nested phrases (C67) in the context of link attributes; texts in quotes and with equal signs (Spec/LinkText.lean, `ReadAs`) by a scan that keeps track of the quotes (`linkScan_readAs`). Partial: one line, URL characters in the address; `C93_…_violated` show a bracket far from a URL, lost line ends, phrases that leave the bracket, and texts taken for comments |
| C94 | Model/Paragraphs.lean: from source bytes through the lexer to blocks — chunks of lines, one style in an attribute list, the derivation of the context, labels, literal paragraphs, quoted paragraphs and quotes in the style of Markdown. Inline parsing is modelled by the lines it takes only. | Spec/Paragraphs.lean says how each form is written (`Written`) and what is shown (`Shown`). Induction over the chunks of the text; per form a lemma that the tokens of its lines are recognised as that form and no other. Violations are proved by evaluating the model on a source text in the kernel. |
| C95 | `parse_index_term_shorthand` with both forms, the escaped form, the splitting of terms at commas and the put-back parentheses, as further cases of the loop of inline nodes (`goX` in `Model/IndexTerms.lean`, which is `go` where that one stops with `unsupported`) | induction over the terms of a line and over the lines, on the step relation of the loop (`RunX`); `goX_extends` shows that the loop without index terms and the one with them agree on texts the former can parse. As parentheses are put back, the number of steps is not bounded by the number of tokens in an easy way; the theorem says that some number of steps is enough and that more do not matter |
| C96 | `Model/Images`: which kind of image it is, which file is asked for (with the paths of C58), its data, and the `img` element; the lock-down of secure mode over the attribute model of C19. | Paths are sequences of parts (`Spec/Images`: `Relative`, `Absolute`, `Remote`, `within`); the model's normalisation, joining and printing of them is shown to be `within` (`Lemmas/ImagePaths`). Secure mode: the read-only attribute is kept by every history (C19). The data decode to the bytes by C26; the tag is read by the reader of C70. |
| C97 | `Model/Images`: the edits of the SVG text (`lastSvg`, `strip`, `replaceSvg`) as the three regular expressions do them. | `Spec/Images` has start tags as lists of attributes (`SvgAttr`), `others` and `HasSize`; `Lemmas/Svg` shows that stripping drops exactly the size attributes of the start tag, by induction over them. |
| C98 | `Model/Images`: `iconUri` (parser) and `iconCell` (backend). | The path asked for is shown to be the one of the link, with the paths of C96; data by C26; the label by cases over all modes. |
| C99 | `Model/Images`: `inlineImage`, `blockImage`, `linkTag` over the start tags of C70. | The tag is read with the reader of C70. |
| C100 | `Model/ListMarks.lean`: trees of lists, rendered by the Asciidoctor backend with its description depth, interactive stack and callout counter; `u8` overflows are panics; the `ol` tag text | `Spec/ListMarks.lean` is a rendering without state; equality by mutual induction over lists and items; the tag is read with the start tag reader of C70; the numbers browsers show are a small function of the element |
| C101 | `Model/Head.lean`: the tags of the head, the title, the body tag. `Spec/Head.lean`: the start tags a browser should read (`Reads`, with the tokeniser of `Spec/StartTag.lean`), the ending of a file name, text elements. | Each tag is read by the tokeniser lemmas of `Lemmas/StartTag.lean`; concatenation by induction on `Reads`. Values with quotes, titles with `<` or `&`, symbols in headings are violations with witnesses. |
| C102 | `Model/Head.lean`: `resolve` of the command line program over an arbitrary file system (`Disk`: canonical places, contents), the style element and the font link. | Path lemmas of `Lemmas/ImagePaths.lean` for where it is looked for; case analysis for what is read; non-interference for files outside. |
| C103 | Model/TableTags.lean: `push_resolved_attr_class`, `finish_open_table_tag` of both backends, `open_cell`, `push_colgroup` with the numbers as they are printed; rational numbers instead of `f32` | what is written is shown to be a tag to which classes and styles are added one by one, and read by the reader of start tags (C70, `says_of`); the width of a block is characterised by the numerals that mean it (`IsWidth`); the printed width of a column is shown to be the nearest number with four places (`Nearest`), and trimming zeros to leave a numeral. Partial: values without quotes and ampersands (`C103_quote_violated`), widths that are whole numbers (`C103_fraction_violated`), not all widths zero (`C103_zero_violated`) |
| C104 | `Model/Wasm.lean`: the text that `convert` makes, of a page or of the texts of the diagnostics. | `Spec/Json.lean` is a reader of JSON (RFC 8259 without numbers, `null` and escaped characters beyond the first plane). `C104_page_partial` and `C104_error_partial` are by induction on the text: what is written for each character is read as that character. `C104_control_violated` says, for all pages, that a tab or another control character makes the text unreadable; `C104_backslash_violated` and `C104_several_violated` say what backslashes and several diagnostics do. The playground does `JSON.parse`, so such pages are not shown there. |
| C105 | `Model/Time.lean`: `provide_timestamps` with all it calls. The library `jiff` is not in the repository: seconds become dates by counting years and months, up to its documented last second; how it reads dates and times is a parameter. | `Spec/Time.lean` says what a second is in the Gregorian calendar (a sum over years and months) and how dates and times are written. By induction on the years and the months the printed date and time are those of the second (`C105_now`, `C105_document`); with `C19_readonly_fixed` they stay so whatever the document does. `C105_date_asked_for` and `C105_time_asked_for` are for settings of the job, for all readers that read the text as the date that it is. `C105_succeeds_partial`, `C105_far_violated`, `C105_last_day_violated`: when there is a panic. |
| C106 | `Model/Details.lean`: the texts that `exit_header`, `render_header_details`, `render_author_detail`, `render_division_start`, `enter_footer` and `exit_footer` write, and those of the semantic backend. Lower case and the library that reads dates are parameters. | `Spec/Details.lean` says how a browser reads tags and text (with the reader of start tags of C70), and which pieces are wanted. By induction on the authors, what is written is read as these pieces (`C106_details_partial`, `C106_semantic_partial`, `C106_header_partial`, `C106_footer_partial`), and all ids are different (`C106_ids`, numbers being written differently). |
| C107 | `Model/Links.lean`: `exit_link_macro`, `remove_uri_scheme`, and the end of mail links; with the tags of C70. | `Spec/Links.lean` says which part of an address is shown, without an algorithm. The function that finds it is shown to find that part (`C107_one`, `C107_always`), and what is written is read as the tag of C70, that text and the end (`C107_without_text_partial`, `C107_with_text_partial`, `C107_mail_partial`). |
| C108 | `Model/TocCheck.lean`: `prepare_toc`, `diagnose_toc`, `err_doc_attr`, what `parse_toc_macro` reports; with the evaluator of C42. That the parser saw the macro only if the document has it is a hypothesis. | `Spec/TocCheck.lean` says when a document has the macro, as an inductive relation on its blocks. By induction on it, the evaluator comes to the macro; the other places are direct. `C108_shown_or_reported_partial`, `C108_quiet`, `C108_macro`, `C108_values`. |
| C109 | `Model/TocCheck.lean`: `err_line`, `err_line_starting`, `err_at_pattern`; `Model/Diagnostics.lean`: `err_line_of`. Lines are bytes. | With the line and the column of C04, the diagnostic shows the line at the place without the white space at its end, and underlines all of it (`C109_line_of`, `C109_line_starting`, `C109_line`) or the first place of the pattern (`C109_pattern`, by induction on the search). |
| C110 | `Model/CellText.lean`: `split_paragraphs`, `trim_for_cell`; nodes are newlines or anything else. | By induction on the nodes with the paragraphs so far: put together with blank lines they are the text (`C110_nothing_lost`), none has a blank line (`C110_no_blank`), and texts made of paragraphs give these paragraphs (`C110_paragraphs_partial`). `C110_edges` for the white space at the ends. |
| C111 | `AttrList` with its questions, `MultiAttrList`, `PriorityAttrList`, `NoAttrs` (Model/AttrData). | `FirstOf` (Spec/AttrData) says what the first list with an answer is; induction over the lists; equality of all answers for priority lists and for empty lists. |
| C112 | `source_language`, `is_source` and the tags of `enter_listing_block` in both backends (Model/AttrData). | `Language` (Spec/AttrData) says which language a list names; tags are read with the reader of start tags; `[source.role]` gets the language `source` (C112_source_violated), quotes in languages end the attribute (C112_quote_violated). |
| C113 | `table_content` with its two loops, `src_eq`, `is_comment` (Model/TableText). | `Ends` says which lines are the table's, `shown`, `joined` and `content` what it is made from (Spec/TableText); induction over both loops. A comment before an empty line gives a line end too many (C113_comment_violated). |
| C114 | the choice of `DataFormat` and the separator in `parse_table` (Model/TableText). | `meant` lists the formats as documented (Spec/TableText); case analysis. `format=psv` is read as separated values with `|` (C114_psv_violated, on the table parser of Model/Tables). |
| C115 | `set_source_file_attrs`, `insert_job_attr`, `file_stem`, `extension`, `apply_job_settings` (Model/SourceAttrs, on Model/Meta and Model/Path). | `SplitName` (Spec/SourceAttrs); equality of the states for two paths with the same name (noninterference); assignments by the document with C19_readonly_fixed. |
| C116 | `Model/Checklist.lean`: `consume_checklist_item` on the tokens of the lexer's model, and the start of `parse_list_item` (marker, text, box) for each line of a source text | `Spec/Checklist.lean` says which texts start with a box, in characters. `C116_check_box_partial` goes from the source text through the lexer to the item, both ways. Brackets with several blanks between them are taken for a box too (`C116_blanks_violated`), and are left out of the second half. Several lines of one item, and lines with `{` or `@`, are not covered |
| C117 | `Model/BlockSubs.lean`: `set_subs_for` and the saving and restoring of the substitutions around paragraphs, delimited blocks, cells and the parsers of cells that are documents, over documents given as trees | induction on the document. `C117_restored`: the substitutions after are those before. `C117_siblings`: blocks one after the other are parsed as each alone. `C117_own_partial`: if only blocks with text have `subs`, every text gets what it asks for, and nothing panics; what a value of `subs` means is specified in C25. Blocks with blocks in them pass their `subs` on (`C117_inside_violated`). How the blocks are found in the source, and errors of strict parsers, are not in this model |
| C118 | `Model/CellSource.lean`: `remove_resolved_attr_refs` and `into_bytes` on the lines that the model of C68 reads | the places of the tokens are strictly increasing (C02), and the tokens of a value have the place of its reference, so exactly these are blanked out (`C118_source_partial`). Fails for values with references in them, which appear twice (`C118_nested_violated`), and if missing attributes are dropped (`C118_missing_violated`). The cell is read by itself; cutting tables into cells is in the model of tables |
| C119 | `Verif/Model/Tck.lean`: places (`from_pos`, `incr_column`, spans) and the writing of inline nodes with `consolidate`; the JSON and the block level are not modelled. | A specification relation `Graph` of nodes and their graph; induction over the nodes with a lemma about the loop of `consolidate` (`C119_graph`, `C119_text`, `C119_merged`); induction over lines for places. Columns behind characters of several bytes (`C119_columns_violated`) and a line end after bold text (`C119_answer_violated`: panics) fail. |
| C120 | `Verif/Model/IndexMacro.lean` on top of the model of attribute lists; the inline parser of values is a parameter. | From C60 (`C60_macro_list_means_what_is_written`) by folding the written attributes, with a relation for the reference (`C120_terms_partial`); the rest of the line is a suffix of it (`C120_kept`). Fails: a reference before or between terms, a fourth term, markup in a reference (`C120_…_violated`). |
| C121 | `Verif/Model/BlockMacro.lean`: recognition, target, attributes of block macros, on top of the model of attribute lists. | Written lines by C60's reading lemma and induction over the target (`C121_written_partial`); no panic from C61 for every recognised line (`C121_no_panic`). Fails: backslashes in targets are lost, a blank behind the bracket (`C121_…_violated`). |
| C122 | The block level of parsing (Model/Sections.lean), where headings carry the mark; Spec/Discrete.lean lists the headings of the sections, the plain blocks, and the plain blocks outside delimited blocks. | Induction over the parser's loops: parse_block only makes sections of unmarked headings, and when its loop ends the next item is not a marked heading, so that parse_section, which does not look at the mark, never meets one. In books it does: there the parser peeks for special sections and parts before any block is parsed, so a discrete heading becomes a part or a special section (proved as a violation). |
| C123 | tck/src/tck.rs from documents to graphs, as total functions between two types of trees (Model/TckBlocks.lean), on top of the inline nodes of C119; panics are none. | Documents and graphs are both flattened to a list of marks by two separate readings (Spec/TckBlocks.lean); mutual structural induction shows that they agree for documents written the kit's own way, and that these always get a graph. What is dropped (preamble, blocks attached to list items, markers, long delimiters, unset attributes) and what panics (sections in sections, an empty document) is proved as violations. |
| C124 | The lines of a chunk by what the parser asks of them; parse_chunk_meta with the metadata that was put back, the start of parse_block with comment blocks and its assertion, and the header as far as it puts metadata back (Model/BlockMeta.lean). | Induction over the lines of metadata for the loop of parse_chunk_meta, then over the chunks; Spec/BlockMeta.lean says what is written and which blocks should come of it. An attribute list before an attribute entry at the start of a document leaves metadata behind: a comment after it makes an assertion panic, and the metadata of the next block is taken for text (proved as violations). |
| C125 | Texts of marks of kept values, footnote macros, closing brackets and other text; parse_inlines_until for these tokens with the substitutions of the context, those of the call and those put aside (Model/KeptNotes.lean). | Induction over the text of a footnote, then over the pieces of the block; Spec/KeptNotes.lean says what is written and what should come of it. A kept value with two footnotes, or that only looks like a footnote, makes the parser panic, and a footnote in a kept footnote leaves the wrong substitutions in force (proved as violations). |
| C126 | The loop of TryFrom<Args> over the attribute arguments and From<JobSettings>, on the attribute store of Model/Meta.lean (Model/CliJob.lean). | Induction over the arguments for the map they give, then the preference order of C18 and the fixed job layer of C19. Spec/CliJob.lean says what the arguments say of an attribute. `-a doctype=book` is accepted and replaced by article, and `-a tip-caption=Hint@` loses to the default (proved as violations). |
| C127 | The tokens of a verbatim line as far as callouts ask for them; the arms of parse_inlines_until for callouts and comment marks, continues_valid_callout_nums, recover_custom_line_comment, and trim_end and drop_last of the collected text with their counts of bytes (Model/Conums.lean). | Functional induction over the line with the text collected so far; Spec/Conums.lean says which callouts are at the end of a line. A no-break space and a blank before a callout take the character before them away, and a line-comment attribute that is not ASCII takes code away, because trim_end and drop_last count bytes and remove characters (proved as violations). |

## Trusted base

Lean 4.33.0 kernel; axioms at most `propext`, `Classical.choice`, `Quot.sound` (checked per theorem).
The correspondence between the Rust text and the model is by reading only: nothing is executed.
The `roman` crate (used for part numbers) is not available here; its algorithm is modelled from its
documented behaviour (`Model/Roman.lean`).

Out of the model: memory management (`bumpalo`), regular expression engine (patterns are transcribed
to explicit matchers where needed), hash map iteration order, file system and network behind
resolvers (oracles), wall-clock time, CSS/JS assets.

## How to read seeded/LOG.jsonl

- `theorems_failed` lists the theorems that failed to compile after the edit, and those whose proofs depend on a lemma that failed. The second kind was
  not reached by the prover, so a failed lemma alone is weaker evidence than a failed theorem.
- Rows with a note that starts with NOT CAUGHT are edits under which every theorem still proves.
- Rows with a note that starts with INCONCLUSIVE are edits under which the prover ran out of memory before any theorem failed.
