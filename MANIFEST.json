{
 "claims": [
  {
   "property": "C01",
   "status": "proved",
   "theorems": [
    "Verif.Props.C01_terminates"
   ],
   "note": "Termination as a bound on recursion depth, linear in the input length, for every input."
  },
  {
   "property": "C02",
   "status": "proved",
   "theorems": [
    "Verif.Props.C02_list_without_nil"
   ],
   "note": "The nil error is read off the source (parser.go:19,55); the theorem covers the list and its elements."
  },
  {
   "property": "C03",
   "status": "proved",
   "theorems": [
    "Verif.Props.C03_leaf_text"
   ],
   "note": ""
  },
  {
   "property": "C04",
   "status": "proved",
   "theorems": [
    "Verif.Props.C04_macro_name",
    "Verif.Props.C04_name_differs"
   ],
   "note": "General statement plus a witness that the run of line breaks can be non-empty."
  },
  {
   "property": "C05",
   "status": "proved",
   "theorems": [
    "Verif.Props.C05_source_order"
   ],
   "note": ""
  },
  {
   "property": "C06",
   "status": "proved",
   "theorems": [
    "Verif.Props.C06_subsequence",
    "Verif.Props.C06_conservation",
    "Verif.Props.C06_escaped_blank_lost"
   ],
   "note": "Subsequence theorem for every input; conservation for inputs without % and without backslash-blank (which math drops, shown by a witness)."
  },
  {
   "property": "C07",
   "status": "proved",
   "theorems": [
    "Verif.Props.C07_leading_breaks"
   ],
   "note": "All break strings, all inputs; panics included."
  },
  {
   "property": "C08",
   "status": "proved",
   "theorems": [
    "Verif.Props.C08_comment_line"
   ],
   "note": "All comment bodies without newline and double quote."
  },
  {
   "property": "C09",
   "status": "proved",
   "theorems": [
    "Verif.Props.C09_quote_swallows_line",
    "Verif.Props.C09_witness"
   ],
   "note": "General statement and a witness."
  },
  {
   "property": "C10",
   "status": "proved",
   "theorems": [
    "Verif.Props.C10_documents",
    "Verif.Props.C10_unambiguous"
   ],
   "note": "Every document of the grammar in Spec/Doc.lean; plus unambiguity."
  },
  {
   "property": "C11",
   "status": "proved",
   "theorems": [
    "Verif.Props.C11_delimiters"
   ],
   "note": ""
  },
  {
   "property": "C12",
   "status": "proved",
   "theorems": [
    "Verif.Props.C12_unclosed_accepted",
    "Verif.Props.C12_unclosed_math",
    "Verif.Props.C12_missing_argument"
   ],
   "note": "Any nesting of unclosed constructs at end of input; exact dichotomy accepted/panic."
  },
  {
   "property": "C13",
   "status": "proved",
   "theorems": [
    "Verif.Props.C13_macro_arity"
   ],
   "note": ""
  },
  {
   "property": "C14",
   "status": "proved",
   "theorems": [
    "Verif.Props.C14_shape"
   ],
   "note": ""
  },
  {
   "property": "C15",
   "status": "proved",
   "theorems": [
    "Verif.Props.C15_operand",
    "Verif.Props.C15_operand_text",
    "Verif.Props.C15_nil_operand"
   ],
   "note": "Both modes, and the witness on which End and Walk panic."
  },
  {
   "property": "C16",
   "status": "proved",
   "theorems": [
    "Verif.Props.C16_underscore_after_number",
    "Verif.Props.C16_no_subscript",
    "Verif.Props.C16_letter_after_number"
   ],
   "note": "All digit strings and words; also the letters e/E/p/P."
  },
  {
   "property": "C17",
   "status": "proved",
   "theorems": [
    "Verif.Props.C17_stray_brace",
    "Verif.Props.C17_text_brace",
    "Verif.Props.C17_quote",
    "Verif.Props.C17_unsupported_rune",
    "Verif.Props.C17_unknown_macro",
    "Verif.Props.C17_genfrac",
    "Verif.Props.C17_missing_argument",
    "Verif.Props.C17_dangling_script"
   ],
   "note": "Any nesting prefix (Spec.Open), any continuation."
  },
  {
   "property": "C20",
   "status": "proved",
   "theorems": [
    "Verif.Props.C20_order",
    "Verif.Props.C20_bracketing"
   ],
   "note": ""
  },
  {
   "property": "C21",
   "status": "proved",
   "theorems": [
    "Verif.Props.C21_calls",
    "Verif.Props.C21_unique",
    "Verif.Props.C21_decline",
    "Verif.Props.C21_children"
   ],
   "note": ""
  },
  {
   "property": "C22",
   "status": "proved",
   "theorems": [
    "Verif.Props.C22_inspect"
   ],
   "note": ""
  },
  {
   "property": "C23",
   "status": "proved",
   "theorems": [
    "Verif.Props.C23_nil_children",
    "Verif.Props.C23_parse_results"
   ],
   "note": ""
  },
  {
   "property": "C24",
   "status": "proved",
   "theorems": [
    "Verif.Props.C24_total",
    "Verif.Props.C24_faithful",
    "Verif.Props.C24_plain",
    "Verif.Props.C24_stable"
   ],
   "note": "Exact panic condition, injectivity up to positions and math delimiters (Spec.bare), for every notion of printable non-ASCII runes."
  },
  {
   "property": "C25",
   "status": "proved",
   "theorems": [
    "Verif.Props.C25_pos_le_end",
    "Verif.Props.C25_children_inside",
    "Verif.Props.C25_end_off_by_one",
    "Verif.Props.C25_empty_group"
   ],
   "note": "Ordering and containment for terminated non-empty constructs; End is off by one for delimited nodes; witness for empty groups."
  },
  {
   "property": "C26",
   "status": "proved",
   "theorems": [
    "Verif.Props.C26_names",
    "Verif.Props.C26_total",
    "Verif.Props.C26_injective"
   ],
   "note": "All integers."
  },
  {
   "property": "C30",
   "status": "proved",
   "theorems": [
    "Verif.Props.C30_newSet",
    "Verif.Props.C30_unionOf",
    "Verif.Props.C30_keys",
    "Verif.Props.C30_keys_deterministic",
    "Verif.Props.C30_spaced"
   ],
   "note": "All argument lists and all map iteration orders; also the table behind IsSpaced."
  },
  {
   "property": "C31",
   "status": "proved",
   "theorems": [
    "Verif.Props.C31_symbols",
    "Verif.Props.C31_text",
    "Verif.Props.C31_math_ascii",
    "Verif.Props.C31_math",
    "Verif.Props.C31_hasSymbol"
   ],
   "note": "Exact characterisation of results and panics in both modes; UTF-8 specified by encoding (Spec.utf8)."
  },
  {
   "property": "C32",
   "status": "proved",
   "theorems": [
    "Verif.Props.C32_names",
    "Verif.Props.C32_tables",
    "Verif.Props.C32_never_unknown"
   ],
   "note": "All names starting with a backslash; the two tables agree up to the parentheses; mtex.Parse never panics with 'unknown macro'. Found: four blanks mtex can draw are refused by ParseExpr."
  },
  {
   "property": "C40",
   "status": "proved",
   "theorems": [
    "Verif.Props.C40_hpack_width",
    "Verif.Props.C40_hlistOf_width",
    "Verif.Props.C40_hpack_shift"
   ],
   "note": "For every arithmetic (IEEE included)."
  },
  {
   "property": "C41",
   "status": "proved",
   "theorems": [
    "Verif.Props.C41_encloses",
    "Verif.Props.C41_attained"
   ],
   "note": "For every arithmetic with the laws of math.Max."
  },
  {
   "property": "C42",
   "status": "proved",
   "theorems": [
    "Verif.Props.C42_kerned",
    "Verif.Props.C42_plain",
    "Verif.Props.C42_unique",
    "Verif.Props.C42_kerning",
    "Verif.Props.C42_sublist"
   ],
   "note": "For every arithmetic and backend."
  },
  {
   "property": "C43",
   "status": "proved",
   "theorems": [
    "Verif.Props.C43_panics",
    "Verif.Props.C43_dims",
    "Verif.Props.C43_depth_bound",
    "Verif.Props.C43_width",
    "Verif.Props.C43_conserved"
   ],
   "note": "For every arithmetic; conservation in exact arithmetic."
  },
  {
   "property": "C44",
   "status": "proved",
   "theorems": [
    "Verif.Props.C44_hpack",
    "Verif.Props.C44_vpack",
    "Verif.Props.C44_takes_up",
    "Verif.Props.C44_fills"
   ],
   "note": "For every arithmetic; that glue takes up exactly the slack in exact arithmetic."
  },
  {
   "property": "C45",
   "status": "proved",
   "theorems": [
    "Verif.Props.C45_hpack_history",
    "Verif.Props.C45_vpack_history",
    "Verif.Props.C45_hpack_twice",
    "Verif.Props.C45_stale",
    "Verif.Props.C45_ship"
   ],
   "note": "For every arithmetic, with a witness for the stale setting and the theorem that drawing does not see it."
  },
  {
   "property": "C46",
   "status": "proved",
   "theorems": [
    "Verif.Props.C46_history",
    "Verif.Props.C46_no_floor",
    "Verif.Props.C46_documented_limit_false",
    "Verif.Props.C46_grow_shrink",
    "Verif.Props.C46_grow_shrink_beyond",
    "Verif.Props.C46_accent"
   ],
   "note": "Negation of the documented limit, with the behaviour for every history of Shrink/Grow."
  },
  {
   "property": "C47",
   "status": "proved",
   "theorems": [
    "Verif.Props.C47_shrink",
    "Verif.Props.C47_shrinkAll",
    "Verif.Props.C47_grow",
    "Verif.Props.C47_growAll",
    "Verif.Props.C47_hlistOf",
    "Verif.Props.C47_hpack"
   ],
   "note": "Exact arithmetic; accents excluded, as their metrics are re-read."
  },
  {
   "property": "C48",
   "status": "proved",
   "theorems": [
    "Verif.Props.C48_glyphs",
    "Verif.Props.C48_rectangles"
   ],
   "note": "For every arithmetic."
  },
  {
   "property": "C49",
   "status": "proved",
   "theorems": [
    "Verif.Props.C49_translate"
   ],
   "note": "Exact arithmetic, any offsets including infinite ones."
  },
  {
   "property": "C50",
   "status": "proved",
   "theorems": [
    "Verif.Props.C50_settles",
    "Verif.Props.C50_again",
    "Verif.Props.C50_twice",
    "Verif.Props.C50_changes"
   ],
   "note": "For every arithmetic."
  },
  {
   "property": "C51",
   "status": "proved",
   "theorems": [
    "Verif.Props.C51_panics",
    "Verif.Props.C51_returns",
    "Verif.Props.C51_witness"
   ],
   "note": "For every arithmetic."
  },
  {
   "property": "C52",
   "status": "proved",
   "theorems": [
    "Verif.Props.C52_balanced",
    "Verif.Props.C52_kern"
   ],
   "note": "For every arithmetic."
  },
  {
   "property": "C53",
   "status": "proved",
   "theorems": [
    "Verif.Props.C53_centred"
   ],
   "note": "Exact arithmetic."
  },
  {
   "property": "C54",
   "status": "proved",
   "theorems": [
    "Verif.Props.C54_pen",
    "Verif.Props.C54_natural",
    "Verif.Props.C54_set",
    "Verif.Props.C54_rigid"
   ],
   "note": "Exact arithmetic."
  },
  {
   "property": "C55",
   "status": "proved",
   "theorems": [
    "Verif.Props.C55_child",
    "Verif.Props.C55_inner",
    "Verif.Props.C55_vchild_h",
    "Verif.Props.C55_vchild_v",
    "Verif.Props.C55_leaf"
   ],
   "note": "Exact arithmetic."
  },
  {
   "property": "C57",
   "status": "proved",
   "theorems": [
    "Verif.Props.C57_hrule",
    "Verif.Props.C57_vrule"
   ],
   "note": "Exact arithmetic."
  },
  {
   "property": "C56",
   "status": "proved",
   "theorems": [
    "Verif.Props.C56_glyph",
    "Verif.Props.C56_box",
    "Verif.Props.C56_raised",
    "Verif.Props.C56_flat"
   ],
   "note": "Exact arithmetic, every backend whose metrics scale with the font size; the flat case shown too."
  },
  {
   "property": "C58",
   "status": "proved",
   "theorems": [
    "Verif.Props.C58_returns_iff",
    "Verif.Props.C58_all_symbols",
    "Verif.Props.C58_scripts",
    "Verif.Props.C58_cases"
   ],
   "note": "For every arithmetic, source, size, resolution and backend whose knowledge of a symbol depends on symbol, font type and mode only, and of an x-height on the font type only."
  },
  {
   "property": "C59",
   "status": "proved",
   "theorems": [
    "Verif.Props.C59_glyphs",
    "Verif.Props.C59_drawn"
   ],
   "note": "For every arithmetic and backend; composed with C48 for the shipped drawing."
  },
  {
   "property": "C60",
   "status": "proved",
   "theorems": [
    "Verif.Props.C60_source",
    "Verif.Props.C60_dropped",
    "Verif.Props.C60_kept",
    "Verif.Props.C60_witness"
   ],
   "note": "For every group content; witness ${x}$."
  },
  {
   "property": "C61",
   "status": "proved",
   "theorems": [
    "Verif.Props.C61_literal",
    "Verif.Props.C61_exclusive",
    "Verif.Props.C61_symbol",
    "Verif.Props.C61_witness"
   ],
   "note": "For every input and literal; witness 3.14 after 'a.'."
  },
  {
   "property": "C62",
   "status": "proved",
   "theorems": [
    "Verif.Props.C62_items",
    "Verif.Props.C62_restored"
   ],
   "note": "For every tree and visitor state."
  },
  {
   "property": "C63",
   "status": "proved",
   "theorems": [
    "Verif.Props.C63_stable",
    "Verif.Props.C63_origin",
    "Verif.Props.C63_pure",
    "Verif.Props.C63_one_mode",
    "Verif.Props.C63_ascii",
    "Verif.Props.C63_macro_text",
    "Verif.Props.C63_drawn",
    "Verif.Props.C63_witness",
    "Verif.Props.C63_witness_drawn"
   ],
   "note": "All histories of calls, for every arithmetic with the laws of == on float64 (NaN and zeros included) and every font library; witnesses for the dependence on history."
  },
  {
   "property": "C64",
   "status": "proved",
   "theorems": [
    "Verif.Props.C64_ops",
    "Verif.Props.C64_prefix"
   ],
   "note": "All sequences of calls. That the slice returned by Ops is not overwritten by later appends is Go's semantics of append, modelled by an immutable list."
  },
  {
   "property": "C65",
   "status": "proved",
   "theorems": [
    "Verif.Props.C65_call",
    "Verif.Props.C65_once",
    "Verif.Props.C65_glyphs",
    "Verif.Props.C65_backslash",
    "Verif.Props.C65_other_glyph"
   ],
   "note": "For every arithmetic with the laws of ==, every font library whose Kern reports no error other than 'not found', every expression and renderer. The stateful backend is modelled and shown to simulate a function; composed with C59 down to the glyphs on the canvas. Found: text-mode macros draw a backslash; a shrunk text-mode hyphen is drawn as a minus sign it was not measured as."
  },
  {
   "property": "C67",
   "status": "proved",
   "theorems": [
    "Verif.Props.C67_shippable"
   ],
   "note": "For every arithmetic in which zero is neither positive nor infinite and shrinks to itself (float64 has these), every backend."
  },
  {
   "property": "C69",
   "status": "proved",
   "theorems": [
    "Verif.Props.C69_renders_iff",
    "Verif.Props.C69_xheight",
    "Verif.Props.C69_glyphless",
    "Verif.Props.C69_noItalic",
    "Verif.Props.C69_panics",
    "Verif.Props.C69_returns"
   ],
   "note": "For every arithmetic with the laws of ==, every font library without errors, every expression. Exact condition; the list of accepted names without a character is exact; witnesses \\frac{é}{2} and $\\setminus$. C69_xheight is for every font library and set of fonts: a necessary condition."
  },
  {
   "property": "C66",
   "status": "proved",
   "theorems": [
    "Verif.Props.C66_fraction",
    "Verif.Props.C66_inline",
    "Verif.Props.C66_scaled",
    "Verif.Props.C66_binom",
    "Verif.Props.C66_macros"
   ],
   "note": "Exact arithmetic, every backend; slack at most 10^9 points (beyond it the glue is clamped, C49). The positions are stated by coordinates (Spec/Paint.lean), which C70 ties to Ship.Call."
  },
  {
   "property": "C70",
   "status": "proved",
   "theorems": [
    "Verif.Props.C70_paint"
   ],
   "note": "Exact arithmetic (the pen is moved by sums, which floating point would round in another order); every tree."
  },
  {
   "property": "C71",
   "status": "proved",
   "theorems": [
    "Verif.Props.C71_dimensions",
    "Verif.Props.C71_drawing",
    "Verif.Props.C71_render",
    "Verif.Props.C71_zero"
   ],
   "note": "Exact arithmetic: the statement is about the formulas, overflow of float64 is not modelled. End to end down to the calls on the renderer for the TrueType backend."
  },
  {
   "property": "C72",
   "status": "proved",
   "theorems": [
    "Verif.Props.C72_overline",
    "Verif.Props.C72_sqrt",
    "Verif.Props.C72_root",
    "Verif.Props.C72_macros"
   ],
   "note": "Exact arithmetic, every backend with proportional metrics for the radical sign. Found: the body moves by up to half a point because stretched glue is rounded."
  },
  {
   "property": "C68",
   "status": "proved",
   "theorems": [
    "Verif.Props.C68_history",
    "Verif.Props.C68_excess"
   ],
   "note": "Exact arithmetic, every backend and history; numerical example."
  },
  {
   "property": "C73",
   "status": "proved",
   "theorems": [
    "Verif.Props.C73_symbol",
    "Verif.Props.C73_macro",
    "Verif.Props.C73_exclusive",
    "Verif.Props.C73_start",
    "Verif.Props.C73_ordinary"
   ],
   "note": "For every arithmetic, backend and source; the list of names is the one of mtex/symbols."
  },
  {
   "property": "C74",
   "status": "proved",
   "theorems": [
    "Verif.Props.C74_other",
    "Verif.Props.C74_size",
    "Verif.Props.C74_value",
    "Verif.Props.C74_answer",
    "Verif.Props.C74_units",
    "Verif.Props.C74_faces"
   ],
   "note": "For every arithmetic with the laws of == and every font library; numerical example with 6 and 60 points. C74_answer (exact arithmetic) is an equivalence for a fresh backend; C74_units: at which size the answer is the kerning of the font."
  },
  {
   "property": "C75",
   "status": "proved",
   "theorems": [
    "Verif.Props.C75_image",
    "Verif.Props.C75_noFace",
    "Verif.Props.C75_render",
    "Verif.Props.C75_pdf"
   ],
   "note": "For every arithmetic; the libraries (gg, opentype, png, fpdf) are parameters: the theorem is about the calls made on them and a small stated semantics of gg (Spec/Draw.lean)."
  },
  {
   "property": "C77",
   "status": "proved",
   "theorems": [
    "Verif.Props.C77_success",
    "Verif.Props.C77_written",
    "Verif.Props.C77_lost",
    "Verif.Props.C77_lost_when",
    "Verif.Props.C77_untouched",
    "Verif.Props.C77_file"
   ],
   "note": "For every arithmetic and font library; flag parsing, logging and -gui are not modelled."
  },
  {
   "property": "C76",
   "status": "proved",
   "theorems": [
    "Verif.Props.C76_inside",
    "Verif.Props.C76_formula",
    "Verif.Props.C76_exact",
    "Verif.Props.C76_sharp",
    "Verif.Props.C76_render"
   ],
   "note": "Exact arithmetic. Lines must have a positive thickness of at most about 2.5*10^8 points (beyond it the glue is clamped, C49) and the sign of the radical must cross the baseline. C76_inside allows a glyph measured in text to have the extents of either mode; C76_formula (only formulas) fixes it to math mode. C76_sharp shows that the half points are attained. C76_render is the end-to-end form: mtex.Render with TrueType fonts, for documents made of formulas, keeps every line and glyph (with the extents recorded with it) on the page it announces; it needs a font size of at most 10^9 and TrueType kerning that does not fail."
  },
  {
   "property": "C78",
   "status": "proved",
   "theorems": [
    "Verif.Props.C78_answer",
    "Verif.Props.C78_proportional",
    "Verif.Props.C78_resolution",
    "Verif.Props.C78_advance",
    "Verif.Props.C78_drawn",
    "Verif.Props.C78_witness"
   ],
   "note": "Exact arithmetic. C78_answer is an equivalence (exactly when Metrics answers, and what); C78_advance and C78_resolution are the findings, C78_witness a font of 1000 units. The theorems speak of a fresh backend; C63 relates later answers to those of a fresh one."
  },
  {
   "property": "C79",
   "status": "proved",
   "theorems": [
    "Verif.Props.C79_blank",
    "Verif.Props.C79_hspace",
    "Verif.Props.C79_text",
    "Verif.Props.C79_backslash"
   ],
   "note": "C79_blank in exact arithmetic, C79_hspace and C79_text in every arithmetic. C79_backslash is the finding."
  },
  {
   "property": "C80",
   "status": "proved",
   "theorems": [
    "Verif.Props.C80_ends",
    "Verif.Props.C80_goes_on",
    "Verif.Props.C80_shows",
    "Verif.Props.C80_screenshots",
    "Verif.Props.C80_crash",
    "Verif.Props.C80_crash_when",
    "Verif.Props.C80_lost"
   ],
   "note": "For every arithmetic (C80_crash_when needs the laws of == and of zero, and fonts with all glyphs). The toolkit gives the events, the widgets it lays out, the text of the editor and the clicks. Layout of headings and borders is not modelled; the decoder is taken to give back the image that was encoded."
  },
  {
   "property": "C81",
   "status": "proved",
   "theorems": [
    "Verif.Props.C81_marks",
    "Verif.Props.C81_offset",
    "Verif.Props.C81_face_lost"
   ],
   "note": "For every arithmetic; the semantics of the toolkit (save/load of origin and clip, offset, outline, fill) is stated in Spec/Gui.lean."
  },
  {
   "property": "C82",
   "status": "proved",
   "theorems": [
    "Verif.Props.C82_across",
    "Verif.Props.C82_formula",
    "Verif.Props.C82_index",
    "Verif.Props.C82_negative",
    "Verif.Props.C82_render"
   ],
   "note": "Exact arithmetic. The backend must give advances proportional to the size, none negative, kerning of at most the advance of either glyph at the size of the document, signs ( ) \\\\sqrt of positive height and lines of no negative thickness (Advancing; for TrueType fonts these are conditions on the tables, SoundTables). C82_index and C82_negative are the findings and show that the restriction on documents is needed. Ink outside the advance of a glyph is not considered."
  },
  {
   "property": "C83",
   "status": "proved",
   "theorems": [
    "Verif.Props.C83_grammar",
    "Verif.Props.C83_panics",
    "Verif.Props.C83_unambiguous"
   ],
   "note": "Equivalence, for every byte string and every set of Unicode letters. The lexemes and the grammar are inductive definitions in Spec/Grammar.lean that do not mention the scanner or the parser; they use the UTF-8 decoding of the model and the tables of names in macros.go and tex2unicode."
  },
  {
   "property": "C84",
   "status": "proved",
   "theorems": [
    "Verif.Props.C84_same",
    "Verif.Props.C84_once",
    "Verif.Props.C84_bad",
    "Verif.Props.C84_ends",
    "Verif.Props.C84_faces",
    "Verif.Props.C84_render"
   ],
   "note": "Interleavings of single memory operations (sequentially consistent; sync.Once is modelled from its source in the Go library: atomic flag, mutex, deferred store). Parsing a file is a parameter that gives a font or an error. C84_ends is for infinite fair schedules."
  },
  {
   "property": "C85",
   "status": "proved",
   "theorems": [
    "Verif.Props.C85_box",
    "Verif.Props.C85_formula",
    "Verif.Props.C85_dimensions",
    "Verif.Props.C85_drawing",
    "Verif.Props.C85_exact",
    "Verif.Props.C85_rounding",
    "Verif.Props.C85_render",
    "Verif.Props.C85_kerning"
   ],
   "note": "A change of scale is a structure of functions on lengths, sizes and resolutions with the laws used (Spec/Zoom.lean); multiplication by positive rationals is an instance. C85_box and C85_formula hold for every kind of number with these laws; the others are for exact numbers. C85_drawing and C85_render assume that no glue takes up more than 10^9 points (clamp). C85_rounding and C85_kerning are findings."
  },
  {
   "property": "C86",
   "status": "proved",
   "theorems": [
    "Verif.Props.C86_panics",
    "Verif.Props.C86_vlistOf",
    "Verif.Props.C86_natural",
    "Verif.Props.C86_centred"
   ],
   "note": "Exact arithmetic (C86_panics: every arithmetic). C86_centred is for elements without glue of their own, and room of at most 2*10^9 points (clamp)."
  },
  {
   "property": "C87",
   "status": "proved",
   "theorems": [
    "Verif.Props.C87_nearest",
    "Verif.Props.C87_compare",
    "Verif.Props.C87_width",
    "Verif.Props.C87_pen",
    "Verif.Props.C87_forward",
    "Verif.Props.C87_drawing",
    "Verif.Props.C87_set",
    "Verif.Props.C87_centred"
   ],
   "note": "The binary64 model is compared with the processor by tools/conf (200000 random operations). C87_drawing: trees of at most N = 2^52 additions and less than 2^1023 points of length, glue stretched or shrunk by R at most in each list, N * R at most 2^50. C87_set, C87_centred: lengths up to 2^28 points in all. Operations are not fused (as on amd64)."
  },
  {
   "property": "C88",
   "status": "proved",
   "theorems": [
    "Verif.Props.C88_whole"
   ],
   "note": "Exact arithmetic; composes C75, C76 and C82, with their hypotheses. What the PNG encoder and the rasteriser of gg do with the marks is outside the model."
  },
  {
   "property": "C89",
   "status": "proved",
   "theorems": [
    "Verif.Props.C89_lines",
    "Verif.Props.C89_panics",
    "Verif.Props.C89_closed",
    "Verif.Props.C89_many"
   ],
   "note": "Follows from the grammar of C83: lexemes look ahead by one character and never beyond a line break they end with. The panic is compared with C90."
  },
  {
   "property": "C90",
   "status": "proved",
   "theorems": [
    "Verif.Props.C90_reads",
    "Verif.Props.C90_panics",
    "Verif.Props.C90_one",
    "Verif.Props.C90_blamed",
    "Verif.Props.C90_unhandled",
    "Verif.Props.C90_all"
   ],
   "note": "Panics are values of the model type Panic: kind, and the character, name or expected brace; the rest of the text of a Go panic (the token got instead) is not modelled."
  },
  {
   "property": "C91",
   "status": "proved",
   "theorems": [
    "Verif.Props.C91_render",
    "Verif.Props.C91_parse",
    "Verif.Props.C91_breaks",
    "Verif.Props.C91_comment",
    "Verif.Props.C91_lines",
    "Verif.Props.C91_comment_dot",
    "Verif.Props.C91_break_inside",
    "Verif.Props.C91_blanks",
    "Verif.Props.C91_blank_inside"
   ],
   "note": "C91_blanks is stated for the documents of Spec/Doc (C10); C91_render and C91_parse for all sources. The boxes of C91_lines are those before kerns are put between them."
  },
  {
   "property": "C92",
   "status": "proved",
   "theorems": [
    "Verif.Props.C92_nodes",
    "Verif.Props.C92_boxes",
    "Verif.Props.C92_ops",
    "Verif.Props.C92_render",
    "Verif.Props.C92_walk",
    "Verif.Props.C92_walked"
   ],
   "note": "C92_walk and C92_walked speak of walks that return; a visitor that panics ends the walk earlier."
  },
  {
   "property": "C93",
   "status": "proved",
   "theorems": [
    "Verif.Props.C93_seq",
    "Verif.Props.C93_blank",
    "Verif.Props.C93_group",
    "Verif.Props.C93_scripts",
    "Verif.Props.C93_macro",
    "Verif.Props.C93_root",
    "Verif.Props.C93_atoms",
    "Verif.Props.C93_line",
    "Verif.Props.C93_fusion"
   ],
   "note": "C93_fusion is the witness for the condition on the character between two formulas."
  },
  {
   "property": "C94",
   "status": "proved",
   "theorems": [
    "Verif.Props.C94_dimensions",
    "Verif.Props.C94_tame",
    "Verif.Props.C94_drawing",
    "Verif.Props.C94_render"
   ],
   "note": "The fonts are any backend that satisfies Bounded64; C94_drawing is for sources with (48n+1)*16*(8J+V)(n+3)^2*2^k <= 2^50 (at 12 points and J = 2 about 7000 bytes) because the comparison with exact arithmetic (C87) needs it. C94_render: for every source, also where the glyph map holds symbols loaded in text mode (C63): the parentheses are the same glyphs in both modes, and no source has the radical sign as a symbol (Lemmas/Plain)."
  },
  {
   "property": "C95",
   "status": "proved",
   "theorems": [
    "Verif.Props.C95_box",
    "Verif.Props.C95_ink",
    "Verif.Props.C95_hrule",
    "Verif.Props.C95_hrule_drawn",
    "Verif.Props.C95_vrule"
   ],
   "note": "mtex builds no accents; NewAccent is exported by package tex. Where rules are painted vertically is C57 (below the space they reserve)."
  },
  {
   "property": "C96",
   "status": "proved",
   "theorems": [
    "Verif.Props.C96_shrink",
    "Verif.Props.C96_grow",
    "Verif.Props.C96_shrink_once",
    "Verif.Props.C96_grow_once",
    "Verif.Props.C96_twice",
    "Verif.Props.C96_lists",
    "Verif.Props.C96_holds",
    "Verif.Props.C96_parse",
    "Verif.Props.C96_ship",
    "Verif.Props.C96_history"
   ],
   "note": "Model/Heap and Model/HeapMtex write the code with memory explicit; the addresses of new objects are not Go's. C96_lists and C96_history for boxes that share nothing (those Parse returns); C96_shrink, C96_grow and C96_holds also for shared ones. VListOf and VCentered may panic (on a Char, for one), as the model with values does; C96_lists is about the calls that return."
  },
  {
   "property": "C97",
   "status": "proved",
   "theorems": [
    "Verif.Props.C97_replace",
    "Verif.Props.C97_math",
    "Verif.Props.C97_argument",
    "Verif.Props.C97_optional",
    "Verif.Props.C97_group",
    "Verif.Props.C97_top"
   ],
   "note": "A group has no positions in the tree (ast.List of braces): C97_group says there are some. The condition about a MathExpr directly among the trees is needed (example in Props/Excerpt). Arguments outside math are not formulas: blanks are symbols there. Spec/Excerpt says which nodes are places of formulas, and what the tree after an edit is."
  },
  {
   "property": "C98",
   "status": "proved",
   "theorems": [
    "Verif.Props.C98_same",
    "Verif.Props.C98_quiet",
    "Verif.Props.C98_each",
    "Verif.Props.C98_nothing",
    "Verif.Props.C98_pieces",
    "Verif.Props.C98_plain"
   ],
   "note": "The scanner is that of the standard library; its messages are known by their kind (Model/Diag), the order between those about characters and those about tokens is not modelled. Spec/Messages has the literals of Go. Of a call that panics only one direction is proved: what it had not read yet is not complained of."
  },
  {
   "property": "C99",
   "status": "proved",
   "theorems": [
    "Verif.Props.C99_final",
    "Verif.Props.C99_lines",
    "Verif.Props.C99_alike",
    "Verif.Props.C99_hope",
    "Verif.Props.C99_accepted",
    "Verif.Props.C99_either",
    "Verif.Props.C99_draws",
    "Verif.Props.C99_drawn"
   ],
   "note": "C99_hope is the dichotomy; C99_draws and C99_drawn carry it to mtex.Parse, mtex.Render and the command; C99_final says by the panic alone that a source is hopeless, so its condition also leaves out some that are (a brace that closes nothing; a letter where the brace of an argument is expected). What is written after a source begins on a line of its own; comments and quoted strings may go on there."
  },
  {
   "property": "C100",
   "status": "proved",
   "theorems": [
    "Verif.Props.C100_returns",
    "Verif.Props.C100_box",
    "Verif.Props.C100_kern"
   ],
   "note": "C100_returns for every arithmetic; C100_box is exact arithmetic (with the infinities and NaN). That the first source is accepted by itself is a hypothesis next to its being complete. The condition on full stops is that of C91 (the finding C61)."
  }
 ]
}