PARTIAL=set()
NOTES.update({
"C01":"Termination as a bound on recursion depth, linear in the input length, for every input.",
"C02":"The nil error is read off the source (parser.go:19,55); the theorem covers the list and its elements.",
"C04":"General statement plus a witness that the run of line breaks can be non-empty.",
"C06":"Subsequence theorem for every input; conservation for inputs without % and without backslash-blank (which math drops, shown by a witness).",
"C15":"Both modes, and the witness on which End and Walk panic.",
"C25":"Ordering and containment for terminated non-empty constructs; End is off by one for delimited nodes; witness for empty groups.",
"C07":"All break strings, all inputs; panics included.",
"C08":"All comment bodies without newline and double quote.",
"C09":"General statement and a witness.",
"C10":"Every document of the grammar in Spec/Doc.lean; plus unambiguity.",
"C12":"Any nesting of unclosed constructs at end of input; exact dichotomy accepted/panic.",
"C16":"All digit strings and words; also the letters e/E/p/P.",
"C17":"Any nesting prefix (Spec.Open), any continuation.",
})
NOTES.update({
"C24":"Exact panic condition, injectivity up to positions and math delimiters (Spec.bare), for every notion of printable non-ASCII runes.",
"C26":"All integers.",
"C30":"All argument lists and all map iteration orders; also the table behind IsSpaced.",
"C31":"Exact characterisation of results and panics in both modes; UTF-8 specified by encoding (Spec.utf8).",
})
NOTES.update({
"C40":"For every arithmetic (IEEE included).",
"C41":"For every arithmetic with the laws of math.Max.",
"C42":"For every arithmetic and backend.",
"C43":"For every arithmetic; conservation in exact arithmetic.",
"C44":"For every arithmetic; that glue takes up exactly the slack in exact arithmetic.",
"C45":"For every arithmetic, with a witness for the stale setting and the theorem that drawing does not see it.",
"C46":"Negation of the documented limit, with the behaviour for every history of Shrink/Grow.",
"C47":"Exact arithmetic; accents excluded, as their metrics are re-read.",
"C48":"For every arithmetic.",
"C49":"Exact arithmetic, any offsets including infinite ones.",
"C50":"For every arithmetic.",
"C51":"For every arithmetic.",
"C52":"For every arithmetic.",
"C53":"Exact arithmetic.",
"C54":"Exact arithmetic.",
"C55":"Exact arithmetic.",
"C57":"Exact arithmetic.",
})
NOTES.update({
"C32":"All names starting with a backslash; the two tables agree up to the parentheses; mtex.Parse never panics with 'unknown macro'. Found: four blanks mtex can draw are refused by ParseExpr.",
"C58":"For every arithmetic, source, size, resolution and backend whose knowledge of a symbol depends on symbol, font type and mode only, and of an x-height on the font type only.",
"C59":"For every arithmetic and backend; composed with C48 for the shipped drawing.",
"C60":"For every group content; witness ${x}$.",
"C61":"For every input and literal; witness 3.14 after 'a.'.",
"C62":"For every tree and visitor state.",
})
NOTES.update({
"C56":"Exact arithmetic, every backend whose metrics scale with the font size; the flat case shown too.",
"C63":"All histories of calls, for every arithmetic with the laws of == on float64 (NaN and zeros included) and every font library; witnesses for the dependence on history.",
"C64":"All sequences of calls. That the slice returned by Ops is not overwritten by later appends is Go's semantics of append, modelled by an immutable list.",
"C65":"For every arithmetic with the laws of ==, every font library whose Kern reports no error other than 'not found', every expression and renderer. The stateful backend is modelled and shown to simulate a function; composed with C59 down to the glyphs on the canvas. Found: text-mode macros draw a backslash; a shrunk text-mode hyphen is drawn as a minus sign it was not measured as.",
})
NOTES.update({
"C67":"For every arithmetic in which zero is neither positive nor infinite and shrinks to itself (float64 has these), every backend.",
})
NOTES.update({
"C69":"For every arithmetic with the laws of ==, every font library without errors, every expression. Exact condition; the list of accepted names without a character is exact; witnesses \\frac{é}{2} and $\\setminus$. C69_xheight is for every font library and set of fonts: a necessary condition.",
})
NOTES.update({
"C66":"Exact arithmetic, every backend; slack at most 10^9 points (beyond it the glue is clamped, C49). The positions are stated by coordinates (Spec/Paint.lean), which C70 ties to Ship.Call.",
"C70":"Exact arithmetic (the pen is moved by sums, which floating point would round in another order); every tree.",
"C71":"Exact arithmetic: the statement is about the formulas, overflow of float64 is not modelled. End to end down to the calls on the renderer for the TrueType backend.",
"C72":"Exact arithmetic, every backend with proportional metrics for the radical sign. Found: the body moves by up to half a point because stretched glue is rounded.",
})
NOTES.update({
"C68":"Exact arithmetic, every backend and history; numerical example.",
"C73":"For every arithmetic, backend and source; the list of names is the one of mtex/symbols.",
"C74":"For every arithmetic with the laws of == and every font library; numerical example with 6 and 60 points.",
})
NOTES.update({
"C75":"For every arithmetic; the libraries (gg, opentype, png, fpdf) are parameters: the theorem is about the calls made on them and a small stated semantics of gg (Spec/Draw.lean).",
"C77":"For every arithmetic and font library; flag parsing, logging and -gui are not modelled.",
})
NOTES.update({
"C76":"Exact arithmetic. Lines must have a positive thickness of at most about 2.5*10^8 points (beyond it the glue is clamped, C49) and the sign of the radical must cross the baseline. C76_inside allows a glyph measured in text to have the extents of either mode; C76_formula (only formulas) fixes it to math mode. C76_sharp shows that the half points are attained. C76_render is the end-to-end form: mtex.Render with TrueType fonts, for documents made of formulas, keeps every line and glyph (with the extents recorded with it) on the page it announces; it needs a font size of at most 10^9 and TrueType kerning that does not fail.",
})

NOTES.update({
"C78":"Exact arithmetic. C78_answer is an equivalence (exactly when Metrics answers, and what); C78_advance and C78_resolution are the findings, C78_witness a font of 1000 units. The theorems speak of a fresh backend; C63 relates later answers to those of a fresh one.",
"C79":"C79_blank in exact arithmetic, C79_hspace and C79_text in every arithmetic. C79_backslash is the finding.",
})

NOTES.update({
"C80":"For every arithmetic (C80_crash_when needs the laws of == and of zero, and fonts with all glyphs). The toolkit gives the events, the widgets it lays out, the text of the editor and the clicks. Layout of headings and borders is not modelled; the decoder is taken to give back the image that was encoded.",
"C81":"For every arithmetic; the semantics of the toolkit (save/load of origin and clip, offset, outline, fill) is stated in Spec/Gui.lean.",
})

NOTES.update({
"C74":"For every arithmetic with the laws of == and every font library; numerical example with 6 and 60 points. C74_answer (exact arithmetic) is an equivalence for a fresh backend; C74_units: at which size the answer is the kerning of the font.",
"C82":"Exact arithmetic. The backend must give advances proportional to the size, none negative, kerning of at most the advance of either glyph at the size of the document, signs ( ) \\\\sqrt of positive height and lines of no negative thickness (Advancing; for TrueType fonts these are conditions on the tables, SoundTables). C82_index and C82_negative are the findings and show that the restriction on documents is needed. Ink outside the advance of a glyph is not considered.",
})

NOTES.update({
"C83":"Equivalence, for every byte string and every set of Unicode letters. The lexemes and the grammar are inductive definitions in Spec/Grammar.lean that do not mention the scanner or the parser; they use the UTF-8 decoding of the model and the tables of names in macros.go and tex2unicode.",
})

NOTES.update({
"C84":"Interleavings of single memory operations (sequentially consistent; sync.Once is modelled from its source in the Go library: atomic flag, mutex, deferred store). Parsing a file is a parameter that gives a font or an error. C84_ends is for infinite fair schedules.",
})

NOTES.update({
"C85":"A change of scale is a structure of functions on lengths, sizes and resolutions with the laws used (Spec/Zoom.lean); multiplication by positive rationals is an instance. C85_box and C85_formula hold for every kind of number with these laws; the others are for exact numbers. C85_drawing and C85_render assume that no glue takes up more than 10^9 points (clamp). C85_rounding and C85_kerning are findings.",
})

NOTES.update({
"C86":"Exact arithmetic (C86_panics: every arithmetic). C86_centred is for elements without glue of their own, and room of at most 2*10^9 points (clamp).",
})

NOTES.update({
"C87":"The binary64 model is compared with the processor by tools/conf (200000 random operations). C87_drawing: trees of at most N = 2^52 additions and less than 2^1023 points of length, glue stretched or shrunk by R at most in each list, N * R at most 2^50. C87_set, C87_centred: lengths up to 2^28 points in all. Operations are not fused (as on amd64).",
})

NOTES.update({
"C88":"Exact arithmetic; composes C75, C76 and C82, with their hypotheses. What the PNG encoder and the rasteriser of gg do with the marks is outside the model.",
})

NOTES.update({
"C89":"Follows from the grammar of C83: lexemes look ahead by one character and never beyond a line break they end with. The panic is compared with C90.",
})

NOTES.update({
"C90":"Panics are values of the model type Panic: kind, and the character, name or expected brace; the rest of the text of a Go panic (the token got instead) is not modelled.",
})

NOTES.update({
"C91":"C91_blanks is stated for the documents of Spec/Doc (C10); C91_render and C91_parse for all sources. The boxes of C91_lines are those before kerns are put between them.",
"C92":"C92_walk and C92_walked speak of walks that return; a visitor that panics ends the walk earlier.",
})

NOTES.update({
"C93":"C93_fusion is the witness for the condition on the character between two formulas.",
})

NOTES.update({
"C94":"The fonts are any backend that satisfies Bounded64; C94_drawing is for sources with (48n+1)*16*(8J+V)(n+3)^2*2^k <= 2^50 (at 12 points and J = 2 about 7000 bytes) because the comparison with exact arithmetic (C87) needs it. C94_render: for every source, also where the glyph map holds symbols loaded in text mode (C63): the parentheses are the same glyphs in both modes, and no source has the radical sign as a symbol (Lemmas/Plain).",
})

NOTES.update({
"C95":"mtex builds no accents; NewAccent is exported by package tex. Where rules are painted vertically is C57 (below the space they reserve).",
})

NOTES.update({
"C96":"Model/Heap and Model/HeapMtex write the code with memory explicit; the addresses of new objects are not Go's. C96_lists and C96_history for boxes that share nothing (those Parse returns); C96_shrink, C96_grow and C96_holds also for shared ones. VListOf and VCentered may panic (on a Char, for one), as the model with values does; C96_lists is about the calls that return.",
})

NOTES.update({
"C97":"A group has no positions in the tree (ast.List of braces): C97_group says there are some. The condition about a MathExpr directly among the trees is needed (example in Props/Excerpt). Arguments outside math are not formulas: blanks are symbols there. Spec/Excerpt says which nodes are places of formulas, and what the tree after an edit is.",
})

NOTES.update({
"C98":"The scanner is that of the standard library; its messages are known by their kind (Model/Diag), the order between those about characters and those about tokens is not modelled. Spec/Messages has the literals of Go. Of a call that panics only one direction is proved: what it had not read yet is not complained of.",
})

NOTES.update({
"C99":"C99_hope is the dichotomy; C99_draws and C99_drawn carry it to mtex.Parse, mtex.Render and the command; C99_final says by the panic alone that a source is hopeless, so its condition also leaves out some that are (a brace that closes nothing; a letter where the brace of an argument is expected). What is written after a source begins on a line of its own; comments and quoted strings may go on there.",
"C100":"C100_returns for every arithmetic; C100_box is exact arithmetic (with the infinities and NaN). That the first source is accepted by itself is a hypothesis next to its being complete. The condition on full stops is that of C91 (the finding C61).",
})
