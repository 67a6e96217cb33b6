# Formal model of go-latex/latex in Lean 4

Layout: `lean/Verif/Model` is the code, function by function, with the Go lines cited;
`lean/Verif/Spec` holds the small specifications the theorems are stated against;
`lean/Verif/Lemmas` are helper proofs; `lean/Verif/Props` holds the property theorems
(`Cnn_*`) with concrete cases beside them; `lean/Verif/Conformance` evaluates the model in
the kernel on cases taken from the repository's tests.

## 1. What is modelled

| Lean module | Go code |
|---|---|
| `Model/Bytes`, `Model/Utf8` | Go strings as byte lists, `bs!"..."` literals; `unicode/utf8.DecodeRune`, encoding, the rune-by-rune view of a string |
| `Model/TextScanner` | standard library `text/scanner` in the configuration of `scanner.go:newScanner` |
| `Model/Scanner` | `scanner.go` |
| `Model/Diag` | the messages `text/scanner` prints on standard error, and `scanner.go`, `parser.go` a second time, with them |
| `Model/Kind` | `token/token.go`, `token/kind_string.go` |
| `Model/Tables` (generated by `tools/gen_tables.py` from the Go files) | tables of `macros.go`, `mtex/macros.go`, `internal/tex2unicode/utf8.go`, `mtex/symbols/symbols_gen.go`, `mtex/parser.go:spaceWidth` |
| `Model/Ast` | `ast/ast.go` (nodes, Pos, End), `ast/walk.go` |
| `Model/Print` | `ast.Print`, with `strconv.Quote` |
| `Model/Parser` | `parser.go`, `macros.go` |
| `Model/Symbols` | `mtex/symbols/set.go`, `symbols.go`, `internal/tex2unicode/utf8.go:Index,HasSymbol` |
| `Model/Float`, `Model/Exact`, `Model/Ieee` | float64 as an abstract arithmetic without laws; an exact instance; IEEE 754 binary64 as an instance |
| `Model/Box` | `tex/box.go` lines 1-905 (nodes, Shrink/Grow, kerning, glue, packing, AutoHeightChar), `tex/utils.go`, `tex/state.go`, `tex/tex.go` |
| `Model/Heap`, `Model/HeapShip`, `Model/HeapMtex` | the same code of `tex/box.go` (Shrink, Grow, kerning, packing, lists, AutoHeightChar, Ship) and of `mtex/parser.go` a second time, with nodes as objects in a memory and lists holding their addresses |
| `Model/Ship` | `tex/box.go` lines 906-1226 (`Ship`) |
| `Model/Mtex` | `mtex/parser.go`, `mtex/macros.go` |
| `Model/Ttf` | `font/ttf/ttf.go` (backend with its glyph map), `drawtex/canvas.go` |
| `Model/Run` | `mtex.Parse` and `mtex.Render` (`mtex/render.go`) over the stateful TrueType backend |
| `Model/Draw` | `drawtex/drawimg/drawimg.go`, `drawtex/drawpdf/drawpdf.go` up to the calls on the drawing libraries; `cmd/mtex-render/main.go` |
| `Model/Gui` | `cmd/mtex-render/gio.go`: the event loop, the widgets that show formulas, the renderer up to the calls on the toolkit |
| `Model/Fonts` | `Fonts` of `font/lm/lm.go` and `font/liberation/liberation.go` as a multi-threaded program over `sync.Once`; `ttf.NewFrom` and `defaultFonts` of `font/ttf/ttf.go` |

Conventions:

* A Go string is a list of byte values. A panic is a value (`Res.panic`, with the site that
  raised it). Recursion that Go runs unbounded takes a fuel argument; running out of it is a
  third, distinct outcome (`Res.fuel`), which C01 (parser), C20-C22 (walk), C58/C69 (mtex)
  prove never happens.
* Methods that mutate their receiver return the new value. In most of the model node trees are
  values, not pointers. `Model/Heap` and `Model/HeapMtex` write the same code with the memory
  explicit (`Model/HeapShip`: `Ship`), and C96 proves that whatever is built by `mtex.Parse`, and by the lists of `tex` from
  nodes that share nothing, behaves as the values do; a node put twice into a list does not
  (C96_twice). What `Ship` writes into the tree (C50) is modelled.
* Backends: `Model/Box` takes a backend as functions (`Backend`: metrics, kerning, x-height,
  underline thickness and whether a glyph is known; asking for an unknown one panics). The
  TrueType backend has state (its glyph map): `Model/Run` threads it through every call of
  the layout code, and `Lemmas/Run`, `RunWalk` prove that each run behaves as some pure
  backend, so that theorems over all backends carry over (C65, C69, C71).
* float64: class `GoFloat`, operations without laws. Theorems over `[GoFloat F]` hold for IEEE
  arithmetic as evaluated by Go, including NaN, infinities and any rounding. (Go may fuse
  `x*y + z` on some architectures; the model has separate operations. A law-free theorem
  that equates two evaluations of the same expression is unaffected.) Where laws are needed
  they are named classes (`MaxLaws`, `EqLaws`, `ZeroLaws`), proved for the IEEE 754 binary64 arithmetic of
  `Model/Ieee` in `Props/Ieee`, or the theorem is stated for the
  exact instance `XR` (rationals with infinities and NaN following IEEE's rules for
  those), and the manifest note says "exact arithmetic".

Not modelled: the embedded font data of `font/lm`, `font/liberation` (parsing a file is a parameter
of the model that may fail),
the window toolkit (gioui.org: its events and layouts are inputs of the model), `ci/`, the generators `gen-*.go`, the test backend
`internal/fakebackend` (its tables are used for conformance runs only), the number `XHeight` of the
TrueType backend answers (whether it panics is modelled; its one caller `AutoHeightChar` makes no use of the number). The libraries `sfnt`/`opentype` are parameters (`Sfnt H`: each method a function of
its arguments, possibly failing); `gg`, `fpdf`, `png` are the boundary at which calls are
recorded.

## 2. How each property is proved

Properties without a line cannot be missing: every id of `properties.jsonl` is listed.

* C01: each token consumes input; fuel adequacy by induction on the remaining input.
* C02-C06, C11, C13-C15, C17, C25: soundness of the parser against a declarative relation
  between trees and token sequences (`Spec/Tree`), a tiling theorem of the scanner (tokens are
  slices of the source, in order, separated by blanks and comments only), then induction over
  that relation. C06 both ways: what is lost is listed exactly.
* C07-C09: simulation between two runs of scanner and parser (offset shift, comment).
* C10, C12, C16, C17: a document grammar with its own source rendering and expected tree
  (`Spec/Doc`); induction over documents.
* C20-C24: induction over trees; C21 against an explicit specification of the calls; C24 by
  unique decodability of the printed text.
* C26, C31, C32: finite tables checked completely by the kernel and lifted by lemmas; the
  unbounded part (all integers, all strings) by case analysis.
* C30: refinement of the map-based set to a mathematical set, over all iteration orders.
* C40-C45, C47: induction over lists of boxes; C45 compares packings of lists with different
  histories. C46: closed form of the state after any history of Shrink/Grow.
* C48-C52, C54, C55, C57: induction over box trees against event and pen specifications
  (`Spec/Ship`). C53: exact arithmetic of one stretched glue on either side. C56: exact
  arithmetic, proportional metrics.
* C58-C62, C67: a pure "collect" recursion equal to the visitor (`Lemmas/Mtex`), then induction
  over syntax trees; C67 through a closure principle for everything mtex builds
  (`Lemmas/Built`).
* C63-C65, C69: invariants over histories of the glyph map; simulation of the stateful run by
  a pure backend; C69 by computing the exact domain of every table involved.
* C66, C72: exact arithmetic on the coordinates (C70).
* C68, C73, C74: case analysis over the code paths, with the symbol tables checked by the kernel.
* C70: induction over box trees (Ship's pen equals a closed form).
* C71: closure principle, exact arithmetic.
* C75: induction over the operations of the canvas. C77: case analysis of the command, composed
  with C69.
* C76: an invariant of box trees (every box holds what it is made of) kept by all constructions of
  mtex, counted by nested bars, and induction over the trees for the drawing (`Lemmas/Contain`); for
  mtex.Render composed with the simulation of the memoizing backend (C65).
* C82: an invariant of box trees (every list is as wide as what it holds, kerning and glue included, and
  no part begins left of it), kept by all constructions of mtex in documents where nothing goes back;
  for mtex.Render composed with the simulation of the memoizing backend.
* C83: lexemes and grammar as inductive definitions (`Spec/Grammar`). The scanner reads a lexeme (by
  cases) and every lexeme is read (uniqueness of each kind of lexeme); the relational semantics of the
  parser is included in the grammar by induction on it, and the grammar in it by mutual induction.
* C78: exact arithmetic on the answers of the font library; UTF-8 round trip by cases. C79: the
  table of widths checked completely, lifted to every backend and state.
* C80: invariant of the event loop, related to the history of events (last text, last commit, last
  picture, F11 since the last frame); the crash condition composed with C69. C81: the calls run on a
  small semantics of the toolkit's stack.

* C84: small-step semantics of concurrent calls of `sync.Once` (fast path, mutex, deferred store of
  the flag); an invariant of the memory over every schedule; termination under fair schedules by a
  measure on the call that holds the mutex.
* C85: a change of scale is a structure with the laws it needs (`Spec/Zoom.lean`); every function of
  the layout is shown to commute with it (`Lemmas/Zoom.lean`), then the walk over the syntax tree
  (`Lemmas/ZoomWalk.lean`); `Ship` is a simulation with an error that grows by one rounding for each
  list with glue (`Lemmas/ZoomShip.lean`).
* C86: from the rules of `VPack` (C43, C44), the advance of the vertical loop and the fact that moving
  the origin moves what is drawn (`Lemmas/ShipRun.lean`, `Lemmas/ShipMove.lean`).
* C87: `Model/Ieee.lean` defines binary64 (rounding to nearest, ties to even, overflow, signed zeros,
  NaN) on rationals; `Lemmas/Ieee*.lean` prove monotonicity, nearness and relative error of the rounding;
  `Ship` in float64 is simulated by `Ship` in exact arithmetic with an error that grows by one rounding
  per addition (`Lemmas/IeeeShip.lean`). Where glue is set, `math.Round` may turn a rounding error into a
  point (compare C85): the glue variables of the two runs differ by 1 at most (`Lemmas/IeeeGlue.lean`), so
  the pens of a list do, but for the roundings; an example in `Props/Ieee.lean` shows that it happens.
  Lists packed to a width (C53, C54 in float64): the errors of the natural width, of the division by the total
  stretch and of the multiplication by it again, and of the rounding (`Lemmas/IeeeSet.lean`).
* C88: composition of C75 (marks of an image), C76 and C82 (what Render gives lies on the page), rounding up to pixels.
* C89: in the grammar of C83: a lexeme depends on at most one character after it, and on none if it ends with a line break (`Lemmas/Concat`:
  `lexes_cut`); an item depends only on its own lexemes (`items_cut`); then C83 both ways, and C07 for the positions.
* C90: `Spec/Errors` gives, on lexemes, the reasons for which items, lists and arguments are wrong, next to the grammar of C83. `Spec.Reads` is `Spec.Lexes`
  up to the first character that begins no lexeme; it is total and unique because `Scan` is (`scan_stuck`: it panics at such characters only).
  Reasons become failing derivations of the parser (`Lemmas/Fail`), by mutual induction; every list of lexemes parses or has a reason (`parse_or_fail`,
  induction on its length), so that the reasons are all there are (`Lemmas/GrammarFail`).
* C91: a relation between trees (`Lemmas/Depends`: `Alike`) that visiting respects, by induction on the fuel of the visitor and on the relation, for the run with the
  TrueType backend as for the functional model; it follows from equal bare trees and the two tests of `handleSymbol`, which `C73`'s `Tight` and C61's
  `FirstDotDecimal` describe. Blanks: induction on documents (`Lemmas/Tidy`): the character before each leaf is kept, and the first full stop is that of an item.
* C92: on the grammar of C83: lexemes are as wide as their texts and not empty (`Lemmas/Size`: `lexes_fit`), induction on derivations (`items_size`);
  a weight of trees between both sizes bounds the boxes (with room for a kern after each) and the marks of every handler (`build_small`, `walk_small`);
  the operations of `Ship` are counted by C48. Walk: a counting visitor (`Spec.counting`), by induction on the tree.
* C93: `Spec/Template` defines formulas by ParseExpr itself. By the grammar of C83 a formula has lexemes that stay the same before any neutral character and
  anywhere (`Lemmas/Template`: `lexes_part`), and items that can be followed by any others (`items_part`); the templates are built from such parts
  (`Props/Template`: `Part`).
* C94: whole multiples of a power of two are float64 numbers, so rounding does not cross them (`Lemmas/Grid`): bounds on this grid add up without rounding errors.
  An invariant of boxes with bounds for width, height and depth in units (`Lemmas/GridBox`), for every handler of mtex (`GridAuto`, `GridBuilt`, `GridFrac`, `GridSqrt`),
  then the walk over the tree (`GridWalk`), weighed by the bytes of the source (C92); the drawing by C67 and C87.
  `C94_render`: the metrics of ttf.go with relative errors (`Lemmas/GridTtf`) make the TrueType backend one of bounded dimensions; then as C65_call, for every source: a symbol that was loaded in text mode is not the radical sign (`Lemmas/Plain`, from the grammar of C83), and the parentheses are the same glyphs in both modes.
* C95: induction on the history (the metrics are looked up again at each step); the drawing by the composition of C55.
* C96: a heap of objects, and a relation between an address and the tree below it with the addresses met (`Spec/Heap`: `At`); the recursion of Shrink by
  induction on the tree (a rank that decreases shows that a list below itself cannot be a tree), everything that builds boxes by a step-by-step comparison
  (`Lemmas/HeapRun`: `Run`) of the program on objects with that on values, for the objects held so far, none of which is met twice.
* C97: by the grammar of C83 every list of trees in the tree of a sentence has its lexemes in the source, between the delimiters (`Lemmas/Excerpt`: `items_found`);
  if the math around it is closed it is closed too, its items can be ended by a dollar sign instead (`items_ended`), and lexemes and items can be moved back
  to the beginning (`lexes_back`, `items_back`). Replacing (`Lemmas/Edit`: `replaced`): induction over the grammar; what is before the place is as it was
  (starts of lexemes increase), what is after it is moved, and the place itself is found by its position, which no other lexeme has.
* C98: a copy of the parser with a log (`Model/Diag`) does what the parser does, and what it logs is what the scanner says of the tokens between the two states
  (`Lemmas/Diag`: `LSim`, by induction on the fuel). That it says nothing of a number or string exactly if it is a literal of Go is proved from the parts of a
  number (`Lemmas/DiagNum`: `num_core`; the separators by induction, `sep_digits`) and by induction over the string (`Lemmas/DiagText`).
* C99: on the lexemes (C90), `Lemmas/Final`, `Hope`, `HopeLex`: by induction on why the first item is wrong, either more lexemes close what is open (`Comp`), or the reason stays when lexemes are appended and the last one changes as a line break can change it (`Lost`)
* C100 (`Props/Beside`): the nodes of the two are those of the first and of the second (C91); the width of a kerned list is a sum in which the kern of the last node splits (`kernedWidth_next`), heights and depths are maxima (`hsum_max`); that mtex.Parse returns is C58, whose condition on trees does not look at positions (`drawable_shift`)

## 3. Trusted base

* Lean 4.33.0 kernel; every theorem depends at most on `propext`, `Classical.choice`,
  `Quot.sound` (checked by `#print axioms` over all theorems of the manifest, by vcheck). No axiom is
  added; nothing is compiled code (`decide +kernel` reduces in the kernel).
* The reading of the Go code recorded in the comments of `Verif/Model`.
* The reading of `text/scanner`, `unicode/utf8`, `strconv.Quote` (standard library, Go 1.21),
  done from knowledge of their source because the sandbox has no Go installation.
  `unicode.IsLetter`/`IsDigit` above ASCII, `unicode.Is(unicode.L, ·)` and `strconv.IsPrint` above
  ASCII are arbitrary predicates, `strconv.ParseFloat` an arbitrary partial function.
* For the theorems about float64 (C87): that each Go operation is rounded by itself. The Go language allows
  `x*y + z` to be fused; the compiler does so on some machines (arm64, ppc64, s390x, riscv64), not on amd64.
* `gg.NewContext` is known by whether it panics (too large an image) only; what it does with a negative
  size (gg swaps the corners) is not modelled: the sizes of C75, C77 and C88 are those asked for.
* The generated tables: `tools/gen_tables.py` reads the Go sources; rerunning it reproduces
  `Model/Tables.lean`.

Checks on the reading: `Verif/Conformance` (parser cases of the repository's tests, in the kernel) and
`tools/conf/run.sh` (box, ship and mtex cases of the repository's tests with IEEE doubles and
the tables of fakebackend: 71 cases, none fails; and `Model/Ieee` against the floating-point unit: 200000
random operations, none differs). `seeded/LOG.jsonl` records the wrong
programs the theorems were tested against.

## 4. What the proofs found in the code

The theorem naming the behaviour is in brackets; each has a concrete witness.

* A macro name may contain a line break swallowed by the scanner [C04]; an escaped blank is lost
  [C06]; a double quote in a comment swallows the next line [C09]; unterminated math, groups and
  optional arguments, and missing arguments, are accepted silently [C12]; a script without an
  operand gives a nil child [C15] on which Walk panics [C23]; `_` after a number is part of
  the number [C16]; `End` of math is off by one, an empty group ends before it begins [C25].
* Four blanks mtex can draw are refused by ParseExpr [C32]. 57 names accepted by ParseExpr
  and taken for glyphs stand for no character, so Render panics [C69].
* Packing a list twice can leave a stale GlueSet behind [C45]; Shrink has no floor although
  documented [C46]; Ship overwrites widths of nested lists [C50], panics on a Box or a plain
  List in a list [C51]; rules are painted below the space they reserve [C57], so the bar of
  a fraction is three thicknesses below the numerator and one above the denominator [C66];
  the body of a radical or an overline is moved by up to half a point [C72],
  and may leave the box of the formula [C76]; the sign of a radical with a narrow index begins left of
  the page [C82].
* Braced groups in math are dropped from the drawing [C60]; whether a decimal dot is spaced
  depends on the first dot of the whole expression [C61]; a binary operator at the start of a
  formula is spaced although a comment says otherwise [C73].
* The glyph map ignores the math flag [C63]; macros in text draw a backslash, and a shrunk hyphen in
  text is measured as a hyphen but drawn as a minus sign [C65]; `\frac{é}{2}` panics although `é`
  renders, and without an italic font so does `$\sqrt{1}$` although `$1$` renders [C69]; kerning ignores the size and the face of the font, so that it
  is right at one size only [C74].
* The advance of glyphs is computed as if every font had 2048 units per em, and the resolution given
  to Metrics is ignored [C78]; outside a formula backslash-blank draws a backslash [C79];
  the window dies with the first formula it cannot draw, and shows a stale image for an empty one [C80];
  it draws bold glyphs as if they were not bold [C81].
* A node that is twice in a list is shrunk twice by one Shrink of the list [C96].
* At font size 0 a radical has NaN dimensions [C71].
* A full stop in a comment changes the spacing of the decimal numbers after it; a line break, a comment or a
  backslash-blank between an opening parenthesis and a sign makes the sign a spaced operator [C91].
* ParseExpr prints on standard error of the program that calls it: for `$2e$`, `$08$`, `$1_$`, for a double quote
  in a comment, for a byte that is not UTF-8 (line 29 of scanner.go, which would have kept it quiet, is commented out) [C98].
