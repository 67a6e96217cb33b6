{"id": "C01", "title": "ParseExpr always terminates", "statement": "For every input string, latex.ParseExpr stops: it returns a tree or panics; it never loops or recurses forever, whatever the nesting of braces, dollars, scripts and macro arguments.", "quantifier": "all byte strings (valid UTF-8 or not), all nesting depths", "why_tests_cant": "non-termination on one input of unbounded length cannot be excluded by sampling inputs", "anchors": ["parser.go:ParseExpr", "parser.go:parser.parse", "parser.go:parser.parseNode", "scanner.go:texScanner.scan", "scanner.go:texScanner.scanComment"]}
{"id": "C02", "title": "ParseExpr never returns a non-nil error and always yields a list", "statement": "Whenever latex.ParseExpr returns, its error is nil and its node is an ast.List, each of whose elements is a non-nil node; malformed input is signalled only by a panic.", "quantifier": "all byte strings", "why_tests_cant": "a claim about every input; a caller that only checks err must know err carries no information", "anchors": ["parser.go:ParseExpr", "parser.go:parser.parse"]}
{"id": "C03", "title": "Leaf text fidelity", "statement": "For every Word, Literal and Symbol node in the tree returned by ParseExpr(x), the source slice x[n.Pos():n.End()] is exactly n.Text.", "quantifier": "all byte strings x on which ParseExpr returns, all leaf nodes at any depth", "why_tests_cant": "every input and every nesting; off-by-one errors show up only for multi-byte runes, skipped white space or a byte-order mark", "anchors": ["ast/ast.go:Word", "ast/ast.go:Literal", "ast/ast.go:Symbol", "scanner.go:texScanner.scan", "scanner.go:texScanner.pos"]}
{"id": "C04", "title": "Macro name fidelity up to swallowed line breaks", "statement": "For every macro in the tree returned by ParseExpr(x), x has a backslash at the name's Pos, followed by a run of tabs, newlines and carriage returns, followed by the rest of the recorded name. The run can be non-empty, in which case x[Pos:End] differs from the recorded name.", "quantifier": "all byte strings x on which ParseExpr returns, all macros at any depth", "why_tests_cant": "every input; the white-space case is not in any test", "anchors": ["scanner.go:texScanner.scanMacro", "ast/ast.go:Ident", "macros.go:builtinMacro.parseMacro"]}
{"id": "C05", "title": "Source order of leaves", "statement": "In the tree returned by ParseExpr, the leaves (words, literals, symbols, macro names) met in depth-first order have strictly increasing positions and pairwise disjoint source extents: each leaf ends at or before the start of the next one.", "quantifier": "all byte strings on which ParseExpr returns, all pairs of leaves", "why_tests_cant": "every tree of every shape", "anchors": ["parser.go:parser.parse", "parser.go:parser.parseNode", "ast/ast.go:Node"]}
{"id": "C06", "title": "No content is lost, invented or reordered by ParseExpr", "statement": "The concatenation of all leaf texts of the tree in depth-first order is always a subsequence of the input. For an input without percent signs and without a backslash directly followed by a blank, it equals the input, once blanks, line breaks, brackets, braces, dollar, caret and underscore characters (and a leading byte-order mark) are deleted from both. (In math an escaped blank is dropped altogether.)", "quantifier": "all byte strings on which ParseExpr returns", "why_tests_cant": "conservation over every input; a dropped branch in a rarely used construct would go unnoticed by examples", "anchors": ["parser.go:parser.parseNode", "parser.go:parser.parseMathExpr", "parser.go:parser.parseMacroArg", "parser.go:parser.parseOptMacroArg", "parser.go:parser.parseSup", "parser.go:parser.parseSub"]}
{"id": "C07", "title": "Leading line breaks only shift positions", "statement": "If w consists of tabs, newlines and carriage returns, and x does not start with a byte-order mark, ParseExpr(w+x) behaves as ParseExpr(x): it panics in the same cases and otherwise returns the same tree with every position increased by len(w) (except the 0 recorded for a missing closing delimiter).", "quantifier": "all white-space prefixes, all byte strings", "why_tests_cant": "relates two runs on inputs of unbounded size", "anchors": ["scanner.go:newScanner", "scanner.go:texScanner.pos"]}
{"id": "C08", "title": "A comment without a double quote ends at its line", "statement": "If body contains no newline and no double quote, ParseExpr(\"%\"+body+\"\\n\"+x) behaves as ParseExpr(x) with positions shifted by the length of the comment line (x not starting with a byte-order mark).", "quantifier": "all comment bodies, all following texts", "why_tests_cant": "all bodies, including ones with digits, macros, braces, dollars and non-ASCII runes", "anchors": ["scanner.go:texScanner.scanComment", "parser.go:parser.parseNode"]}
{"id": "C09", "title": "A double quote in a comment swallows the next line", "statement": "The unrestricted form of C08 is false: there are comment lines after which text on the following line is missing from the tree, namely when the comment holds an unterminated double quote. More precisely for every quote-free a, b, c without newlines, ParseExpr(\"%\"+a+\"\\\"\"+b+\"\\n\"+c+\"\\n\"+x), with b free of backslashes, drops c as well.", "quantifier": "existence of a witness, and all quote-free fragments a, b, c", "why_tests_cant": "tests do not explore quotes inside comments", "anchors": ["scanner.go:texScanner.scanComment", "scanner.go:newScanner"]}
{"id": "C10", "title": "ParseExpr inverts source rendering of the supported language", "statement": "For every document of the supported language (words, integers and decimals, symbols, spaces, line breaks, comments, macros with their mandatory and optional arguments, inline math, braced groups in math, braced and unbraced sub- and superscripts, nested arbitrarily) whose adjacent items do not fuse lexically, ParseExpr of its source text returns exactly its syntax tree, with exact byte positions.", "quantifier": "all documents of the grammar, of any size and depth", "why_tests_cant": "a full functional specification over infinitely many documents", "anchors": ["parser.go:parser.parseNode", "parser.go:parser.parseMathExpr", "parser.go:parser.parseMacro", "parser.go:parser.parseMacroArg", "parser.go:parser.parseOptMacroArg", "parser.go:parser.parseSup", "parser.go:parser.parseSub", "parser.go:parser.parseMathLbrace", "scanner.go:texScanner.scan"]}
{"id": "C11", "title": "Delimiter positions point at delimiters, and a missing closer is recorded as 0", "statement": "In the tree returned by ParseExpr(x): x[Left] is '$' for every MathExpr, x[Lbrace] is '{' for every Arg, x[Lbrack] is '[' for every OptArg, x[UnderPos] is '_' and x[HatPos] is '^' for every Sub and Sup; and the closing position of a MathExpr, Arg or OptArg either points at '$', '}' or ']' respectively, or is 0, and then the whole rest of x was absorbed by that node (nothing follows it in the tree).", "quantifier": "all byte strings on which ParseExpr returns, all delimited nodes at any depth", "why_tests_cant": "every input and nesting, including truncated input", "anchors": ["parser.go:parser.parseMathExpr", "parser.go:parser.parseMacroArg", "parser.go:parser.parseOptMacroArg", "ast/ast.go:Arg", "ast/ast.go:OptArg", "ast/ast.go:MathExpr"]}
{"id": "C12", "title": "Unterminated constructs are accepted silently", "statement": "ParseExpr does not reject an unterminated math expression, argument or script group: for every beginning of a document of the supported language with any nesting of open math expressions, groups, script groups and last macro arguments, ParseExpr of that text alone returns a tree, whose closing positions are 0 so that End() precedes Pos(). If instead a mandatory argument is still missing, it panics.", "quantifier": "all documents of the grammar; existence of a witness", "why_tests_cant": "the behaviour on every truncated input is outside example-based tests", "anchors": ["parser.go:parser.parseMathExpr", "parser.go:parser.parseMacroArg"]}
{"id": "C13", "title": "Macro arity", "statement": "Every macro in the tree returned by ParseExpr is a known macro other than \\genfrac, and its argument list has exactly the shape its signature prescribes: one Arg per mandatory argument, and for an optional argument at most one OptArg, which comes first.", "quantifier": "all byte strings on which ParseExpr returns, all macros at any depth", "why_tests_cant": "every input; callers index Args without checking", "anchors": ["macros.go:parser.addBuiltinMacros", "macros.go:builtinMacro.parseMacro", "parser.go:parser.parseMacro", "parser.go:parser.parseMacroArg", "parser.go:parser.parseOptMacroArg"]}
{"id": "C14", "title": "Shape of parse results", "statement": "In the tree returned by ParseExpr: words are non-empty runs of letters; literals start with a digit, or a dot and a digit; symbols are one of the 17 symbol characters other than '$', '^' and '_', one of '( ) [ ]', or (outside math) a blank or backslash-blank; the delimiter of a MathExpr is \"$\"; bare groups (nested ast.List) and only Arg/OptArg nodes occur inside math or as macro arguments respectively; no element of a list is nil.", "quantifier": "all byte strings on which ParseExpr returns, all nodes at any depth", "why_tests_cant": "every input; consumers switch on these shapes and panic otherwise", "anchors": ["parser.go:parser.parseNode", "scanner.go:texScanner.scan", "ast/ast.go:Node"]}
{"id": "C15", "title": "Script operand", "statement": "A Sub or Sup in the tree returned by ParseExpr has a nil operand only when the script character is directly followed, in math mode, by a blank (or by a comment); such trees exist, and on them End() and ast.Walk panic. When the operand is present it is a group list or a single node.", "quantifier": "all byte strings on which ParseExpr returns, all scripts at any depth; existence of a witness", "why_tests_cant": "the nil operand arises on inputs absent from the tests and breaks every later traversal", "anchors": ["parser.go:parser.parseSup", "parser.go:parser.parseSub", "ast/walk.go:Walk", "ast/ast.go:Sup"]}
{"id": "C16", "title": "Underscore after a number is not a subscript", "statement": "The claim 'in math, every unescaped underscore outside comments opens a Sub' is false: after a number the underscore is absorbed by the literal. For every non-empty decimal digit string d not starting with 0 and every letter string w, ParseExpr(\"$\"+d+\"_\"+w+\"$\") contains the literal d+\"_\" and no Sub (w not fusing as an exponent). Likewise a letter e or p directly after a number is absorbed by the literal.", "quantifier": "all digit strings and letter strings", "why_tests_cant": "tests only use subscripts on words and macros", "anchors": ["scanner.go:newScanner", "parser.go:parser.parseSub"]}
{"id": "C17", "title": "A stray closing brace or an unsupported character is never silently dropped", "statement": "If ParseExpr(x) returns, then every '}' of x that is tokenised as a delimiter closes an open brace group: at top level a '}' makes ParseExpr panic, for every continuation of the input. Likewise, at any nesting depth, a character outside the supported alphabet, a double quote, a '{' outside math, an unknown macro, \\genfrac, and a macro whose mandatory argument does not follow make it panic for every continuation, and so does a trailing script character.", "quantifier": "all documents of the grammar followed by a stray character and any continuation", "why_tests_cant": "all prefixes and all continuations", "anchors": ["parser.go:parser.parseNode", "scanner.go:texScanner.scan"]}
{"id": "C20", "title": "Walk visits in depth-first order with closing nil calls", "statement": "For every tree without nil children and every visitor that never declines, ast.Walk calls Visit on each node before its children, in source order, exactly once per node, and calls Visit(nil) exactly once after the children of each node; the sequence of calls is the well-bracketed depth-first sequence of the tree.", "quantifier": "all trees of any shape and size", "why_tests_cant": "all trees", "anchors": ["ast/walk.go:Walk", "ast/walk.go:walkNodes"]}
{"id": "C21", "title": "Walk honours pruning and visitor replacement", "statement": "For every visitor, whatever state it keeps, whatever it answers and whatever visitor it returns: the children of a node are walked with the visitor returned by Visit(node), the subtree is skipped with no closing call if that visitor is nil, and the effects on the visitor's state are those of the depth-first sequence of calls, in order.", "quantifier": "all trees, all stateful visitors", "why_tests_cant": "all visitor behaviours", "anchors": ["ast/walk.go:Walk", "ast/walk.go:Visitor"]}
{"id": "C22", "title": "Inspect pruning", "statement": "ast.Inspect(node, f) calls f on exactly those nodes all of whose proper ancestors were accepted by f, each once and in depth-first order, and calls f(nil) once for each accepted node, after its accepted descendants.", "quantifier": "all trees without nil children, all pure predicates f on nodes", "why_tests_cant": "all trees and predicates", "anchors": ["ast/walk.go:Inspect", "ast/walk.go:inspector.Visit"]}
{"id": "C23", "title": "Walk fails exactly on reachable nil children", "statement": "ast.Walk with a visitor that never declines panics if and only if the tree has a nil node as an element of a list or as operand of a script; contrary to its documentation it does not skip nil children. On the result of ParseExpr it panics exactly when some script has a nil operand.", "quantifier": "all trees; all byte strings on which ParseExpr returns", "why_tests_cant": "all trees", "anchors": ["ast/walk.go:Walk"]}
{"id": "C24", "title": "Print is total and faithful up to positions", "statement": "ast.Print terminates without panic on every tree whose macros have names, and two trees printed to the same text are equal up to source positions and the delimiter of math expressions.", "quantifier": "all pairs of trees", "why_tests_cant": "injectivity over all pairs of trees, including texts with quotes, commas, braces and invalid UTF-8", "anchors": ["ast/ast.go:Print"]}
{"id": "C25", "title": "Pos and End of parse results", "statement": "For every terminated construct in the tree returned by ParseExpr, Pos() is at most End(), children lie strictly inside the delimiters of their Arg, OptArg or MathExpr, and End() of such a node is the position of its closing delimiter. Hence the documented 'position of first character immediately after the node' is off by one for Arg, OptArg, MathExpr and macros with arguments.", "quantifier": "all byte strings on which ParseExpr returns, all nodes at any depth; existence of a witness", "why_tests_cant": "every input and nesting", "anchors": ["ast/ast.go:Node", "ast/ast.go:Arg.End", "ast/ast.go:MathExpr.End", "ast/ast.go:Macro.End"]}
{"id": "C26", "title": "Token kinds have distinct names", "statement": "token.Kind.String never panics and is injective on all integer values: different kinds, valid or not, print differently.", "quantifier": "all integers used as a Kind (pairs)", "why_tests_cant": "all pairs of integers", "anchors": ["token/kind_string.go:Kind.String", "token/token.go:Kind"]}
{"id": "C30", "title": "Symbol sets behave as mathematical sets", "statement": "symbols.NewSet(vs...).Has(k) holds iff k is in vs; UnionOf(s...).Has(k) iff some set has k; Keys() lists each element once in strictly increasing byte order, for every iteration order of the underlying map.", "quantifier": "all lists of strings, all set lists, all map iteration orders", "why_tests_cant": "all inputs and all (randomised) map iteration orders", "anchors": ["mtex/symbols/set.go:Set", "mtex/symbols/set.go:UnionOf", "mtex/symbols/set.go:NewSet"]}
{"id": "C31", "title": "Symbol to rune mapping", "statement": "tex2unicode.Index(`\\`+k, true) returns the table entry of k for every known symbol k; in text mode Index returns the first rune of any string starting with a valid rune; in math mode it is the identity on every ASCII character but '-', which maps to U+2212; every other string panics.", "quantifier": "all known symbols, all strings, both modes", "why_tests_cant": "all strings", "anchors": ["internal/tex2unicode/utf8.go:Index", "internal/tex2unicode/utf8.go:Symbols"]}
{"id": "C32", "title": "Every macro accepted by ParseExpr has a math handler", "statement": "For every macro name that ParseExpr accepts, mtex finds a handler; mtex.Parse therefore never fails with 'unknown macro', for any input.", "quantifier": "all macro names in the (finite but large) macro table; all byte strings", "why_tests_cant": "tests exercise a handful of the several hundred names; the two tables are maintained by hand", "anchors": ["mtex/parser.go:parser.handler", "mtex/macros.go:builtinMacros", "macros.go:parser.addBuiltinMacros"]}
{"id": "C40", "title": "HPack delivers the requested width", "statement": "After l.HPack(w, false) the width of l is exactly w; after l.HPack(w, true) it is w plus the natural width, the left-to-right sum of its children's widths. Holds for every arithmetic, hence for float64.", "quantifier": "all lists of children of every node type, all w, all arithmetics", "why_tests_cant": "all box lists and all float values", "anchors": ["tex/box.go:HList.HPack", "tex/box.go:Box.hpackDims", "tex/box.go:List.hpackDims", "tex/box.go:Glue.hpackDims", "tex/box.go:Kern.hpackDims"]}
{"id": "C41", "title": "A packed horizontal list encloses its material", "statement": "The height (depth) of a packed HList is non-negative and at least the height minus shift (depth plus shift) of every child with finite extents, and is attained by a child or zero.", "quantifier": "all lists of children", "why_tests_cant": "all box lists", "anchors": ["tex/box.go:HList.HPack", "tex/box.go:List.hpackDims", "tex/box.go:Char.hpackDims"]}
{"id": "C42", "title": "Kerning only inserts kerns", "statement": "HListOf(elements, doKern) keeps the given nodes, in order, and only inserts after an element a Kern whose width is that element's non-zero kerning with its successor (nil for the last); without doKern the children are the elements.", "quantifier": "all element lists, all backends", "why_tests_cant": "all box lists", "anchors": ["tex/box.go:HListOf", "tex/box.go:HList.kern", "tex/box.go:Char.Kerning"]}
{"id": "C43", "title": "VPack delivers the requested height and bounds the depth", "statement": "After l.VPack(h, false, m) the height of l is exactly h; after l.VPack(h, true, m) it is h plus the natural height; the depth never exceeds m, and the excess depth is moved into the height so that height plus depth is conserved.", "quantifier": "all lists of children, all h and m", "why_tests_cant": "all box lists", "anchors": ["tex/box.go:VList.VPack", "tex/box.go:VListOf", "tex/box.go:Box.vpackDims"]}
{"id": "C44", "title": "Glue setting selects the highest infinity order", "statement": "After packing with slack x, a list stretches (shrinks) at order o only if o is the highest order at which the children's stretch (shrink) totals are non-zero, and then total(o) times GlueSet equals x; it is rigid if x is zero or no glue applies.", "quantifier": "all lists of children, all widths", "why_tests_cant": "all combinations of glue", "anchors": ["tex/box.go:determineOrder", "tex/box.go:List.setGlue", "tex/box.go:HList.HPack", "tex/box.go:VList.VPack"]}
{"id": "C45", "title": "Repacking forgets history, except a stale GlueSet", "statement": "The result of HPack or VPack depends only on the children and the arguments, not on earlier packings, in every observable but GlueSet() of a rigid list, which can be stale and which Ship ignores.", "quantifier": "all lists, all histories of packings", "why_tests_cant": "all operation histories", "anchors": ["tex/box.go:HList.HPack", "tex/box.go:VList.VPack", "tex/box.go:List.setGlue"]}
{"id": "C46", "title": "Shrink has no floor; Grow then Shrink is not always the identity", "statement": "Contrary to the documentation ('only three levels of sizes, after which things will no longer get smaller'), for every n, n successive Shrink calls on a fresh node multiply its dimensions by 0.7^n. Shrink after Grow restores the dimensions of a node grown fewer than 6 times net, but not beyond: after 7 Grow and 7 Shrink calls the node is larger than at the start.", "quantifier": "all nodes, all n, all histories of Shrink and Grow", "why_tests_cant": "all histories", "anchors": ["tex/box.go:Box.Shrink", "tex/box.go:Box.Grow", "tex/box.go:Char.Shrink", "tex/box.go:Kern.Shrink", "tex/box.go:Glue.Shrink", "tex/box.go:List.Shrink"]}
{"id": "C47", "title": "Shrinking a packed list keeps it packed", "statement": "If the width of a list is the sum of its children's widths and its height and depth are the maxima over its children, the same holds after Shrink and after Grow (exact arithmetic).", "quantifier": "all lists of children without accents, any depth", "why_tests_cant": "all box trees", "anchors": ["tex/box.go:List.Shrink", "tex/box.go:List.Grow"]}
{"id": "C48", "title": "Ship draws every character exactly once, in order", "statement": "When Ship.Call returns, the glyphs drawn are exactly the characters and accents of the box tree in depth-first order, each with its own font, and every filled rectangle comes from a Rule of the tree, at most one each.", "quantifier": "all box trees of any depth, all offsets", "why_tests_cant": "all box trees", "anchors": ["tex/box.go:Ship.Call", "tex/box.go:Ship.hlistOut", "tex/box.go:Ship.vlistOut"]}
{"id": "C49", "title": "Ship is translation equivariant", "statement": "Shipping a tree at (ox+dx, oy+dy) draws what shipping it at (ox, oy) draws, translated by (dx, dy) (exact arithmetic).", "quantifier": "all box trees, all offsets", "why_tests_cant": "all box trees", "anchors": ["tex/box.go:Ship.Call", "tex/box.go:Ship.hlistOut", "tex/box.go:Ship.vlistOut"]}
{"id": "C50", "title": "Ship can be repeated", "statement": "Shipping a tree changes it (widths of lists inside vertical lists are overwritten), but shipping it again draws exactly the same, and a third time changes nothing further; the root's own dimensions are unchanged.", "quantifier": "all box trees", "why_tests_cant": "all box trees", "anchors": ["tex/box.go:Ship.vlistOut", "tex/box.go:Ship.Call"]}
{"id": "C51", "title": "Ship panics exactly on misplaced nodes", "statement": "Ship.Call panics if and only if the tree contains a Char or Accent directly in a vertical list, or a box that is neither a Rule nor a list but has positive width and height (after running dimensions) directly in a horizontal list.", "quantifier": "all box trees", "why_tests_cant": "all box trees", "anchors": ["tex/box.go:Ship.hlistOut", "tex/box.go:Ship.vlistOut"]}
{"id": "C52", "title": "Ship keeps its cursor balanced", "statement": "After a list inside a horizontal list has been drawn the baseline is restored and the pen has advanced by exactly the list's width; the nesting counter returns to zero and maxPush equals the nesting depth of non-empty lists.", "quantifier": "all box trees", "why_tests_cant": "all box trees", "anchors": ["tex/box.go:Ship.hlistOut", "tex/box.go:Ship.vlistOut"]}
{"id": "C53", "title": "HCentered centres its content", "statement": "After HCentered(elements).HPack(w, false), the content is drawn at horizontal offset (w - natural width)/2 from the left edge of the box, up to rounding to a whole point (at most 1/2).", "quantifier": "all element lists without glue, all widths within the clamp range", "why_tests_cant": "all element lists and widths", "anchors": ["tex/box.go:HCentered", "tex/box.go:NewGlue", "tex/box.go:HList.HPack", "tex/box.go:Ship.hlistOut"]}
{"id": "C54", "title": "A shipped list ends at its width", "statement": "Drawing the children of a horizontal list advances the pen by the list's width when the list is rigid with its natural width, and by the width up to 1/2 when its glue is set.", "quantifier": "all box lists", "why_tests_cant": "all box lists", "anchors": ["tex/box.go:Ship.hlistOut", "tex/box.go:HList.HPack"]}
{"id": "C55", "title": "The drawing of a list is composed of the drawings of its children", "statement": "In exact arithmetic: the drawing of a horizontal list is the concatenation of the drawings of its children, each as if it were the only child of the list shipped further right by the widths (and set glue) before it; a horizontal list inside a horizontal list is drawn as if shipped by itself with its baseline on the outer baseline, lowered by its shift; a list inside a vertical list is drawn as if shipped by itself below what precedes it, moved right by its shift. Characters, accents and rules are drawn at the reference point.", "quantifier": "all box trees, all positions of the child, all offsets", "why_tests_cant": "all box trees", "anchors": ["tex/box.go:Ship.Call", "tex/box.go:Ship.hlistOut", "tex/box.go:Ship.vlistOut"]}
{"id": "C57", "title": "Rules are painted below the space they reserve", "statement": "The claim 'a rule is painted inside the space it reserves' is false: a visible rule of height h and depth d in a horizontal list is painted from d to d+h below the baseline, and in a vertical list the rectangle starts where the reserved space ends.", "quantifier": "all visible rules in any list", "why_tests_cant": "the tests record the coordinates without relating them to the layout", "anchors": ["tex/box.go:Ship.hlistOut", "tex/box.go:Ship.vlistOut", "tex/box.go:Rule.render"]}
{"id": "C56", "title": "AutoHeightChar matches the requested extents", "statement": "With a backend whose metrics scale linearly with the font size, AutoHeightChar(c, h, d, state, 0) yields a box whose height minus shift is h and whose depth plus shift is d, whenever the glyph is not flat (exact arithmetic).", "quantifier": "all characters, heights, depths and linear backends", "why_tests_cant": "all backends", "anchors": ["tex/box.go:AutoHeightChar"]}
{"id": "C58", "title": "mtex.Parse succeeds exactly on the supported trees", "statement": "With a backend that knows all symbols and x-heights, mtex.Parse(x) returns if and only if ParseExpr(x) returns a tree in which no script occurs where it is visited, every math symbol has a handler, punctuation in math is only '.', and \\hspace arguments are numeric literals; otherwise it panics. The error result is always nil.", "quantifier": "all byte strings, all font sizes and resolutions", "why_tests_cant": "all inputs", "anchors": ["mtex/parser.go:Parse", "mtex/parser.go:visitor.Visit", "mtex/parser.go:handleSymbol", "mtex/parser.go:handleCustomSpace", "mtex/parser.go:parser.handler"]}
{"id": "C59", "title": "mtex.Parse keeps characters in order", "statement": "The characters of the box tree built by mtex.Parse(x), in drawing order, are the characters prescribed by the syntax tree: words letter by letter, literals character by character, function names letter by letter, fractions numerator first, binomials between parentheses, roots index first then the radical sign then the body.", "quantifier": "all byte strings on which mtex.Parse returns", "why_tests_cant": "all inputs", "anchors": ["mtex/parser.go:visitor.Visit", "mtex/parser.go:handleFrac", "mtex/parser.go:handleSqrt", "mtex/parser.go:handleBinom", "mtex/parser.go:handleOverline"]}
{"id": "C60", "title": "Braced groups in math are dropped from the drawing", "statement": "The claim 'every word of a math expression is drawn' is false: a bare braced group directly inside $...$ contributes nothing to the box tree, whatever its content; the same group inside a macro argument is drawn. So a source with such a group and one whose tree is the same without it get the same box from mtex.Parse, or both make it panic (operators after brackets and decimal dots being in the same situation, see C91).", "quantifier": "all group contents; existence of a witness", "why_tests_cant": "no test has a group directly in math", "anchors": ["mtex/parser.go:visitor.Visit"]}
{"id": "C61", "title": "Whether a decimal dot is spaced depends on the first dot of the whole expression", "statement": "A dot inside a number literal is drawn without extra space if and only if the first dot of the whole input is surrounded by digits; hence the drawing of '3.14' depends on unrelated earlier text.", "quantifier": "all byte strings, all literals", "why_tests_cant": "tests have a single dot", "anchors": ["mtex/parser.go:handleSymbol", "mtex/parser.go:visitor.Visit"]}
{"id": "C62", "title": "Math mode does not leak", "statement": "mtex.Parse draws each top-level item of a document independently of its neighbours: the boxes of a document are the concatenation of the boxes of its items, each built in text mode with the roman font, whatever math expressions precede it.", "quantifier": "all syntax trees", "why_tests_cant": "all inputs", "anchors": ["mtex/parser.go:visitor.Visit", "mtex/parser.go:parser.parse"]}
{"id": "C63", "title": "The glyph cache of the TrueType backend ignores the math flag", "statement": "The claim 'Metrics depends only on its arguments' is false for ttf.Backend: the answer for a symbol depends on whether it was first asked for in math or text mode. It is true for every history as long as, for each symbol, font and resolution, both modes resolve to the same rune or only one mode is used.", "quantifier": "all histories of Metrics, Kern and RenderGlyph calls", "why_tests_cant": "history dependence", "anchors": ["font/ttf/ttf.go:Backend.getInfo", "font/ttf/ttf.go:Backend.getGlyph", "internal/tex2unicode/utf8.go:Index"]}
{"id": "C64", "title": "Canvas records operations in call order", "statement": "After any sequence of RenderGlyph and RenderRectFilled calls on a fresh canvas, Ops() is the list of those operations in call order; an earlier result of Ops() is a prefix of any later one.", "quantifier": "all sequences of drawing calls", "why_tests_cant": "all histories", "anchors": ["drawtex/canvas.go:Canvas"]}
{"id": "C65", "title": "Render forwards exactly the shipped drawing", "statement": "mtex.Render builds the canvas by shipping the parsed box once at the origin, calls the renderer exactly once with width w/72 and height ceil(h + max(d,0))/72, and returns an error if and only if the renderer does.", "quantifier": "all expressions, sizes, resolutions and renderers", "why_tests_cant": "all inputs and renderer outcomes", "anchors": ["mtex/render.go:Render"]}
{"id": "C67", "title": "What mtex.Parse returns can be drawn", "statement": "Whatever box tree mtex.Parse returns, shipping it at any offset returns: Ship.Call never panics on it (although it does panic on some box trees a user can build by hand).", "quantifier": "all expressions on which mtex.Parse returns, all backends, font sizes, resolutions and offsets", "why_tests_cant": "all inputs", "anchors": ["mtex/parser.go:Parse", "tex/box.go:Ship.Call", "tex/box.go:Ship.hlistOut", "tex/box.go:Ship.vlistOut"]}
{"id": "C69", "title": "When mtex.Render returns", "statement": "With fonts that answer every question, mtex.Render(dst, x, size, dpi, fonts) reaches its renderer if and only if ParseExpr returns a tree for x, every symbol of that tree can be set in the mode it stands in (in math a single ASCII character or a listed symbol, in text any valid character), there are no scripts and no punctuation in math other than a full stop, \\hspace has a numeral, and every symbol set in script size stands for a character in math mode, even if it is set in text mode. Otherwise it panics. Finding: 57 macro names that ParseExpr accepts and mtex takes for a glyph, such as \\setminus or \\Alpha, stand for no character. Finding: a radical or binomial in a formula makes Render panic if the fonts have no italic, even if all of its glyphs are roman, since the x-height of the italic font is asked for.", "quantifier": "all expressions, sizes, resolutions and font libraries", "why_tests_cant": "all inputs", "anchors": ["mtex/render.go:Render", "mtex/parser.go:Parse", "font/ttf/ttf.go:Backend.getInfo", "font/ttf/ttf.go:Backend.XHeight", "internal/tex2unicode/utf8.go:Index"]}
{"id": "C66", "title": "Fractions and binomials: where the parts are drawn", "statement": "For a fraction with line thickness t, bar thickness r and axis height a, genfrac draws the numerator, the bar and the denominator, in this order: the numerator ends t + r above the axis, the bar starts t below the axis and is as wide as the wider part, the denominator begins 3t below the axis; both are centred up to half a point. The box is 2t wider than the wider part. \\frac, \\tfrac and \\binom set their parts shrunk once, \\dfrac does not; \\binom draws adapted parentheses on both sides and no bar. (For parts that need no more than 10^9 points of glue to be centred: Ship stretches no glue further.) Finding: with r = t the bar has a gap of 3t above it and of t below it.", "quantifier": "all numerators, denominators, thicknesses, backends and positions, in exact arithmetic", "why_tests_cant": "all dimensions of the parts", "anchors": ["mtex/parser.go:parser.genfrac", "mtex/parser.go:parser.autoSizedDelimiter", "tex/box.go:HCentered", "tex/box.go:Call"]}
{"id": "C70", "title": "Ship draws by coordinates", "statement": "Whatever Ship.Call(ox, oy, tree) draws is the drawing of the tree by coordinates: every child of a horizontal list is drawn at the left end plus the advance of the children before it (with its share of glue), every child of a vertical list below those before it; glyphs sit at the pen, rules as rectangles. No other state (counters, previous pages) matters.", "quantifier": "all box trees and offsets, in exact arithmetic", "why_tests_cant": "all trees of any depth", "anchors": ["tex/box.go:Call", "tex/box.go:hlistOut", "tex/box.go:vlistOut"]}
{"id": "C71", "title": "Formulas have finite dimensions and coordinates", "statement": "With a backend that answers with numbers, whose parentheses and radical are not flat, and a positive size and resolution, every box tree mtex.Parse returns has a width, height and depth that are numbers, height and depth not negative, and everything drawn from it is at finite coordinates in a finite size; mtex.Render over TrueType fonts passes finite width and height and finite coordinates to its renderer. At size 0 a radical makes the dimensions NaN.", "quantifier": "all expressions, backends or font libraries, sizes and offsets, in exact arithmetic", "why_tests_cant": "all expressions of any nesting", "anchors": ["mtex/parser.go:Parse", "mtex/render.go:Render", "tex/box.go:HList.HPack", "tex/box.go:VList.VPack", "tex/box.go:AutoHeightChar"]}
{"id": "C72", "title": "Radicals and overlines: where the parts are drawn", "statement": "\\overline draws a line of the width of its argument and the thickness t of lines, lower edge t + e above it (e a 1200th of size times resolution), then the argument moved by at most half a point. \\sqrt draws the index (shrunk twice, raised by six tenths of the height of the sign), the radical sign reaching from 5t above the body to its depth, a line from the right end of the sign over the body with 2t on either side, lower edge 3t + e above the body, then the body moved by at most half a point. The boxes have the dimensions that contain these. (For lines, sizes and resolutions with 4t + e of at most 10^9 points, where Ship cuts off glue.)", "quantifier": "all bodies, indices, backends with metrics proportional to the size, and positions, in exact arithmetic", "why_tests_cant": "all dimensions of the parts", "anchors": ["mtex/parser.go:handleSqrt", "mtex/parser.go:handleOverline", "tex/box.go:AutoHeightChar", "tex/box.go:vlistOut"]}
{"id": "C68", "title": "Kerning of scaled characters uses the unscaled advance", "statement": "Shrink and Grow scale the width, height, depth and font size of a character but not its advance. After any history of calls, Kerning(next) of a character made by NewChar is the unscaled advance minus the scaled width plus the kerning of the pair; a character scaled by the factor f is followed by (1-f) times its advance more room than one made at that size. Finding.", "quantifier": "all characters, backends and histories of Shrink and Grow, in exact arithmetic", "why_tests_cant": "all histories", "anchors": ["tex/box.go:Char.Shrink", "tex/box.go:Char.Grow", "tex/box.go:Char.Kerning"]}
{"id": "C73", "title": "Operators are spaced", "statement": "A binary operator, relation or arrow is drawn between two blanks of a fifth of an em, unless it is a binary operator directly after an opening brace, parenthesis or bracket or a <, where it is drawn alone; any other symbol that is not a full stop or a blank is drawn alone. Finding: a binary operator at the start of the formula is spaced, although a comment in the code says it is not.", "quantifier": "all symbols, sources, positions and backends", "why_tests_cant": "all sources before the operator", "anchors": ["mtex/parser.go:handleSymbol", "mtex/symbols/symbols.go"]}
{"id": "C74", "title": "What Kern of the TrueType backend depends on", "statement": "Kern(ft1, sym1, ft2, sym2, dpi) is 0 and changes nothing if the names or sizes of the fonts differ. Otherwise, after any history of calls in math mode, it is what the font library says about the glyph numbers of the two symbols in the face of the first. A fresh backend answers exactly if both symbols have a glyph (or the fonts differ). Findings: it does not depend on the size nor on the resolution, so it is right at one size only (a 64th of the units per em, in points), and the number of the second glyph is used in the face of the first even if it was looked up in another.", "quantifier": "all font libraries, symbols, fonts, resolutions and histories of calls", "why_tests_cant": "all histories and libraries", "anchors": ["font/ttf/ttf.go:Backend.Kern", "font/ttf/ttf.go:Backend.getInfo"]}
{"id": "C75", "title": "Images and PDF files", "statement": "drawimg's Render(w, h, dpi, canvas) writes one image of ceil(w*dpi) by ceil(h*dpi) pixels with exactly one black mark for each operation of the canvas, in order: glyphs in their font and size at their place times dpi/72, rectangles by their corners times dpi/72; it returns what the PNG encoder returns. If the image is too large to be made or a face cannot be opened it panics and writes no image. Composed with mtex.Render: the marks are those of the drawing calls Ship makes for the formula. Finding: drawpdf's Write draws nothing at all on its page, whatever the canvas.", "quantifier": "all canvases, sizes, resolutions and library answers; end to end: all expressions", "why_tests_cant": "all canvases", "anchors": ["drawtex/drawimg/drawimg.go:Renderer.Render", "drawtex/drawimg/drawimg.go:drawGlyph", "drawtex/drawimg/drawimg.go:drawRect", "drawtex/drawpdf/drawpdf.go:Write", "mtex/render.go:Render"]}
{"id": "C77", "title": "The command mtex-render and its output file", "statement": "mtex-render ends with success exactly if it is given one argument, the output file can be made and closed, and mtex.Render returns no error; the file then holds one image, that of the formula. Finding: the file is emptied before the expression is looked at, so for every expression on which mtex.Render panics the command leaves an empty file and what was in it is lost.", "quantifier": "all arguments, sizes, resolutions, previous contents and library answers", "why_tests_cant": "all crash points and inputs", "anchors": ["cmd/mtex-render/main.go:main", "mtex/render.go:Render"]}
{"id": "C76", "title": "What is drawn stays in the box, vertically", "statement": "For any document, any backend whose glyph dimensions are proportional to the font size, whose radical sign crosses the base line and whose lines are not thicker than hundreds of millions of points, and any positive size and resolution: every line and every glyph (with the extents its font gives it) drawn when the box made by mtex is shipped at a height y lies between y and y plus the height and depth of the box, up to half a point for every \\sqrt or \\overline it stands in; exactly so if there is none. In the same way what mtex.Render draws of formulas with TrueType fonts stays on the page it announces to the renderer. Finding: the half points are really lost, two nested overlines can push a glyph a whole point below its box.", "quantifier": "all documents, backends with proportional glyphs, sizes, resolutions and places", "why_tests_cant": "all documents and fonts", "anchors": ["mtex/parser.go:visitor", "tex/box.go:HList.HPack", "tex/box.go:VList.VPack", "tex/box.go:hlistOut", "tex/box.go:vlistOut"]}
{"id": "C78", "title": "What Metrics of the TrueType backend answers", "statement": "A fresh ttf.Backend answers Metrics(symbol, font, dpi, math) exactly if the symbol stands for a character, the fonts have a face for it (italics only for letters) and the library answers; width, height and bounds are then those of the glyph at 12 points scaled by size/12, proportional to the size. RenderGlyph draws the same glyph, at the size asked for, labelled with the character. Findings: the advance is computed as if every font had 2048 units per em, so for any other font (1000 units, say) it is wrong by that ratio; the resolution is ignored unless a font is called Cmex10.", "quantifier": "all symbols, fonts, sizes, resolutions, modes and answers of the font library", "why_tests_cant": "all fonts and sizes", "anchors": ["font/ttf/ttf.go:Metrics", "font/ttf/ttf.go:getInfo", "font/ttf/ttf.go:getGlyph", "font/ttf/ttf.go:RenderGlyph"]}
{"id": "C79", "title": "Blanks", "statement": "The twelve blanks (\\, \\thinspace \\/ \\> \\: \\; backslash-blank ~ \\enspace \\quad \\qquad \\!) set room of 3, 3, 3, 4, 4, 5, 6, 6, 9, 18, 36 and -3 eighteenths of an em, up to a 180000th, and \\hspace{v} room of v ems, where the em is the advance of the italic m at the current size; nothing is drawn for them. They are set exactly if the m can be measured (and the argument is a number). Finding: outside a formula, backslash-blank draws a backslash.", "quantifier": "all blanks, positions, sizes, modes, arguments and backends", "why_tests_cant": "all sizes and backends", "anchors": ["mtex/parser.go:spaceWidth", "mtex/parser.go:handleSpace", "mtex/parser.go:handleCustomSpace", "mtex/parser.go:makeSpace"]}
{"id": "C80", "title": "The window of mtex-render", "statement": "Until the window is closed or escape is pressed (Run then returns at once, with the error of the window), every frame shows, for each of its image and formula widgets in order, the formula that was the text of the editor at the last commit (control-enter, or a click on the button) before it; the image is the picture of the last such formula of which one could be made. A screenshot is made after a frame exactly if F11 was pressed since the frame before. Findings: the program crashes if and only if a widget is laid out while the formula in force cannot be parsed or drawn (given that the libraries open their fonts and make the images asked for; so one commit of $x^2$ kills the window); for an empty formula the old image stays.", "quantifier": "all sequences of events, frames and widgets, texts and library answers", "why_tests_cant": "all histories of events", "anchors": ["cmd/mtex-render/gio.go:Run", "cmd/mtex-render/gio.go:Layout", "cmd/mtex-render/gio.go:imgRender", "cmd/mtex-render/gio.go:gioRender"]}
{"id": "C81", "title": "The renderer of the window", "statement": "The gio renderer makes exactly one mark for each operation of the canvas, in order: for a glyph a black text, in italics if it is slanted, whose upper left corner is at its place, higher by its size; for a rectangle its four corners, moved by a fixed offset; all scaled by dpi/72. The offset is one pixel to the left and, upwards, one pixel plus the part of the line height of the font that is not above the baseline, in the text size of the theme; without the measures of the font making the renderer panics. The origin, the clip and the stack of the toolkit are left as they were. Finding: the face of a glyph is not passed on, so bold is lost.", "quantifier": "all canvases, resolutions, offsets and states of the toolkit", "why_tests_cant": "all canvases and states", "anchors": ["cmd/mtex-render/gio.go:gioRenderer.Render", "cmd/mtex-render/gio.go:drawGlyph", "cmd/mtex-render/gio.go:drawRect", "cmd/mtex-render/gio.go:newGioRenderer"]}
{"id": "C82", "title": "What is drawn stays in the box, horizontally", "statement": "For any document in which nothing goes back (no \\! , no \\hspace of a negative number, no \\sqrt with an index), any backend whose glyphs advance in proportion to the font size and are kerned by no more than their advance, and any positive size and resolution: every line, and every glyph from its reference point to where it leaves the pen, drawn when the box made by mtex is shipped at x lies between x and x plus the width of the box. In the same way what mtex.Render draws of formulas with TrueType fonts stays between the left and the right of the page it announces to the renderer. Finding: the sign of a radical with a narrow index begins to the left of the page, and so does what follows a negative blank.", "quantifier": "all documents in which nothing goes back, backends, sizes, resolutions and places", "why_tests_cant": "all documents and fonts", "anchors": ["mtex/parser.go:visitor", "tex/box.go:HList.HPack", "tex/box.go:HList.kern", "tex/box.go:HCentered", "tex/box.go:hlistOut", "tex/box.go:vlistOut"]}
{"id": "C83", "title": "The language of ParseExpr", "statement": "There is a grammar such that latex.ParseExpr returns a tree for a source exactly if the source is a sentence of the grammar, and the tree is that of the sentence; it panics exactly on the sources that are not sentences; no source has two sequences of lexemes or two trees. Lexemes: words of letters; numbers (decimal, 0x, 0o, 0b, fraction, exponent); blanks; a backslash with a word, number, string or character; comments (whose end of line may be swallowed by a string); quoted strings; the characters $_=<>^/*-+!?':,;.[]{}(). Grammar: in text, words, numbers, blanks, symbols, $...$, macros with the arguments the tables give them, ^ and _ followed by an item or, directly, by a group; in math the same without blanks and with groups; every list may also be ended by the end of the input.", "quantifier": "all byte strings, well-formed UTF-8 or not, and all trees", "why_tests_cant": "all byte strings", "anchors": ["ast/ast.go:Node", "parser.go:ParseExpr", "parser.go:parse", "parser.go:parseNode", "parser.go:parseMacro", "scanner.go:Scan", "macros.go:builtinMacro"]}
{"id": "C84", "title": "The font packages under any schedule", "statement": "Any number of goroutines may call Fonts of font/lm or font/liberation at the same time. If the four font files can be parsed, every call that ends returns the same pointer, to the fonts made of these files (regular for rm and by default, italic, bold), and none panics; no file is parsed twice, in any schedule; under fair schedules every call ends. Findings: if a file is bad, exactly one call panics and all others, now and later, return nil, for which mtex.Render silently uses the default Go fonts; the bold italic face is loaded but never used.", "quantifier": "all schedules of all numbers of concurrent calls, and all outcomes of parsing the files", "why_tests_cant": "all interleavings", "anchors": ["font/lm/lm.go:Fonts", "font/liberation/liberation.go:Fonts", "font/ttf/ttf.go:NewFrom", "font/ttf/ttf.go:defaultFonts", "mtex/render.go:Render"]}
{"id": "C85", "title": "Layout is proportional to the font size and to the resolution", "statement": "If the answers of the font backend are proportional to the font size and to the resolution, then for every document mtex.Parse at k times the size and l times the resolution returns the same tree of boxes with every width, height, depth, shift and kern multiplied by k*l, or panics in the same way. Ship draws the same glyphs (at k times the size) and rules, in the same order, at k*l times the coordinates: exactly, if there are no fractions, binomials, radicals or overlines; otherwise up to half a point at either scale for each of them around the glyph. mtex.Render of formulas with TrueType fonts without kerning is proportional to the size in the same sense; the page height is rounded up to whole points. Findings: the positions set by glue are rounded to whole points, so that a numerator is not centred at the same place at another size (C85_rounding), and the kerning of TrueType fonts is the same number of points at every size (C85_kerning).", "quantifier": "all documents, backends that are proportional, font sizes (also infinite or NaN), resolutions and factors", "why_tests_cant": "all inputs and all factors", "anchors": ["mtex/parser.go:Parse", "mtex/macros.go", "tex/box.go:Ship", "tex/box.go:HPack", "tex/box.go:VPack", "tex/utils.go:clamp", "font/ttf/ttf.go:getInfo", "font/ttf/ttf.go:Kern", "mtex/render.go:Render"]}
{"id": "C86", "title": "VListOf and VCentered", "statement": "tex.VListOf(els) panics exactly if one of els is a character or an accent; otherwise it holds els unchanged and in order, unshifted, as wide as the widest of them, as deep as the last one (however deep), as high as the stack above it, with all glue at its natural size. tex.VCentered(els), packed to a height h with VPack, has height h and depth 0 and draws els as if they stood alone in it, lower by a whole number of points within half a point of half the room they leave.", "quantifier": "all lists of nodes and heights", "why_tests_cant": "all lists and heights", "anchors": ["tex/box.go:VListOf", "tex/box.go:VCentered", "tex/box.go:VList.VPack", "tex/box.go:vlistOut"]}
{"id": "C87", "title": "Layout and drawing in float64", "statement": "In Go's float64 arithmetic (IEEE 754 binary64, rounding to nearest even): a list packed to its natural width (HListOf, HPack(0, true)) of n children has as its width the sum of the widths of its children up to n*2^-52 of the sum of their absolute values, its glue is exactly at its natural size, and drawing it leaves the pen exactly at that width; characters and spaces of nonnegative width are never drawn before earlier ones; and a tree of boxes with finite lengths, whose glue is stretched or shrunk by R at most in each list, is drawn by Ship, glyph by glyph and line by line, as exact arithmetic draws it, at places that differ by at most N*2^-52 times the sum of all lengths in the tree, N being the number of additions, and 1 more for each list with stretched or shrunk glue around them (such glue is rounded to whole numbers) - it panics exactly if exact arithmetic does; a list packed to a width w by setting its glue leaves the pen within half a point, and a rounding error of (4n+9)*2^-52 of the lengths, of w; HCentered packed to w moves its content to the right by a whole number of points within half a point, and such a rounding error, of half the free space.", "quantifier": "all float64 values, lists of nodes and trees of boxes (finite sums)", "why_tests_cant": "all inputs; rounding errors depend on all digits", "anchors": ["tex/box.go:HPack", "tex/box.go:HListOf", "tex/box.go:Ship", "tex/box.go:hlistOut", "tex/box.go:vlistOut"]}
{"id": "C88", "title": "The image holds the whole formula", "statement": "mtex.Render with drawimg: the image of a formula in which nothing goes back (no negative blank, no radical with an index) has a whole number of pixels in width and height and one mark for every operation on the canvas; every line, and every glyph with the advance and the extents recorded with it, lies between the left and the right edge of the image, and between its upper and lower edge up to half a point for every radical or overline around it.", "quantifier": "all expressions, font libraries with sound tables, font sizes up to 10^9 and resolutions", "why_tests_cant": "all inputs", "anchors": ["mtex/render.go:Render", "drawtex/drawimg/drawimg.go:Renderer.Render", "drawtex/drawimg/drawimg.go:drawGlyph", "drawtex/drawimg/drawimg.go:drawRect"]}
{"id": "C89", "title": "Sources can be put together", "statement": "Call a source complete if ParseExpr, given the source and the letter x on the next line, returns the trees of the source and then the word x at its place. After a complete source and a line break, any source b (without byte order mark) is read as if it stood alone: ParseExpr accepts the whole exactly if it accepts b, and returns the trees of the first source and then those of b with all positions moved by the length of what is before them; it panics exactly if it panics on b, and in the same way. Complete sources on lines of their own are again a complete source, and any number of them are read one by one.", "quantifier": "all byte strings, and all lists of complete sources", "why_tests_cant": "all pairs of inputs", "anchors": ["parser.go:ParseExpr", "parser.go:parse", "scanner.go:Scan", "ast/ast.go:List"]}
{"id": "C90", "title": "What ParseExpr panics with", "statement": "Every byte string has exactly one list of lexemes up to the first character that begins none. ParseExpr panics with p exactly if p is the reason for which the first item of these lexemes that is wrong is wrong: a character that begins no lexeme, a quoted string, a group outside of math, a brace that closes nothing, a name that is in no table, \\genfrac, the end of the input after a caret or an underscore, or something else than a brace where an argument of a macro is needed; inside of formulas, groups, scripts and arguments as well. There is one such reason, and none for a source that is accepted. What is named in the panic is in the source: the character begins no lexeme, the macro is not in the tables.", "quantifier": "all byte strings", "why_tests_cant": "all inputs, of any length and nesting", "anchors": ["parser.go:ParseExpr", "parser.go:parseNode", "parser.go:parseMacro", "parser.go:expect", "scanner.go:Scan", "macros.go:builtinMacro.parseMacro"]}
{"id": "C91", "title": "What the drawing depends on", "statement": "What mtex.Render gives to the renderer, or that and with what it panics, depends on the source text only through (1) the tree without positions and delimiters, (2) which binary operators stand right after an opening brace, parenthesis or bracket or a <, with blanks at most between, and (3), if there is a decimal number in it, whether the first full stop of the source is between digits. Hence line breaks before a source change nothing; nor do blanks in formulas (where they can be left out); nor does a comment before it that has no full stop and no double quote; and the boxes of a complete source and of one on the next line are those of the two, if no full stop stands outside of numbers. Findings: a full stop in a comment, or earlier in the text, changes the spacing of decimal numbers; a line break or a comment between an opening parenthesis and a sign changes the spacing of the sign.", "quantifier": "all byte strings, pairs of sources with trees that are the same but for positions, fonts, sizes and resolutions", "why_tests_cant": "all pairs of inputs", "anchors": ["mtex/parser.go:handleSymbol", "mtex/parser.go:visitor.Visit", "mtex/parser.go:handleNode", "mtex/render.go:Render", "parser.go:ParseExpr"]}
{"id": "C92", "title": "Sizes are linear", "statement": "The tree ParseExpr returns for a source of n bytes has at most n+1 nodes (nil operands and the names of macros included), its texts have at most n bytes together, and it is nested no deeper than that. mtex.Parse makes at most 8n boxes of it, whatever the fonts; drawing them, or mtex.Render, makes at most n calls of RenderGlyph and RenderRectFilled. ast.Walk calls Visit at most twice for each node of a tree, whatever the visitor does, so at most 2n+2 times for the tree of a source. No source, however nested, costs more.", "quantifier": "all byte strings accepted, backends, sizes and resolutions; all trees and visitors", "why_tests_cant": "all inputs, of any length and nesting: a blow-up could need an unusual combination of macros", "anchors": ["parser.go:ParseExpr", "mtex/parser.go:Parse", "mtex/render.go:Render", "internal/tex2unicode", "mtex/symbols", "tex/box.go:Ship", "ast/walk.go:Walk"]}
{"id": "C93", "title": "Templates", "statement": "Call a string x a formula if ParseExpr, given x between two dollar signs, returns one formula that the second dollar sign closes, with x inside it. Formulas can be put into formulas, and mean there what they mean alone, whatever they contain: a formula in braces; a formula in braces as superscript or subscript; the arguments of any macro in the tables, in braces, if there are as many as it takes; the index of a root, if no closing bracket is at its top; one formula after another, if the second begins with a character that cannot continue a word or number (a blank, a backslash, a brace, a caret, most operators); a blank before a formula. The tree is the expected one with the trees of the parts in it, moved to their places. Words, digits and operators are formulas. A formula between dollar signs is a complete source in the sense of C89. So a program that fills checked formulas into a template cannot be made to produce anything else. An underscore after a number is the exception: 2 and _{i} are formulas, but 2_{i} is not one after the other.", "quantifier": "all byte strings that are formulas, macros and argument lists", "why_tests_cant": "all inputs, of any length and nesting", "anchors": ["parser.go:ParseExpr", "parser.go:parseNode", "parser.go:parseMathExpr", "parser.go:parseMacro", "parser.go:parseSup", "parser.go:parseSub", "macros.go:builtinMacro.parseMacro", "scanner.go:Scan"]}
{"id": "C94", "title": "Layouts stay finite in float64", "statement": "In Go's float64 arithmetic: take fonts whose characters at the font size and resolution asked for are no larger than a unit u = 2^k, with parentheses and a radical sign of at least u/J in height that sit on the base line and grow with the font size, and a source of n bytes whose numbers (for \\hspace) are at most V, with (8J+V)(n+3)^2 <= 2^36. Then the boxes mtex.Parse returns have finite dimensions - a width of at most (8J+V)n^2 u, a height and a depth that are not negative and together at most 4n u - and so has every box inside; no glue is stretched by more than 16(8J+V)(n+3)^2 u; and Ship draws them: it returns, every glyph and rectangle is at a finite place, and within a given rounding error of where exact arithmetic puts it. No nesting of fractions, roots and binomials leads to an infinity or a NaN, or to a character that is scaled without bound. mtex.Render of such a source with TrueType fonts: if at 12 points no glyph of the fonts reaches or advances further than R points, none of them is named Cmex10, they kern by at most u, and parentheses and radical sign cross the base line and are T points high, then at a size of s points with Rs/12 <= u/4 and 13/12 u <= JTs/12 the page given to the renderer has a finite size (a height of at most (4nu+2)/71 inches, a width of at most ((8J+V)n^2u+1)/71), and every operation on the canvas is at a finite place.", "quantifier": "all byte strings up to the length given, fonts of bounded dimensions, sizes, resolutions and places on the page", "why_tests_cant": "all inputs, of any nesting; overflow and rounding depend on all digits, and sizes could grow exponentially with the nesting", "anchors": ["mtex/parser.go:Parse", "mtex/parser.go:genfrac", "mtex/parser.go:handleSqrt", "mtex/parser.go:handleOverline", "tex/box.go:AutoHeightChar", "tex/box.go:HPack", "tex/box.go:VPack", "tex/box.go:Ship", "mtex/render.go:Render", "font/ttf/ttf.go:getInfo"]}
{"id": "C95", "title": "Accents fill their boxes, rules run along their lists", "statement": "NewAccent: whatever Shrink and Grow are called on it afterwards, an accent has the dimensions of the ink of its glyph at the font size it then has, and no depth; drawn in a list, its glyph is placed so that the ink begins at the pen, ends at the end of the accent's width, stands on the base line and is as high as the accent. HRule(state, t) is t thick (the thickness of the font's underline if t is negative), half of it below the base line, and as a child of a vertical list is drawn from its left edge over its whole width. VRule is as wide as the underline is thick, changes neither height nor depth of the list it is packed in, and is drawn as high as the list.", "quantifier": "all backends, texts, states, histories of Shrink and Grow, and lists around", "why_tests_cant": "all histories and all lists", "anchors": ["tex/box.go:NewAccent", "tex/box.go:Accent", "tex/box.go:HRule", "tex/box.go:VRule", "tex/box.go:Ship"]}
{"id": "C96", "title": "Boxes are objects: no call changes another box", "statement": "Nodes are pointers. Shrink and Grow of a node return if no list is below itself, and change each object as often as it is met below the node and no other; if none is met twice the node becomes what the methods make of it as a value, and a node that shares nothing with it stays as it is (a Char put twice into a list is shrunk twice by one Shrink of the list). HListOf, VListOf, HCentered and VCentered change none of the objects they are given, and the list they return holds these very objects, in their order, with new Kern and Glue objects among them. mtex.Parse returns a tree of new objects, no two nodes of which are one object, or panics, and changes no object that was there before; Ship of such a tree changes no other object. So after any history of Parse, Shrink, Grow and Ship calls each box is what the calls on it alone make of it, and draws as they make it draw.", "quantifier": "all memories, nodes, lists of nodes, byte strings, and histories of calls", "why_tests_cant": "all memories and all histories", "anchors": ["tex/box.go:Shrink", "tex/box.go:Grow", "tex/box.go:HListOf", "tex/box.go:VListOf", "tex/box.go:HCentered", "tex/box.go:VCentered", "tex/box.go:HPack", "tex/box.go:VPack", "tex/box.go:kern", "tex/box.go:AutoHeightChar", "mtex/parser.go:Parse", "mtex/parser.go:genfrac", "mtex/parser.go:handleSqrt", "mtex/parser.go:handleOverline"]}
{"id": "C97", "title": "Parts of formulas are formulas, and can be replaced", "statement": "The positions in the tree can be used to cut formulas out of a source. For every source that ParseExpr accepts and every MathExpr in its tree with a closing position b: the text between its dollar signs at a and b is a formula in the sense of C93 (by itself, between two dollar signs, it is accepted as one formula), and the trees it has alone are those the MathExpr has, but that a is added to the positions. In such a MathExpr every argument, optional argument and group is closed, whatever the nesting; the text between its braces or brackets is a formula, with the trees of the node, unless a MathExpr is directly among them (a dollar sign that would end the formula). By C93 what has been cut out can be put into braces elsewhere. And they can be used to edit: if the text between the delimiters of a MathExpr, or of an argument in math, is replaced by any other formula (between brackets, one that has no ] of its own), the new source is accepted, and its tree is the old one with the trees of the formula in that node, the positions from the closing delimiter on moved by the difference of the lengths and all else as it was.", "quantifier": "all byte strings accepted, all nodes of their trees, all formulas put there", "why_tests_cant": "all inputs, of any length and nesting", "anchors": ["parser.go:ParseExpr", "parser.go:parseMathExpr", "parser.go:parseMacro", "parser.go:parseMacroArg", "parser.go:parseOptMacroArg", "ast/ast.go:MathExpr", "ast/ast.go:Arg", "ast/ast.go:OptArg", "scanner.go:Scan"]}
{"id": "C98", "title": "What ParseExpr prints", "statement": "ParseExpr writes to standard error: the scanner of the standard library reads the source as if it were Go, and as no error handler is set (scanner.go:29) it prints its complaints. They make no difference to the result. A call that returns prints nothing exactly if every number of the source, wherever it stands (in text, in a formula, in a comment), is a number literal of Go, every part that begins with a double quote is a string literal of Go, no character is NUL, and each byte belongs to a character. If the source is such, a call that panics prints nothing either; in particular nothing is printed about a source of whole characters, none of them NUL, without digits and double quotes.", "quantifier": "all byte strings, accepted or not", "why_tests_cant": "all inputs, of any length and nesting", "anchors": ["scanner.go:newScanner", "scanner.go:Scan", "scanner.go:scanComment", "scanner.go:scanMacro", "parser.go:ParseExpr"]}
{"id": "C99", "title": "A source can be completed, or it is hopeless", "statement": "For every source there is a text for the lines after it with which it is accepted, made of nothing but line breaks, the letters of alpha and x, braces, closing brackets and dollar signs; or ParseExpr panics in the same way whatever is written on the lines after it. There is nothing in between: no source is rejected with all continuations, but for reasons that depend on them. Accepted sources can be completed, and so can every beginning of whole lines of an accepted source. And often the panic tells: if ParseExpr panics, and not because a brace was expected, nor with \"impossible\" (an item is missing, or a brace closes nothing), nor with an unknown macro whose name is empty or quoted, the source is hopeless and the panic stays the same. So a program that reads a source line by line can stop at the first such panic. Each of the three exceptions is needed, and so is the line break.", "quantifier": "all byte strings, and all byte strings after them", "why_tests_cant": "all inputs, of any length and nesting", "anchors": ["parser.go:ParseExpr", "parser.go:parseNode", "parser.go:parseMacroArg", "parser.go:expect", "scanner.go:Scan", "scanner.go:scanMacro", "scanner.go:scanComment"]}
{"id": "C100", "title": "Lines are set side by side", "statement": "If nothing is left open in a source (a word on the next line would be an item by itself) and another source is written on the lines after it, then mtex.Parse returns for the two exactly if it returns for each of them. The box of the two is made of the nodes of the first and those of the second, with the kerns due between them: as long as full stops are set alike (no full stop, or the first one between digits), it is as wide as the two boxes and the kern between the last node of the first and the first node of the second (zero unless both are glyphs; a word is a list of its own and is not kerned), as high as the higher, and as deep as the deeper. Widths and heights in exact arithmetic, infinities and NaN included.", "quantifier": "all backends, all sources with nothing left open, all sources after them, all sizes and resolutions", "why_tests_cant": "all inputs, of any length and nesting, and all fonts", "anchors": ["mtex/parser.go:Parse", "parser.go:ParseExpr", "tex/box.go:HListOf", "tex/box.go:HPack", "tex/box.go:kern"]}
