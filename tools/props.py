#!/usr/bin/env python3
"""Source of /verif/properties.jsonl (run to regenerate)."""
import json
P = []
def p(id, title, statement, quantifier, why, anchors):
    P.append(dict(id=id, title=title, statement=statement, quantifier=quantifier,
                  why_tests_cant=why, anchors=anchors))

S="scanner.go"; PA="parser.go"; M="macros.go"
p("C01","ParseExpr always terminates",
  "For every input string, latex.ParseExpr stops: it returns a tree or panics; it never loops or recurses forever, whatever the nesting of braces, dollars, scripts and macro arguments.",
  "all byte strings (valid UTF-8 or not), all nesting depths",
  "non-termination on one input of unbounded length cannot be excluded by sampling inputs",
  ["parser.go:ParseExpr","parser.go:parser.parse","parser.go:parser.parseNode","scanner.go:texScanner.scan","scanner.go:texScanner.scanComment"])
p("C02","ParseExpr never returns a non-nil error and always yields a list",
  "Whenever latex.ParseExpr returns, its error is nil and its node is an ast.List, each of whose elements is a non-nil node; malformed input is signalled only by a panic.",
  "all byte strings",
  "a claim about every input; a caller that only checks err must know err carries no information",
  ["parser.go:ParseExpr","parser.go:parser.parse"])
p("C03","Leaf text fidelity",
  "For every Word, Literal and Symbol node in the tree returned by ParseExpr(x), the source slice x[n.Pos():n.End()] is exactly n.Text.",
  "all byte strings x on which ParseExpr returns, all leaf nodes at any depth",
  "every input and every nesting; off-by-one errors show up only for multi-byte runes, skipped white space or a byte-order mark",
  ["ast/ast.go:Word","ast/ast.go:Literal","ast/ast.go:Symbol","scanner.go:texScanner.scan","scanner.go:texScanner.pos"])
p("C04","Macro name fidelity up to swallowed line breaks",
  "For every macro in the tree returned by ParseExpr(x), x has a backslash at the name's Pos, followed by a run of tabs, newlines and carriage returns, followed by the rest of the recorded name. The run can be non-empty, in which case x[Pos:End] differs from the recorded name.",
  "all byte strings x on which ParseExpr returns, all macros at any depth",
  "every input; the white-space case is not in any test",
  ["scanner.go:texScanner.scanMacro","ast/ast.go:Ident","macros.go:builtinMacro.parseMacro"])
p("C05","Source order of leaves",
  "In the tree returned by ParseExpr, the leaves (words, literals, symbols, macro names) met in depth-first order have strictly increasing positions and pairwise disjoint source extents: each leaf ends at or before the start of the next one.",
  "all byte strings on which ParseExpr returns, all pairs of leaves",
  "every tree of every shape",
  ["parser.go:parser.parse","parser.go:parser.parseNode","ast/ast.go:Node"])
p("C06","No content is lost, invented or reordered by ParseExpr",
  "The concatenation of all leaf texts of the tree in depth-first order is always a subsequence of the input. For an input without percent signs and without a backslash directly followed by a blank, it equals the input, once blanks, line breaks, brackets, braces, dollar, caret and underscore characters (and a leading byte-order mark) are deleted from both. (In math an escaped blank is dropped altogether.)",
  "all byte strings on which ParseExpr returns",
  "conservation over every input; a dropped branch in a rarely used construct would go unnoticed by examples",
  ["parser.go:parser.parseNode","parser.go:parser.parseMathExpr","parser.go:parser.parseMacroArg","parser.go:parser.parseOptMacroArg","parser.go:parser.parseSup","parser.go:parser.parseSub"])
p("C07","Leading line breaks only shift positions",
  "If w consists of tabs, newlines and carriage returns, and x does not start with a byte-order mark, ParseExpr(w+x) behaves as ParseExpr(x): it panics in the same cases and otherwise returns the same tree with every position increased by len(w) (except the 0 recorded for a missing closing delimiter).",
  "all white-space prefixes, all byte strings",
  "relates two runs on inputs of unbounded size",
  ["scanner.go:newScanner","scanner.go:texScanner.pos"])
p("C08","A comment without a double quote ends at its line",
  "If body contains no newline and no double quote, ParseExpr(\"%\"+body+\"\\n\"+x) behaves as ParseExpr(x) with positions shifted by the length of the comment line (x not starting with a byte-order mark).",
  "all comment bodies, all following texts",
  "all bodies, including ones with digits, macros, braces, dollars and non-ASCII runes",
  ["scanner.go:texScanner.scanComment","parser.go:parser.parseNode"])
p("C09","A double quote in a comment swallows the next line",
  "The unrestricted form of C08 is false: there are comment lines after which text on the following line is missing from the tree, namely when the comment holds an unterminated double quote. More precisely for every quote-free a, b, c without newlines, ParseExpr(\"%\"+a+\"\\\"\"+b+\"\\n\"+c+\"\\n\"+x), with b free of backslashes, drops c as well.",
  "existence of a witness, and all quote-free fragments a, b, c",
  "tests do not explore quotes inside comments",
  ["scanner.go:texScanner.scanComment","scanner.go:newScanner"])
p("C10","ParseExpr inverts source rendering of the supported language",
  "For every document of the supported language (words, integers and decimals, symbols, spaces, line breaks, comments, macros with their mandatory and optional arguments, inline math, braced groups in math, braced and unbraced sub- and superscripts, nested arbitrarily) whose adjacent items do not fuse lexically, ParseExpr of its source text returns exactly its syntax tree, with exact byte positions.",
  "all documents of the grammar, of any size and depth",
  "a full functional specification over infinitely many documents",
  ["parser.go:parser.parseNode","parser.go:parser.parseMathExpr","parser.go:parser.parseMacro","parser.go:parser.parseMacroArg","parser.go:parser.parseOptMacroArg","parser.go:parser.parseSup","parser.go:parser.parseSub","parser.go:parser.parseMathLbrace","scanner.go:texScanner.scan"])
p("C11","Delimiter positions point at delimiters, and a missing closer is recorded as 0",
  "In the tree returned by ParseExpr(x): x[Left] is '$' for every MathExpr, x[Lbrace] is '{' for every Arg, x[Lbrack] is '[' for every OptArg, x[UnderPos] is '_' and x[HatPos] is '^' for every Sub and Sup; and the closing position of a MathExpr, Arg or OptArg either points at '$', '}' or ']' respectively, or is 0, and then the whole rest of x was absorbed by that node (nothing follows it in the tree).",
  "all byte strings on which ParseExpr returns, all delimited nodes at any depth",
  "every input and nesting, including truncated input",
  ["parser.go:parser.parseMathExpr","parser.go:parser.parseMacroArg","parser.go:parser.parseOptMacroArg","ast/ast.go:Arg","ast/ast.go:OptArg","ast/ast.go:MathExpr"])
p("C12","Unterminated constructs are accepted silently",
  "ParseExpr does not reject an unterminated math expression, argument or script group: for every beginning of a document of the supported language with any nesting of open math expressions, groups, script groups and last macro arguments, ParseExpr of that text alone returns a tree, whose closing positions are 0 so that End() precedes Pos(). If instead a mandatory argument is still missing, it panics.",
  "all documents of the grammar; existence of a witness",
  "the behaviour on every truncated input is outside example-based tests",
  ["parser.go:parser.parseMathExpr","parser.go:parser.parseMacroArg"])
p("C13","Macro arity",
  "Every macro in the tree returned by ParseExpr is a known macro other than \\genfrac, and its argument list has exactly the shape its signature prescribes: one Arg per mandatory argument, and for an optional argument at most one OptArg, which comes first.",
  "all byte strings on which ParseExpr returns, all macros at any depth",
  "every input; callers index Args without checking",
  ["macros.go:parser.addBuiltinMacros","macros.go:builtinMacro.parseMacro","parser.go:parser.parseMacro","parser.go:parser.parseMacroArg","parser.go:parser.parseOptMacroArg"])
p("C14","Shape of parse results",
  "In the tree returned by ParseExpr: words are non-empty runs of letters; literals start with a digit, or a dot and a digit; symbols are one of the 17 symbol characters other than '$', '^' and '_', one of '( ) [ ]', or (outside math) a blank or backslash-blank; the delimiter of a MathExpr is \"$\"; bare groups (nested ast.List) and only Arg/OptArg nodes occur inside math or as macro arguments respectively; no element of a list is nil.",
  "all byte strings on which ParseExpr returns, all nodes at any depth",
  "every input; consumers switch on these shapes and panic otherwise",
  ["parser.go:parser.parseNode","scanner.go:texScanner.scan","ast/ast.go:Node"])
p("C15","Script operand",
  "A Sub or Sup in the tree returned by ParseExpr has a nil operand only when the script character is directly followed, in math mode, by a blank (or by a comment); such trees exist, and on them End() and ast.Walk panic. When the operand is present it is a group list or a single node.",
  "all byte strings on which ParseExpr returns, all scripts at any depth; existence of a witness",
  "the nil operand arises on inputs absent from the tests and breaks every later traversal",
  ["parser.go:parser.parseSup","parser.go:parser.parseSub","ast/walk.go:Walk","ast/ast.go:Sup"])
p("C16","Underscore after a number is not a subscript",
  "The claim 'in math, every unescaped underscore outside comments opens a Sub' is false: after a number the underscore is absorbed by the literal. For every non-empty decimal digit string d not starting with 0 and every letter string w, ParseExpr(\"$\"+d+\"_\"+w+\"$\") contains the literal d+\"_\" and no Sub (w not fusing as an exponent). Likewise a letter e or p directly after a number is absorbed by the literal.",
  "all digit strings and letter strings",
  "tests only use subscripts on words and macros",
  ["scanner.go:newScanner","parser.go:parser.parseSub"])
p("C17","A stray closing brace or an unsupported character is never silently dropped",
  "If ParseExpr(x) returns, then every '}' of x that is tokenised as a delimiter closes an open brace group: at top level a '}' makes ParseExpr panic, for every continuation of the input. Likewise, at any nesting depth, a character outside the supported alphabet, a double quote, a '{' outside math, an unknown macro, \\genfrac, and a macro whose mandatory argument does not follow make it panic for every continuation, and so does a trailing script character.",
  "all documents of the grammar followed by a stray character and any continuation",
  "all prefixes and all continuations",
  ["parser.go:parser.parseNode","scanner.go:texScanner.scan"])
p("C20","Walk visits in depth-first order with closing nil calls",
  "For every tree without nil children and every visitor that never declines, ast.Walk calls Visit on each node before its children, in source order, exactly once per node, and calls Visit(nil) exactly once after the children of each node; the sequence of calls is the well-bracketed depth-first sequence of the tree.",
  "all trees of any shape and size",
  "all trees",
  ["ast/walk.go:Walk","ast/walk.go:walkNodes"])
p("C21","Walk honours pruning and visitor replacement",
  "For every visitor, whatever state it keeps, whatever it answers and whatever visitor it returns: the children of a node are walked with the visitor returned by Visit(node), the subtree is skipped with no closing call if that visitor is nil, and the effects on the visitor's state are those of the depth-first sequence of calls, in order.",
  "all trees, all stateful visitors",
  "all visitor behaviours",
  ["ast/walk.go:Walk","ast/walk.go:Visitor"])
p("C22","Inspect pruning",
  "ast.Inspect(node, f) calls f on exactly those nodes all of whose proper ancestors were accepted by f, each once and in depth-first order, and calls f(nil) once for each accepted node, after its accepted descendants.",
  "all trees without nil children, all pure predicates f on nodes",
  "all trees and predicates",
  ["ast/walk.go:Inspect","ast/walk.go:inspector.Visit"])
p("C23","Walk fails exactly on reachable nil children",
  "ast.Walk with a visitor that never declines panics if and only if the tree has a nil node as an element of a list or as operand of a script; contrary to its documentation it does not skip nil children. On the result of ParseExpr it panics exactly when some script has a nil operand.",
  "all trees; all byte strings on which ParseExpr returns",
  "all trees",
  ["ast/walk.go:Walk"])
p("C24","Print is total and faithful up to positions",
  "ast.Print terminates without panic on every tree whose macros have names, and two trees printed to the same text are equal up to source positions and the delimiter of math expressions.",
  "all pairs of trees",
  "injectivity over all pairs of trees, including texts with quotes, commas, braces and invalid UTF-8",
  ["ast/ast.go:Print"])
p("C25","Pos and End of parse results",
  "For every terminated construct in the tree returned by ParseExpr, Pos() is at most End(), children lie strictly inside the delimiters of their Arg, OptArg or MathExpr, and End() of such a node is the position of its closing delimiter. Hence the documented 'position of first character immediately after the node' is off by one for Arg, OptArg, MathExpr and macros with arguments.",
  "all byte strings on which ParseExpr returns, all nodes at any depth; existence of a witness",
  "every input and nesting",
  ["ast/ast.go:Node","ast/ast.go:Arg.End","ast/ast.go:MathExpr.End","ast/ast.go:Macro.End"])
p("C26","Token kinds have distinct names",
  "token.Kind.String never panics and is injective on all integer values: different kinds, valid or not, print differently.",
  "all integers used as a Kind (pairs)",
  "all pairs of integers",
  ["token/kind_string.go:Kind.String","token/token.go:Kind"])
p("C30","Symbol sets behave as mathematical sets",
  "symbols.NewSet(vs...).Has(k) holds iff k is in vs; UnionOf(s...).Has(k) iff some set has k; Keys() lists each element once in strictly increasing byte order, for every iteration order of the underlying map.",
  "all lists of strings, all set lists, all map iteration orders",
  "all inputs and all (randomised) map iteration orders",
  ["mtex/symbols/set.go:Set","mtex/symbols/set.go:UnionOf","mtex/symbols/set.go:NewSet"])
p("C31","Symbol to rune mapping",
  "tex2unicode.Index(`\\`+k, true) returns the table entry of k for every known symbol k; in text mode Index returns the first rune of any string starting with a valid rune; in math mode it is the identity on every ASCII character but '-', which maps to U+2212; every other string panics.",
  "all known symbols, all strings, both modes",
  "all strings",
  ["internal/tex2unicode/utf8.go:Index","internal/tex2unicode/utf8.go:Symbols"])
p("C32","Every macro accepted by ParseExpr has a math handler",
  "For every macro name that ParseExpr accepts, mtex finds a handler; mtex.Parse therefore never fails with 'unknown macro', for any input.",
  "all macro names in the (finite but large) macro table; all byte strings",
  "tests exercise a handful of the several hundred names; the two tables are maintained by hand",
  ["mtex/parser.go:parser.handler","mtex/macros.go:builtinMacros","macros.go:parser.addBuiltinMacros"])
p("C40","HPack delivers the requested width",
  "After l.HPack(w, false) the width of l is exactly w; after l.HPack(w, true) it is w plus the natural width, the left-to-right sum of its children's widths. Holds for every arithmetic, hence for float64.",
  "all lists of children of every node type, all w, all arithmetics",
  "all box lists and all float values",
  ["tex/box.go:HList.HPack","tex/box.go:Box.hpackDims","tex/box.go:List.hpackDims","tex/box.go:Glue.hpackDims","tex/box.go:Kern.hpackDims"])
p("C41","A packed horizontal list encloses its material",
  "The height (depth) of a packed HList is non-negative and at least the height minus shift (depth plus shift) of every child with finite extents, and is attained by a child or zero.",
  "all lists of children",
  "all box lists",
  ["tex/box.go:HList.HPack","tex/box.go:List.hpackDims","tex/box.go:Char.hpackDims"])
p("C42","Kerning only inserts kerns",
  "HListOf(elements, doKern) keeps the given nodes, in order, and only inserts after an element a Kern whose width is that element's non-zero kerning with its successor (nil for the last); without doKern the children are the elements.",
  "all element lists, all backends",
  "all box lists",
  ["tex/box.go:HListOf","tex/box.go:HList.kern","tex/box.go:Char.Kerning"])
p("C43","VPack delivers the requested height and bounds the depth",
  "After l.VPack(h, false, m) the height of l is exactly h; after l.VPack(h, true, m) it is h plus the natural height; the depth never exceeds m, and the excess depth is moved into the height so that height plus depth is conserved.",
  "all lists of children, all h and m",
  "all box lists",
  ["tex/box.go:VList.VPack","tex/box.go:VListOf","tex/box.go:Box.vpackDims"])
p("C44","Glue setting selects the highest infinity order",
  "After packing with slack x, a list stretches (shrinks) at order o only if o is the highest order at which the children's stretch (shrink) totals are non-zero, and then total(o) times GlueSet equals x; it is rigid if x is zero or no glue applies.",
  "all lists of children, all widths",
  "all combinations of glue",
  ["tex/box.go:determineOrder","tex/box.go:List.setGlue","tex/box.go:HList.HPack","tex/box.go:VList.VPack"])
p("C45","Repacking forgets history, except a stale GlueSet",
  "The result of HPack or VPack depends only on the children and the arguments, not on earlier packings, in every observable but GlueSet() of a rigid list, which can be stale and which Ship ignores.",
  "all lists, all histories of packings",
  "all operation histories",
  ["tex/box.go:HList.HPack","tex/box.go:VList.VPack","tex/box.go:List.setGlue"])
p("C46","Shrink has no floor; Grow then Shrink is not always the identity",
  "Contrary to the documentation ('only three levels of sizes, after which things will no longer get smaller'), for every n, n successive Shrink calls on a fresh node multiply its dimensions by 0.7^n. Shrink after Grow restores the dimensions of a node grown fewer than 6 times net, but not beyond: after 7 Grow and 7 Shrink calls the node is larger than at the start.",
  "all nodes, all n, all histories of Shrink and Grow",
  "all histories",
  ["tex/box.go:Box.Shrink","tex/box.go:Box.Grow","tex/box.go:Char.Shrink","tex/box.go:Kern.Shrink","tex/box.go:Glue.Shrink","tex/box.go:List.Shrink"])
p("C47","Shrinking a packed list keeps it packed",
  "If the width of a list is the sum of its children's widths and its height and depth are the maxima over its children, the same holds after Shrink and after Grow (exact arithmetic).",
  "all lists of children without accents, any depth",
  "all box trees",
  ["tex/box.go:List.Shrink","tex/box.go:List.Grow"])
p("C48","Ship draws every character exactly once, in order",
  "When Ship.Call returns, the glyphs drawn are exactly the characters and accents of the box tree in depth-first order, each with its own font, and every filled rectangle comes from a Rule of the tree, at most one each.",
  "all box trees of any depth, all offsets",
  "all box trees",
  ["tex/box.go:Ship.Call","tex/box.go:Ship.hlistOut","tex/box.go:Ship.vlistOut"])
p("C49","Ship is translation equivariant",
  "Shipping a tree at (ox+dx, oy+dy) draws what shipping it at (ox, oy) draws, translated by (dx, dy) (exact arithmetic).",
  "all box trees, all offsets",
  "all box trees",
  ["tex/box.go:Ship.Call","tex/box.go:Ship.hlistOut","tex/box.go:Ship.vlistOut"])
p("C50","Ship can be repeated",
  "Shipping a tree changes it (widths of lists inside vertical lists are overwritten), but shipping it again draws exactly the same, and a third time changes nothing further; the root's own dimensions are unchanged.",
  "all box trees",
  "all box trees",
  ["tex/box.go:Ship.vlistOut","tex/box.go:Ship.Call"])
p("C51","Ship panics exactly on misplaced nodes",
  "Ship.Call panics if and only if the tree contains a Char or Accent directly in a vertical list, or a box that is neither a Rule nor a list but has positive width and height (after running dimensions) directly in a horizontal list.",
  "all box trees",
  "all box trees",
  ["tex/box.go:Ship.hlistOut","tex/box.go:Ship.vlistOut"])
p("C52","Ship keeps its cursor balanced",
  "After a list inside a horizontal list has been drawn the baseline is restored and the pen has advanced by exactly the list's width; the nesting counter returns to zero and maxPush equals the nesting depth of non-empty lists.",
  "all box trees",
  "all box trees",
  ["tex/box.go:Ship.hlistOut","tex/box.go:Ship.vlistOut"])
p("C53","HCentered centres its content",
  "After HCentered(elements).HPack(w, false), the content is drawn at horizontal offset (w - natural width)/2 from the left edge of the box, up to rounding to a whole point (at most 1/2).",
  "all element lists without glue, all widths within the clamp range",
  "all element lists and widths",
  ["tex/box.go:HCentered","tex/box.go:NewGlue","tex/box.go:HList.HPack","tex/box.go:Ship.hlistOut"])
p("C54","A shipped list ends at its width",
  "Drawing the children of a horizontal list advances the pen by the list's width when the list is rigid with its natural width, and by the width up to 1/2 when its glue is set.",
  "all box lists",
  "all box lists",
  ["tex/box.go:Ship.hlistOut","tex/box.go:HList.HPack"])
p("C55","The drawing of a list is composed of the drawings of its children",
  "In exact arithmetic: the drawing of a horizontal list is the concatenation of the drawings of its children, each as if it were the only child of the list shipped further right by the widths (and set glue) before it; a horizontal list inside a horizontal list is drawn as if shipped by itself with its baseline on the outer baseline, lowered by its shift; a list inside a vertical list is drawn as if shipped by itself below what precedes it, moved right by its shift. Characters, accents and rules are drawn at the reference point.",
  "all box trees, all positions of the child, all offsets",
  "all box trees",
  ["tex/box.go:Ship.Call","tex/box.go:Ship.hlistOut","tex/box.go:Ship.vlistOut"])
p("C57","Rules are painted below the space they reserve",
  "The claim 'a rule is painted inside the space it reserves' is false: a visible rule of height h and depth d in a horizontal list is painted from d to d+h below the baseline, and in a vertical list the rectangle starts where the reserved space ends.",
  "all visible rules in any list",
  "the tests record the coordinates without relating them to the layout",
  ["tex/box.go:Ship.hlistOut","tex/box.go:Ship.vlistOut","tex/box.go:Rule.render"])
p("C56","AutoHeightChar matches the requested extents",
  "With a backend whose metrics scale linearly with the font size, AutoHeightChar(c, h, d, state, 0) yields a box whose height minus shift is h and whose depth plus shift is d, whenever the glyph is not flat (exact arithmetic).",
  "all characters, heights, depths and linear backends",
  "all backends",
  ["tex/box.go:AutoHeightChar"])
p("C58","mtex.Parse succeeds exactly on the supported trees",
  "With a backend that knows all symbols and x-heights, mtex.Parse(x) returns if and only if ParseExpr(x) returns a tree in which no script occurs where it is visited, every math symbol has a handler, punctuation in math is only '.', and \\hspace arguments are numeric literals; otherwise it panics. The error result is always nil.",
  "all byte strings, all font sizes and resolutions",
  "all inputs",
  ["mtex/parser.go:Parse","mtex/parser.go:visitor.Visit","mtex/parser.go:handleSymbol","mtex/parser.go:handleCustomSpace","mtex/parser.go:parser.handler"])
p("C59","mtex.Parse keeps characters in order",
  "The characters of the box tree built by mtex.Parse(x), in drawing order, are the characters prescribed by the syntax tree: words letter by letter, literals character by character, function names letter by letter, fractions numerator first, binomials between parentheses, roots index first then the radical sign then the body.",
  "all byte strings on which mtex.Parse returns",
  "all inputs",
  ["mtex/parser.go:visitor.Visit","mtex/parser.go:handleFrac","mtex/parser.go:handleSqrt","mtex/parser.go:handleBinom","mtex/parser.go:handleOverline"])
p("C60","Braced groups in math are dropped from the drawing",
  "The claim 'every word of a math expression is drawn' is false: a bare braced group directly inside $...$ contributes nothing to the box tree, whatever its content; the same group inside a macro argument is drawn. So a source with such a group and one whose tree is the same without it get the same box from mtex.Parse, or both make it panic (operators after brackets and decimal dots being in the same situation, see C91).",
  "all group contents; existence of a witness",
  "no test has a group directly in math",
  ["mtex/parser.go:visitor.Visit"])
p("C61","Whether a decimal dot is spaced depends on the first dot of the whole expression",
  "A dot inside a number literal is drawn without extra space if and only if the first dot of the whole input is surrounded by digits; hence the drawing of '3.14' depends on unrelated earlier text.",
  "all byte strings, all literals",
  "tests have a single dot",
  ["mtex/parser.go:handleSymbol","mtex/parser.go:visitor.Visit"])
p("C62","Math mode does not leak",
  "mtex.Parse draws each top-level item of a document independently of its neighbours: the boxes of a document are the concatenation of the boxes of its items, each built in text mode with the roman font, whatever math expressions precede it.",
  "all syntax trees",
  "all inputs",
  ["mtex/parser.go:visitor.Visit","mtex/parser.go:parser.parse"])
p("C63","The glyph cache of the TrueType backend ignores the math flag",
  "The claim 'Metrics depends only on its arguments' is false for ttf.Backend: the answer for a symbol depends on whether it was first asked for in math or text mode. It is true for every history as long as, for each symbol, font and resolution, both modes resolve to the same rune or only one mode is used.",
  "all histories of Metrics, Kern and RenderGlyph calls",
  "history dependence",
  ["font/ttf/ttf.go:Backend.getInfo","font/ttf/ttf.go:Backend.getGlyph","internal/tex2unicode/utf8.go:Index"])
p("C64","Canvas records operations in call order",
  "After any sequence of RenderGlyph and RenderRectFilled calls on a fresh canvas, Ops() is the list of those operations in call order; an earlier result of Ops() is a prefix of any later one.",
  "all sequences of drawing calls",
  "all histories",
  ["drawtex/canvas.go:Canvas"])
p("C65","Render forwards exactly the shipped drawing",
  "mtex.Render builds the canvas by shipping the parsed box once at the origin, calls the renderer exactly once with width w/72 and height ceil(h + max(d,0))/72, and returns an error if and only if the renderer does.",
  "all expressions, sizes, resolutions and renderers",
  "all inputs and renderer outcomes",
  ["mtex/render.go:Render"])
p("C67","What mtex.Parse returns can be drawn",
  "Whatever box tree mtex.Parse returns, shipping it at any offset returns: Ship.Call never panics on it (although it does panic on some box trees a user can build by hand).",
  "all expressions on which mtex.Parse returns, all backends, font sizes, resolutions and offsets",
  "all inputs",
  ["mtex/parser.go:Parse","tex/box.go:Ship.Call","tex/box.go:Ship.hlistOut","tex/box.go:Ship.vlistOut"])
p("C69","When mtex.Render returns",
  "With fonts that answer every question, mtex.Render(dst, x, size, dpi, fonts) reaches its renderer if and only if ParseExpr returns a tree for x, every symbol of that tree can be set in the mode it stands in (in math a single ASCII character or a listed symbol, in text any valid character), there are no scripts and no punctuation in math other than a full stop, \\hspace has a numeral, and every symbol set in script size stands for a character in math mode, even if it is set in text mode. Otherwise it panics. Finding: 57 macro names that ParseExpr accepts and mtex takes for a glyph, such as \\setminus or \\Alpha, stand for no character. Finding: a radical or binomial in a formula makes Render panic if the fonts have no italic, even if all of its glyphs are roman, since the x-height of the italic font is asked for.",
  "all expressions, sizes, resolutions and font libraries",
  "all inputs",
  ["mtex/render.go:Render","mtex/parser.go:Parse","font/ttf/ttf.go:Backend.getInfo","font/ttf/ttf.go:Backend.XHeight","internal/tex2unicode/utf8.go:Index"])
p("C66","Fractions and binomials: where the parts are drawn",
  "For a fraction with line thickness t, bar thickness r and axis height a, genfrac draws the numerator, the bar and the denominator, in this order: the numerator ends t + r above the axis, the bar starts t below the axis and is as wide as the wider part, the denominator begins 3t below the axis; both are centred up to half a point. The box is 2t wider than the wider part. \\frac, \\tfrac and \\binom set their parts shrunk once, \\dfrac does not; \\binom draws adapted parentheses on both sides and no bar. (For parts that need no more than 10^9 points of glue to be centred: Ship stretches no glue further.) Finding: with r = t the bar has a gap of 3t above it and of t below it.",
  "all numerators, denominators, thicknesses, backends and positions, in exact arithmetic",
  "all dimensions of the parts",
  ["mtex/parser.go:parser.genfrac","mtex/parser.go:parser.autoSizedDelimiter","tex/box.go:HCentered","tex/box.go:Call"])
p("C70","Ship draws by coordinates",
  "Whatever Ship.Call(ox, oy, tree) draws is the drawing of the tree by coordinates: every child of a horizontal list is drawn at the left end plus the advance of the children before it (with its share of glue), every child of a vertical list below those before it; glyphs sit at the pen, rules as rectangles. No other state (counters, previous pages) matters.",
  "all box trees and offsets, in exact arithmetic",
  "all trees of any depth",
  ["tex/box.go:Call","tex/box.go:hlistOut","tex/box.go:vlistOut"])
p("C71","Formulas have finite dimensions and coordinates",
  "With a backend that answers with numbers, whose parentheses and radical are not flat, and a positive size and resolution, every box tree mtex.Parse returns has a width, height and depth that are numbers, height and depth not negative, and everything drawn from it is at finite coordinates in a finite size; mtex.Render over TrueType fonts passes finite width and height and finite coordinates to its renderer. At size 0 a radical makes the dimensions NaN.",
  "all expressions, backends or font libraries, sizes and offsets, in exact arithmetic",
  "all expressions of any nesting",
  ["mtex/parser.go:Parse","mtex/render.go:Render","tex/box.go:HList.HPack","tex/box.go:VList.VPack","tex/box.go:AutoHeightChar"])
p("C72","Radicals and overlines: where the parts are drawn",
  "\\overline draws a line of the width of its argument and the thickness t of lines, lower edge t + e above it (e a 1200th of size times resolution), then the argument moved by at most half a point. \\sqrt draws the index (shrunk twice, raised by six tenths of the height of the sign), the radical sign reaching from 5t above the body to its depth, a line from the right end of the sign over the body with 2t on either side, lower edge 3t + e above the body, then the body moved by at most half a point. The boxes have the dimensions that contain these. (For lines, sizes and resolutions with 4t + e of at most 10^9 points, where Ship cuts off glue.)",
  "all bodies, indices, backends with metrics proportional to the size, and positions, in exact arithmetic",
  "all dimensions of the parts",
  ["mtex/parser.go:handleSqrt","mtex/parser.go:handleOverline","tex/box.go:AutoHeightChar","tex/box.go:vlistOut"])
p("C68","Kerning of scaled characters uses the unscaled advance",
  "Shrink and Grow scale the width, height, depth and font size of a character but not its advance. After any history of calls, Kerning(next) of a character made by NewChar is the unscaled advance minus the scaled width plus the kerning of the pair; a character scaled by the factor f is followed by (1-f) times its advance more room than one made at that size. Finding.",
  "all characters, backends and histories of Shrink and Grow, in exact arithmetic",
  "all histories",
  ["tex/box.go:Char.Shrink","tex/box.go:Char.Grow","tex/box.go:Char.Kerning"])
p("C73","Operators are spaced",
  "A binary operator, relation or arrow is drawn between two blanks of a fifth of an em, unless it is a binary operator directly after an opening brace, parenthesis or bracket or a <, where it is drawn alone; any other symbol that is not a full stop or a blank is drawn alone. Finding: a binary operator at the start of the formula is spaced, although a comment in the code says it is not.",
  "all symbols, sources, positions and backends",
  "all sources before the operator",
  ["mtex/parser.go:handleSymbol","mtex/symbols/symbols.go"])
p("C74","What Kern of the TrueType backend depends on",
  "Kern(ft1, sym1, ft2, sym2, dpi) is 0 and changes nothing if the names or sizes of the fonts differ. Otherwise, after any history of calls in math mode, it is what the font library says about the glyph numbers of the two symbols in the face of the first. A fresh backend answers exactly if both symbols have a glyph (or the fonts differ). Findings: it does not depend on the size nor on the resolution, so it is right at one size only (a 64th of the units per em, in points), and the number of the second glyph is used in the face of the first even if it was looked up in another.",
  "all font libraries, symbols, fonts, resolutions and histories of calls",
  "all histories and libraries",
  ["font/ttf/ttf.go:Backend.Kern","font/ttf/ttf.go:Backend.getInfo"])
p("C75","Images and PDF files",
  "drawimg's Render(w, h, dpi, canvas) writes one image of ceil(w*dpi) by ceil(h*dpi) pixels with exactly one black mark for each operation of the canvas, in order: glyphs in their font and size at their place times dpi/72, rectangles by their corners times dpi/72; it returns what the PNG encoder returns. If the image is too large to be made or a face cannot be opened it panics and writes no image. Composed with mtex.Render: the marks are those of the drawing calls Ship makes for the formula. Finding: drawpdf's Write draws nothing at all on its page, whatever the canvas.",
  "all canvases, sizes, resolutions and library answers; end to end: all expressions",
  "all canvases",
  ["drawtex/drawimg/drawimg.go:Renderer.Render","drawtex/drawimg/drawimg.go:drawGlyph","drawtex/drawimg/drawimg.go:drawRect","drawtex/drawpdf/drawpdf.go:Write","mtex/render.go:Render"])
p("C77","The command mtex-render and its output file",
  "mtex-render ends with success exactly if it is given one argument, the output file can be made and closed, and mtex.Render returns no error; the file then holds one image, that of the formula. Finding: the file is emptied before the expression is looked at, so for every expression on which mtex.Render panics the command leaves an empty file and what was in it is lost.",
  "all arguments, sizes, resolutions, previous contents and library answers",
  "all crash points and inputs",
  ["cmd/mtex-render/main.go:main","mtex/render.go:Render"])
p("C76","What is drawn stays in the box, vertically",
  "For any document, any backend whose glyph dimensions are proportional to the font size, whose radical sign crosses the base line and whose lines are not thicker than hundreds of millions of points, and any positive size and resolution: every line and every glyph (with the extents its font gives it) drawn when the box made by mtex is shipped at a height y lies between y and y plus the height and depth of the box, up to half a point for every \\sqrt or \\overline it stands in; exactly so if there is none. In the same way what mtex.Render draws of formulas with TrueType fonts stays on the page it announces to the renderer. Finding: the half points are really lost, two nested overlines can push a glyph a whole point below its box.",
  "all documents, backends with proportional glyphs, sizes, resolutions and places",
  "all documents and fonts",
  ["mtex/parser.go:visitor","tex/box.go:HList.HPack","tex/box.go:VList.VPack","tex/box.go:hlistOut","tex/box.go:vlistOut"])
p("C78","What Metrics of the TrueType backend answers",
  "A fresh ttf.Backend answers Metrics(symbol, font, dpi, math) exactly if the symbol stands for a character, the fonts have a face for it (italics only for letters) and the library answers; width, height and bounds are then those of the glyph at 12 points scaled by size/12, proportional to the size. RenderGlyph draws the same glyph, at the size asked for, labelled with the character. Findings: the advance is computed as if every font had 2048 units per em, so for any other font (1000 units, say) it is wrong by that ratio; the resolution is ignored unless a font is called Cmex10.",
  "all symbols, fonts, sizes, resolutions, modes and answers of the font library",
  "all fonts and sizes",
  ["font/ttf/ttf.go:Metrics","font/ttf/ttf.go:getInfo","font/ttf/ttf.go:getGlyph","font/ttf/ttf.go:RenderGlyph"])
p("C79","Blanks",
  "The twelve blanks (\\, \\thinspace \\/ \\> \\: \\; backslash-blank ~ \\enspace \\quad \\qquad \\!) set room of 3, 3, 3, 4, 4, 5, 6, 6, 9, 18, 36 and -3 eighteenths of an em, up to a 180000th, and \\hspace{v} room of v ems, where the em is the advance of the italic m at the current size; nothing is drawn for them. They are set exactly if the m can be measured (and the argument is a number). Finding: outside a formula, backslash-blank draws a backslash.",
  "all blanks, positions, sizes, modes, arguments and backends",
  "all sizes and backends",
  ["mtex/parser.go:spaceWidth","mtex/parser.go:handleSpace","mtex/parser.go:handleCustomSpace","mtex/parser.go:makeSpace"])
p("C80","The window of mtex-render",
  "Until the window is closed or escape is pressed (Run then returns at once, with the error of the window), every frame shows, for each of its image and formula widgets in order, the formula that was the text of the editor at the last commit (control-enter, or a click on the button) before it; the image is the picture of the last such formula of which one could be made. A screenshot is made after a frame exactly if F11 was pressed since the frame before. Findings: the program crashes if and only if a widget is laid out while the formula in force cannot be parsed or drawn (given that the libraries open their fonts and make the images asked for; so one commit of $x^2$ kills the window); for an empty formula the old image stays.",
  "all sequences of events, frames and widgets, texts and library answers",
  "all histories of events",
  ["cmd/mtex-render/gio.go:Run","cmd/mtex-render/gio.go:Layout","cmd/mtex-render/gio.go:imgRender","cmd/mtex-render/gio.go:gioRender"])
p("C81","The renderer of the window",
  "The gio renderer makes exactly one mark for each operation of the canvas, in order: for a glyph a black text, in italics if it is slanted, whose upper left corner is at its place, higher by its size; for a rectangle its four corners, moved by a fixed offset; all scaled by dpi/72. The offset is one pixel to the left and, upwards, one pixel plus the part of the line height of the font that is not above the baseline, in the text size of the theme; without the measures of the font making the renderer panics. The origin, the clip and the stack of the toolkit are left as they were. Finding: the face of a glyph is not passed on, so bold is lost.",
  "all canvases, resolutions, offsets and states of the toolkit",
  "all canvases and states",
  ["cmd/mtex-render/gio.go:gioRenderer.Render","cmd/mtex-render/gio.go:drawGlyph","cmd/mtex-render/gio.go:drawRect","cmd/mtex-render/gio.go:newGioRenderer"])
p("C82","What is drawn stays in the box, horizontally",
  "For any document in which nothing goes back (no \\! , no \\hspace of a negative number, no \\sqrt with an index), any backend whose glyphs advance in proportion to the font size and are kerned by no more than their advance, and any positive size and resolution: every line, and every glyph from its reference point to where it leaves the pen, drawn when the box made by mtex is shipped at x lies between x and x plus the width of the box. In the same way what mtex.Render draws of formulas with TrueType fonts stays between the left and the right of the page it announces to the renderer. Finding: the sign of a radical with a narrow index begins to the left of the page, and so does what follows a negative blank.",
  "all documents in which nothing goes back, backends, sizes, resolutions and places",
  "all documents and fonts",
  ["mtex/parser.go:visitor","tex/box.go:HList.HPack","tex/box.go:HList.kern","tex/box.go:HCentered","tex/box.go:hlistOut","tex/box.go:vlistOut"])
p("C83","The language of ParseExpr",
  "There is a grammar such that latex.ParseExpr returns a tree for a source exactly if the source is a sentence of the grammar, and the tree is that of the sentence; it panics exactly on the sources that are not sentences; no source has two sequences of lexemes or two trees. Lexemes: words of letters; numbers (decimal, 0x, 0o, 0b, fraction, exponent); blanks; a backslash with a word, number, string or character; comments (whose end of line may be swallowed by a string); quoted strings; the characters $_=<>^/*-+!?':,;.[]{}(). Grammar: in text, words, numbers, blanks, symbols, $...$, macros with the arguments the tables give them, ^ and _ followed by an item or, directly, by a group; in math the same without blanks and with groups; every list may also be ended by the end of the input.",
  "all byte strings, well-formed UTF-8 or not, and all trees",
  "all byte strings",
  ["ast/ast.go:Node","parser.go:ParseExpr","parser.go:parse","parser.go:parseNode","parser.go:parseMacro","scanner.go:Scan","macros.go:builtinMacro"])
p("C84","The font packages under any schedule",
  "Any number of goroutines may call Fonts of font/lm or font/liberation at the same time. If the four font files can be parsed, every call that ends returns the same pointer, to the fonts made of these files (regular for rm and by default, italic, bold), and none panics; no file is parsed twice, in any schedule; under fair schedules every call ends. Findings: if a file is bad, exactly one call panics and all others, now and later, return nil, for which mtex.Render silently uses the default Go fonts; the bold italic face is loaded but never used.",
  "all schedules of all numbers of concurrent calls, and all outcomes of parsing the files",
  "all interleavings",
  ["font/lm/lm.go:Fonts","font/liberation/liberation.go:Fonts","font/ttf/ttf.go:NewFrom","font/ttf/ttf.go:defaultFonts","mtex/render.go:Render"])
p("C85","Layout is proportional to the font size and to the resolution",
  "If the answers of the font backend are proportional to the font size and to the resolution, then for every document mtex.Parse at k times the size and l times the resolution returns the same tree of boxes with every width, height, depth, shift and kern multiplied by k*l, or panics in the same way. Ship draws the same glyphs (at k times the size) and rules, in the same order, at k*l times the coordinates: exactly, if there are no fractions, binomials, radicals or overlines; otherwise up to half a point at either scale for each of them around the glyph. mtex.Render of formulas with TrueType fonts without kerning is proportional to the size in the same sense; the page height is rounded up to whole points. Findings: the positions set by glue are rounded to whole points, so that a numerator is not centred at the same place at another size (C85_rounding), and the kerning of TrueType fonts is the same number of points at every size (C85_kerning).",
  "all documents, backends that are proportional, font sizes (also infinite or NaN), resolutions and factors",
  "all inputs and all factors",
  ["mtex/parser.go:Parse","mtex/macros.go","tex/box.go:Ship","tex/box.go:HPack","tex/box.go:VPack","tex/utils.go:clamp","font/ttf/ttf.go:getInfo","font/ttf/ttf.go:Kern","mtex/render.go:Render"])
p("C86","VListOf and VCentered",
  "tex.VListOf(els) panics exactly if one of els is a character or an accent; otherwise it holds els unchanged and in order, unshifted, as wide as the widest of them, as deep as the last one (however deep), as high as the stack above it, with all glue at its natural size. tex.VCentered(els), packed to a height h with VPack, has height h and depth 0 and draws els as if they stood alone in it, lower by a whole number of points within half a point of half the room they leave.",
  "all lists of nodes and heights",
  "all lists and heights",
  ["tex/box.go:VListOf","tex/box.go:VCentered","tex/box.go:VList.VPack","tex/box.go:vlistOut"])
p("C87","Layout and drawing in float64",
  "In Go's float64 arithmetic (IEEE 754 binary64, rounding to nearest even): a list packed to its natural width (HListOf, HPack(0, true)) of n children has as its width the sum of the widths of its children up to n*2^-52 of the sum of their absolute values, its glue is exactly at its natural size, and drawing it leaves the pen exactly at that width; characters and spaces of nonnegative width are never drawn before earlier ones; and a tree of boxes with finite lengths, whose glue is stretched or shrunk by R at most in each list, is drawn by Ship, glyph by glyph and line by line, as exact arithmetic draws it, at places that differ by at most N*2^-52 times the sum of all lengths in the tree, N being the number of additions, and 1 more for each list with stretched or shrunk glue around them (such glue is rounded to whole numbers) - it panics exactly if exact arithmetic does; a list packed to a width w by setting its glue leaves the pen within half a point, and a rounding error of (4n+9)*2^-52 of the lengths, of w; HCentered packed to w moves its content to the right by a whole number of points within half a point, and such a rounding error, of half the free space.",
  "all float64 values, lists of nodes and trees of boxes (finite sums)",
  "all inputs; rounding errors depend on all digits",
  ["tex/box.go:HPack","tex/box.go:HListOf","tex/box.go:Ship","tex/box.go:hlistOut","tex/box.go:vlistOut"])
p("C88","The image holds the whole formula",
  "mtex.Render with drawimg: the image of a formula in which nothing goes back (no negative blank, no radical with an index) has a whole number of pixels in width and height and one mark for every operation on the canvas; every line, and every glyph with the advance and the extents recorded with it, lies between the left and the right edge of the image, and between its upper and lower edge up to half a point for every radical or overline around it.",
  "all expressions, font libraries with sound tables, font sizes up to 10^9 and resolutions",
  "all inputs",
  ["mtex/render.go:Render","drawtex/drawimg/drawimg.go:Renderer.Render","drawtex/drawimg/drawimg.go:drawGlyph","drawtex/drawimg/drawimg.go:drawRect"])
p("C89","Sources can be put together",
  "Call a source complete if ParseExpr, given the source and the letter x on the next line, returns the trees of the source and then the word x at its place. After a complete source and a line break, any source b (without byte order mark) is read as if it stood alone: ParseExpr accepts the whole exactly if it accepts b, and returns the trees of the first source and then those of b with all positions moved by the length of what is before them; it panics exactly if it panics on b, and in the same way. Complete sources on lines of their own are again a complete source, and any number of them are read one by one.",
  "all byte strings, and all lists of complete sources",
  "all pairs of inputs",
  ["parser.go:ParseExpr","parser.go:parse","scanner.go:Scan","ast/ast.go:List"])
p("C90","What ParseExpr panics with",
  "Every byte string has exactly one list of lexemes up to the first character that begins none. ParseExpr panics with p exactly if p is the reason for which the first item of these lexemes that is wrong is wrong: a character that begins no lexeme, a quoted string, a group outside of math, a brace that closes nothing, a name that is in no table, \\genfrac, the end of the input after a caret or an underscore, or something else than a brace where an argument of a macro is needed; inside of formulas, groups, scripts and arguments as well. There is one such reason, and none for a source that is accepted. What is named in the panic is in the source: the character begins no lexeme, the macro is not in the tables.",
  "all byte strings",
  "all inputs, of any length and nesting",
  ["parser.go:ParseExpr","parser.go:parseNode","parser.go:parseMacro","parser.go:expect","scanner.go:Scan","macros.go:builtinMacro.parseMacro"])
p("C91","What the drawing depends on",
  "What mtex.Render gives to the renderer, or that and with what it panics, depends on the source text only through (1) the tree without positions and delimiters, (2) which binary operators stand right after an opening brace, parenthesis or bracket or a <, with blanks at most between, and (3), if there is a decimal number in it, whether the first full stop of the source is between digits. Hence line breaks before a source change nothing; nor do blanks in formulas (where they can be left out); nor does a comment before it that has no full stop and no double quote; and the boxes of a complete source and of one on the next line are those of the two, if no full stop stands outside of numbers. Findings: a full stop in a comment, or earlier in the text, changes the spacing of decimal numbers; a line break or a comment between an opening parenthesis and a sign changes the spacing of the sign.",
  "all byte strings, pairs of sources with trees that are the same but for positions, fonts, sizes and resolutions",
  "all pairs of inputs",
  ["mtex/parser.go:handleSymbol","mtex/parser.go:visitor.Visit","mtex/parser.go:handleNode","mtex/render.go:Render","parser.go:ParseExpr"])
p("C92","Sizes are linear",
  "The tree ParseExpr returns for a source of n bytes has at most n+1 nodes (nil operands and the names of macros included), its texts have at most n bytes together, and it is nested no deeper than that. mtex.Parse makes at most 8n boxes of it, whatever the fonts; drawing them, or mtex.Render, makes at most n calls of RenderGlyph and RenderRectFilled. ast.Walk calls Visit at most twice for each node of a tree, whatever the visitor does, so at most 2n+2 times for the tree of a source. No source, however nested, costs more.",
  "all byte strings accepted, backends, sizes and resolutions; all trees and visitors",
  "all inputs, of any length and nesting: a blow-up could need an unusual combination of macros",
  ["parser.go:ParseExpr","mtex/parser.go:Parse","mtex/render.go:Render","internal/tex2unicode","mtex/symbols","tex/box.go:Ship","ast/walk.go:Walk"])
p("C93","Templates",
  "Call a string x a formula if ParseExpr, given x between two dollar signs, returns one formula that the second dollar sign closes, with x inside it. Formulas can be put into formulas, and mean there what they mean alone, whatever they contain: a formula in braces; a formula in braces as superscript or subscript; the arguments of any macro in the tables, in braces, if there are as many as it takes; the index of a root, if no closing bracket is at its top; one formula after another, if the second begins with a character that cannot continue a word or number (a blank, a backslash, a brace, a caret, most operators); a blank before a formula. The tree is the expected one with the trees of the parts in it, moved to their places. Words, digits and operators are formulas. A formula between dollar signs is a complete source in the sense of C89. So a program that fills checked formulas into a template cannot be made to produce anything else. An underscore after a number is the exception: 2 and _{i} are formulas, but 2_{i} is not one after the other.",
  "all byte strings that are formulas, macros and argument lists",
  "all inputs, of any length and nesting",
  ["parser.go:ParseExpr","parser.go:parseNode","parser.go:parseMathExpr","parser.go:parseMacro","parser.go:parseSup","parser.go:parseSub","macros.go:builtinMacro.parseMacro","scanner.go:Scan"])
p("C94","Layouts stay finite in float64",
  "In Go's float64 arithmetic: take fonts whose characters at the font size and resolution asked for are no larger than a unit u = 2^k, with parentheses and a radical sign of at least u/J in height that sit on the base line and grow with the font size, and a source of n bytes whose numbers (for \\hspace) are at most V, with (8J+V)(n+3)^2 <= 2^36. Then the boxes mtex.Parse returns have finite dimensions - a width of at most (8J+V)n^2 u, a height and a depth that are not negative and together at most 4n u - and so has every box inside; no glue is stretched by more than 16(8J+V)(n+3)^2 u; and Ship draws them: it returns, every glyph and rectangle is at a finite place, and within a given rounding error of where exact arithmetic puts it. No nesting of fractions, roots and binomials leads to an infinity or a NaN, or to a character that is scaled without bound. mtex.Render of such a source with TrueType fonts: if at 12 points no glyph of the fonts reaches or advances further than R points, none of them is named Cmex10, they kern by at most u, and parentheses and radical sign cross the base line and are T points high, then at a size of s points with Rs/12 <= u/4 and 13/12 u <= JTs/12 the page given to the renderer has a finite size (a height of at most (4nu+2)/71 inches, a width of at most ((8J+V)n^2u+1)/71), and every operation on the canvas is at a finite place.",
  "all byte strings up to the length given, fonts of bounded dimensions, sizes, resolutions and places on the page",
  "all inputs, of any nesting; overflow and rounding depend on all digits, and sizes could grow exponentially with the nesting",
  ["mtex/parser.go:Parse","mtex/parser.go:genfrac","mtex/parser.go:handleSqrt","mtex/parser.go:handleOverline","tex/box.go:AutoHeightChar","tex/box.go:HPack","tex/box.go:VPack","tex/box.go:Ship","mtex/render.go:Render","font/ttf/ttf.go:getInfo"])
p("C95","Accents fill their boxes, rules run along their lists",
  "NewAccent: whatever Shrink and Grow are called on it afterwards, an accent has the dimensions of the ink of its glyph at the font size it then has, and no depth; drawn in a list, its glyph is placed so that the ink begins at the pen, ends at the end of the accent's width, stands on the base line and is as high as the accent. HRule(state, t) is t thick (the thickness of the font's underline if t is negative), half of it below the base line, and as a child of a vertical list is drawn from its left edge over its whole width. VRule is as wide as the underline is thick, changes neither height nor depth of the list it is packed in, and is drawn as high as the list.",
  "all backends, texts, states, histories of Shrink and Grow, and lists around",
  "all histories and all lists",
  ["tex/box.go:NewAccent","tex/box.go:Accent","tex/box.go:HRule","tex/box.go:VRule","tex/box.go:Ship"])
p("C96","Boxes are objects: no call changes another box",
  "Nodes are pointers. Shrink and Grow of a node return if no list is below itself, and change each object as often as it is met below the node and no other; if none is met twice the node becomes what the methods make of it as a value, and a node that shares nothing with it stays as it is (a Char put twice into a list is shrunk twice by one Shrink of the list). HListOf, VListOf, HCentered and VCentered change none of the objects they are given, and the list they return holds these very objects, in their order, with new Kern and Glue objects among them. mtex.Parse returns a tree of new objects, no two nodes of which are one object, or panics, and changes no object that was there before; Ship of such a tree changes no other object. So after any history of Parse, Shrink, Grow and Ship calls each box is what the calls on it alone make of it, and draws as they make it draw.",
  "all memories, nodes, lists of nodes, byte strings, and histories of calls",
  "all memories and all histories",
  ["tex/box.go:Shrink","tex/box.go:Grow","tex/box.go:HListOf","tex/box.go:VListOf","tex/box.go:HCentered","tex/box.go:VCentered","tex/box.go:HPack","tex/box.go:VPack","tex/box.go:kern","tex/box.go:AutoHeightChar","mtex/parser.go:Parse","mtex/parser.go:genfrac","mtex/parser.go:handleSqrt","mtex/parser.go:handleOverline"])
p("C97","Parts of formulas are formulas, and can be replaced",
  "The positions in the tree can be used to cut formulas out of a source. For every source that ParseExpr accepts and every MathExpr in its tree with a closing position b: the text between its dollar signs at a and b is a formula in the sense of C93 (by itself, between two dollar signs, it is accepted as one formula), and the trees it has alone are those the MathExpr has, but that a is added to the positions. In such a MathExpr every argument, optional argument and group is closed, whatever the nesting; the text between its braces or brackets is a formula, with the trees of the node, unless a MathExpr is directly among them (a dollar sign that would end the formula). By C93 what has been cut out can be put into braces elsewhere. And they can be used to edit: if the text between the delimiters of a MathExpr, or of an argument in math, is replaced by any other formula (between brackets, one that has no ] of its own), the new source is accepted, and its tree is the old one with the trees of the formula in that node, the positions from the closing delimiter on moved by the difference of the lengths and all else as it was.",
  "all byte strings accepted, all nodes of their trees, all formulas put there",
  "all inputs, of any length and nesting",
  ["parser.go:ParseExpr","parser.go:parseMathExpr","parser.go:parseMacro","parser.go:parseMacroArg","parser.go:parseOptMacroArg","ast/ast.go:MathExpr","ast/ast.go:Arg","ast/ast.go:OptArg","scanner.go:Scan"])
p("C98","What ParseExpr prints",
  "ParseExpr writes to standard error: the scanner of the standard library reads the source as if it were Go, and as no error handler is set (scanner.go:29) it prints its complaints. They make no difference to the result. A call that returns prints nothing exactly if every number of the source, wherever it stands (in text, in a formula, in a comment), is a number literal of Go, every part that begins with a double quote is a string literal of Go, no character is NUL, and each byte belongs to a character. If the source is such, a call that panics prints nothing either; in particular nothing is printed about a source of whole characters, none of them NUL, without digits and double quotes.",
  "all byte strings, accepted or not",
  "all inputs, of any length and nesting",
  ["scanner.go:newScanner","scanner.go:Scan","scanner.go:scanComment","scanner.go:scanMacro","parser.go:ParseExpr"])
p("C99","A source can be completed, or it is hopeless",
  "For every source there is a text for the lines after it with which it is accepted, made of nothing but line breaks, the letters of alpha and x, braces, closing brackets and dollar signs; or ParseExpr panics in the same way whatever is written on the lines after it. There is nothing in between: no source is rejected with all continuations, but for reasons that depend on them. Accepted sources can be completed, and so can every beginning of whole lines of an accepted source. And often the panic tells: if ParseExpr panics, and not because a brace was expected, nor with \"impossible\" (an item is missing, or a brace closes nothing), nor with an unknown macro whose name is empty or quoted, the source is hopeless and the panic stays the same. So a program that reads a source line by line can stop at the first such panic. Each of the three exceptions is needed, and so is the line break.",
  "all byte strings, and all byte strings after them",
  "all inputs, of any length and nesting",
  ["parser.go:ParseExpr","parser.go:parseNode","parser.go:parseMacroArg","parser.go:expect","scanner.go:Scan","scanner.go:scanMacro","scanner.go:scanComment"])
p("C100","Lines are set side by side",
  "If nothing is left open in a source (a word on the next line would be an item by itself) and another source is written on the lines after it, then mtex.Parse returns for the two exactly if it returns for each of them. The box of the two is made of the nodes of the first and those of the second, with the kerns due between them: as long as full stops are set alike (no full stop, or the first one between digits), it is as wide as the two boxes and the kern between the last node of the first and the first node of the second (zero unless both are glyphs; a word is a list of its own and is not kerned), as high as the higher, and as deep as the deeper. Widths and heights in exact arithmetic, infinities and NaN included.",
  "all backends, all sources with nothing left open, all sources after them, all sizes and resolutions",
  "all inputs, of any length and nesting, and all fonts",
  ["mtex/parser.go:Parse","parser.go:ParseExpr","tex/box.go:HListOf","tex/box.go:HPack","tex/box.go:kern"])
with open("/verif/properties.jsonl","w") as f:
    for o in P: f.write(json.dumps(o, ensure_ascii=False)+"\n")
print(len(P))
