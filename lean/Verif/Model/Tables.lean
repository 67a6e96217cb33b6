import Verif.Model.Bytes
/-! Generated by tools/gen_tables.py from the Go sources; do not edit.

Order of entries is source order; Go map literals have no duplicate keys (compile error). -/

namespace Verif

/-- macros.go:19-327, the literal of `addBuiltinMacros`. The value is the argument signature, `none` for a nil entry. -/
def latexMacros : List (GoString × Option GoString) := [
  (bs!"\\amalg", some bs!""),
  (bs!"\\ast", some bs!""),
  (bs!"\\bigcirc", some bs!""),
  (bs!"\\bigtriangledown", some bs!""),
  (bs!"\\bigtriangleup", some bs!""),
  (bs!"\\bullet", some bs!""),
  (bs!"\\cdot", some bs!""),
  (bs!"\\circ", some bs!""),
  (bs!"\\cap", some bs!""),
  (bs!"\\cup", some bs!""),
  (bs!"\\dagger", some bs!""),
  (bs!"\\ddagger", some bs!""),
  (bs!"\\diamond", some bs!""),
  (bs!"\\div", some bs!""),
  (bs!"\\lhd", some bs!""),
  (bs!"\\mp", some bs!""),
  (bs!"\\odot", some bs!""),
  (bs!"\\ominus", some bs!""),
  (bs!"\\oplus", some bs!""),
  (bs!"\\oslash", some bs!""),
  (bs!"\\otimes", some bs!""),
  (bs!"\\pm", some bs!""),
  (bs!"\\rhd", some bs!""),
  (bs!"\\setminus", some bs!""),
  (bs!"\\sqcap", some bs!""),
  (bs!"\\sqcup", some bs!""),
  (bs!"\\star", some bs!""),
  (bs!"\\times", some bs!""),
  (bs!"\\triangleleft", some bs!""),
  (bs!"\\triangleright", some bs!""),
  (bs!"\\uplus", some bs!""),
  (bs!"\\unlhd", some bs!""),
  (bs!"\\unrhd", some bs!""),
  (bs!"\\vee", some bs!""),
  (bs!"\\wedge", some bs!""),
  (bs!"\\wr", some bs!""),
  (bs!"\\binom", some bs!"AA"),
  (bs!"\\dfrac", some bs!"AA"),
  (bs!"\\frac", some bs!"AA"),
  (bs!"\\stackrel", some bs!"AA"),
  (bs!"\\tfrac", some bs!"AA"),
  (bs!"\\genfrac", none),
  (bs!"\\approx", some bs!""),
  (bs!"\\asymp", some bs!""),
  (bs!"\\bowtie", some bs!""),
  (bs!"\\cong", some bs!""),
  (bs!"\\dashv", some bs!""),
  (bs!"\\doteq", some bs!""),
  (bs!"\\doteqdot", some bs!""),
  (bs!"\\dotplus", some bs!""),
  (bs!"\\dots", some bs!""),
  (bs!"\\equiv", some bs!""),
  (bs!"\\frown", some bs!""),
  (bs!"\\geq", some bs!""),
  (bs!"\\gg", some bs!""),
  (bs!"\\in", some bs!""),
  (bs!"\\leq", some bs!""),
  (bs!"\\ll", some bs!""),
  (bs!"\\mid", some bs!""),
  (bs!"\\models", some bs!""),
  (bs!"\\neq", some bs!""),
  (bs!"\\ni", some bs!""),
  (bs!"\\parallel", some bs!""),
  (bs!"\\perp", some bs!""),
  (bs!"\\prec", some bs!""),
  (bs!"\\preceq", some bs!""),
  (bs!"\\propto", some bs!""),
  (bs!"\\sim", some bs!""),
  (bs!"\\simeq", some bs!""),
  (bs!"\\smile", some bs!""),
  (bs!"\\sqsubset", some bs!""),
  (bs!"\\sqsubseteq", some bs!""),
  (bs!"\\sqsupset", some bs!""),
  (bs!"\\sqsupseteq", some bs!""),
  (bs!"\\subset", some bs!""),
  (bs!"\\subseteq", some bs!""),
  (bs!"\\succ", some bs!""),
  (bs!"\\succeq", some bs!""),
  (bs!"\\supset", some bs!""),
  (bs!"\\supseteq", some bs!""),
  (bs!"\\vdash", some bs!""),
  (bs!"\\Join", some bs!""),
  (bs!"\\downarrow", some bs!""),
  (bs!"\\hookleftarrow", some bs!""),
  (bs!"\\hookrightarrow", some bs!""),
  (bs!"\\leadsto", some bs!""),
  (bs!"\\leftarrow", some bs!""),
  (bs!"\\leftharpoondown", some bs!""),
  (bs!"\\leftharpoonup", some bs!""),
  (bs!"\\leftrightarrow", some bs!""),
  (bs!"\\longleftarrow", some bs!""),
  (bs!"\\longleftrightarrow", some bs!""),
  (bs!"\\longmapsto", some bs!""),
  (bs!"\\longrightarrow", some bs!""),
  (bs!"\\rightarrow", some bs!""),
  (bs!"\\mapsto", some bs!""),
  (bs!"\\nearrow", some bs!""),
  (bs!"\\nwarrow", some bs!""),
  (bs!"\\rightharpoondown", some bs!""),
  (bs!"\\rightharpoonup", some bs!""),
  (bs!"\\rightleftharpoons", some bs!""),
  (bs!"\\searrow", some bs!""),
  (bs!"\\swarrow", some bs!""),
  (bs!"\\uparrow", some bs!""),
  (bs!"\\updownarrow", some bs!""),
  (bs!"\\Downarrow", some bs!""),
  (bs!"\\Leftarrow", some bs!""),
  (bs!"\\Leftrightarrow", some bs!""),
  (bs!"\\Longleftarrow", some bs!""),
  (bs!"\\Longleftrightarrow", some bs!""),
  (bs!"\\Longrightarrow", some bs!""),
  (bs!"\\Rightarrow", some bs!""),
  (bs!"\\Uparrow", some bs!""),
  (bs!"\\Updownarrow", some bs!""),
  (bs!"\\ldotp", some bs!""),
  (bs!"\\cdotp", some bs!""),
  (bs!"\\bigcap", some bs!""),
  (bs!"\\bigcup", some bs!""),
  (bs!"\\bigodot", some bs!""),
  (bs!"\\bigoplus", some bs!""),
  (bs!"\\bigotimes", some bs!""),
  (bs!"\\bigsqcup", some bs!""),
  (bs!"\\biguplus", some bs!""),
  (bs!"\\bigvee", some bs!""),
  (bs!"\\bigwedge", some bs!""),
  (bs!"\\coprod", some bs!""),
  (bs!"\\prod", some bs!""),
  (bs!"\\sum", some bs!""),
  (bs!"\\lim", some bs!""),
  (bs!"\\liminf", some bs!""),
  (bs!"\\limsup", some bs!""),
  (bs!"\\max", some bs!""),
  (bs!"\\min", some bs!""),
  (bs!"\\sup", some bs!""),
  (bs!"\\int", some bs!""),
  (bs!"\\oint", some bs!""),
  (bs!"\\rm", some bs!""),
  (bs!"\\cal", some bs!""),
  (bs!"\\it", some bs!""),
  (bs!"\\tt", some bs!""),
  (bs!"\\sf", some bs!""),
  (bs!"\\bf", some bs!""),
  (bs!"\\default", some bs!""),
  (bs!"\\bb", some bs!""),
  (bs!"\\frak", some bs!""),
  (bs!"\\scr", some bs!""),
  (bs!"\\regular", some bs!""),
  (bs!"\\arccos", some bs!""),
  (bs!"\\arcsin", some bs!""),
  (bs!"\\arctan", some bs!""),
  (bs!"\\arg", some bs!""),
  (bs!"\\cos", some bs!""),
  (bs!"\\cosh", some bs!""),
  (bs!"\\cot", some bs!""),
  (bs!"\\coth", some bs!""),
  (bs!"\\csc", some bs!""),
  (bs!"\\deg", some bs!""),
  (bs!"\\det", some bs!""),
  (bs!"\\dim", some bs!""),
  (bs!"\\exp", some bs!"A"),
  (bs!"\\gcd", some bs!""),
  (bs!"\\hom", some bs!""),
  (bs!"\\inf", some bs!""),
  (bs!"\\ker", some bs!""),
  (bs!"\\lg", some bs!""),
  (bs!"\\ln", some bs!""),
  (bs!"\\log", some bs!""),
  (bs!"\\sec", some bs!""),
  (bs!"\\sin", some bs!""),
  (bs!"\\sinh", some bs!""),
  (bs!"\\sqrt", some bs!"OA"),
  (bs!"\\tan", some bs!""),
  (bs!"\\tanh", some bs!""),
  (bs!"\\Pr", some bs!""),
  (bs!"\\backslash", some bs!""),
  (bs!"\\vert", some bs!""),
  (bs!"\\Vert", some bs!""),
  (bs!"\\{", some bs!""),
  (bs!"\\(", some bs!""),
  (bs!"\\langle", some bs!""),
  (bs!"\\lceil", some bs!""),
  (bs!"\\lfloor", some bs!""),
  (bs!"\\}", some bs!""),
  (bs!"\\)", some bs!""),
  (bs!"\\rangle", some bs!""),
  (bs!"\\rceil", some bs!""),
  (bs!"\\rfloor", some bs!""),
  (bs!"\\alpha", some bs!""),
  (bs!"\\beta", some bs!""),
  (bs!"\\gamma", some bs!""),
  (bs!"\\delta", some bs!""),
  (bs!"\\iota", some bs!""),
  (bs!"\\epsilon", some bs!""),
  (bs!"\\eta", some bs!""),
  (bs!"\\kappa", some bs!""),
  (bs!"\\lambda", some bs!""),
  (bs!"\\mu", some bs!""),
  (bs!"\\nu", some bs!""),
  (bs!"\\omicron", some bs!""),
  (bs!"\\pi", some bs!""),
  (bs!"\\theta", some bs!""),
  (bs!"\\xi", some bs!""),
  (bs!"\\rho", some bs!""),
  (bs!"\\sigma", some bs!""),
  (bs!"\\tau", some bs!""),
  (bs!"\\upsilon", some bs!""),
  (bs!"\\phi", some bs!""),
  (bs!"\\chi", some bs!""),
  (bs!"\\psi", some bs!""),
  (bs!"\\omega", some bs!""),
  (bs!"\\zeta", some bs!""),
  (bs!"\\Alpha", some bs!""),
  (bs!"\\Beta", some bs!""),
  (bs!"\\Gamma", some bs!""),
  (bs!"\\Delta", some bs!""),
  (bs!"\\Epsilon", some bs!""),
  (bs!"\\Zeta", some bs!""),
  (bs!"\\Eta", some bs!""),
  (bs!"\\Theta", some bs!""),
  (bs!"\\Iota", some bs!""),
  (bs!"\\Kappa", some bs!""),
  (bs!"\\Lambda", some bs!""),
  (bs!"\\Mu", some bs!""),
  (bs!"\\Nu", some bs!""),
  (bs!"\\Xi", some bs!""),
  (bs!"\\Omicron", some bs!""),
  (bs!"\\Pi", some bs!""),
  (bs!"\\Rho", some bs!""),
  (bs!"\\Sigma", some bs!""),
  (bs!"\\Tau", some bs!""),
  (bs!"\\Upsilon", some bs!""),
  (bs!"\\Phi", some bs!""),
  (bs!"\\Chi", some bs!""),
  (bs!"\\Psi", some bs!""),
  (bs!"\\Omega", some bs!""),
  (bs!"\\hbar", some bs!""),
  (bs!"\\nabla", some bs!""),
  (bs!"\\mathbf", some bs!"A"),
  (bs!"\\mathit", some bs!"A"),
  (bs!"\\mathsf", some bs!"A"),
  (bs!"\\mathtt", some bs!"A"),
  (bs!"\\mathcal", some bs!"A"),
  (bs!"\\mathdefault", some bs!"A"),
  (bs!"\\mathbb", some bs!"A"),
  (bs!"\\mathfrak", some bs!"A"),
  (bs!"\\mathscr", some bs!"A"),
  (bs!"\\mathregular", some bs!"A"),
  (bs!"\\textbf", some bs!"A"),
  (bs!"\\textit", some bs!"A"),
  (bs!"\\textsf", some bs!"A"),
  (bs!"\\texttt", some bs!"A"),
  (bs!"\\textcal", some bs!"A"),
  (bs!"\\textdefault", some bs!"A"),
  (bs!"\\textbb", some bs!"A"),
  (bs!"\\textfrak", some bs!"A"),
  (bs!"\\textscr", some bs!"A"),
  (bs!"\\textregular", some bs!"A"),
  (bs!"\\ ", some bs!""),
  (bs!"\\,", some bs!""),
  (bs!"\\;", some bs!""),
  (bs!"\\!", some bs!""),
  (bs!"\\quad", some bs!""),
  (bs!"\\qquad", some bs!""),
  (bs!"\\:", some bs!""),
  (bs!"\\cdots", some bs!""),
  (bs!"\\ddots", some bs!""),
  (bs!"\\ldots", some bs!""),
  (bs!"\\vdots", some bs!""),
  (bs!"\\hspace", some bs!"A"),
  (bs!"\\overline", some bs!"A"),
  (bs!"\\operatorname", some bs!"A")]

/-- mtex/macros.go:25-335, `builtinMacros`. The value is the argument signature, `none` for a nil entry. -/
def mtexMacros : List (GoString × Option GoString) := [
  (bs!"\\amalg", some bs!""),
  (bs!"\\ast", some bs!""),
  (bs!"\\bigcirc", some bs!""),
  (bs!"\\bigtriangledown", some bs!""),
  (bs!"\\bigtriangleup", some bs!""),
  (bs!"\\bullet", some bs!""),
  (bs!"\\cdot", some bs!""),
  (bs!"\\circ", some bs!""),
  (bs!"\\cap", some bs!""),
  (bs!"\\cup", some bs!""),
  (bs!"\\dagger", some bs!""),
  (bs!"\\ddagger", some bs!""),
  (bs!"\\diamond", some bs!""),
  (bs!"\\div", some bs!""),
  (bs!"\\lhd", some bs!""),
  (bs!"\\mp", some bs!""),
  (bs!"\\odot", some bs!""),
  (bs!"\\ominus", some bs!""),
  (bs!"\\oplus", some bs!""),
  (bs!"\\oslash", some bs!""),
  (bs!"\\otimes", some bs!""),
  (bs!"\\pm", some bs!""),
  (bs!"\\rhd", some bs!""),
  (bs!"\\setminus", some bs!""),
  (bs!"\\sqcap", some bs!""),
  (bs!"\\sqcup", some bs!""),
  (bs!"\\star", some bs!""),
  (bs!"\\times", some bs!""),
  (bs!"\\triangleleft", some bs!""),
  (bs!"\\triangleright", some bs!""),
  (bs!"\\uplus", some bs!""),
  (bs!"\\unlhd", some bs!""),
  (bs!"\\unrhd", some bs!""),
  (bs!"\\vee", some bs!""),
  (bs!"\\wedge", some bs!""),
  (bs!"\\wr", some bs!""),
  (bs!"\\binom", some bs!"AA"),
  (bs!"\\dfrac", some bs!"AA"),
  (bs!"\\frac", some bs!"AA"),
  (bs!"\\stackrel", some bs!"AA"),
  (bs!"\\tfrac", some bs!"AA"),
  (bs!"\\genfrac", none),
  (bs!"\\approx", some bs!""),
  (bs!"\\asymp", some bs!""),
  (bs!"\\bowtie", some bs!""),
  (bs!"\\cong", some bs!""),
  (bs!"\\dashv", some bs!""),
  (bs!"\\doteq", some bs!""),
  (bs!"\\doteqdot", some bs!""),
  (bs!"\\dotplus", some bs!""),
  (bs!"\\dots", some bs!""),
  (bs!"\\equiv", some bs!""),
  (bs!"\\frown", some bs!""),
  (bs!"\\geq", some bs!""),
  (bs!"\\gg", some bs!""),
  (bs!"\\in", some bs!""),
  (bs!"\\leq", some bs!""),
  (bs!"\\ll", some bs!""),
  (bs!"\\mid", some bs!""),
  (bs!"\\models", some bs!""),
  (bs!"\\neq", some bs!""),
  (bs!"\\ni", some bs!""),
  (bs!"\\parallel", some bs!""),
  (bs!"\\perp", some bs!""),
  (bs!"\\prec", some bs!""),
  (bs!"\\preceq", some bs!""),
  (bs!"\\propto", some bs!""),
  (bs!"\\sim", some bs!""),
  (bs!"\\simeq", some bs!""),
  (bs!"\\smile", some bs!""),
  (bs!"\\sqsubset", some bs!""),
  (bs!"\\sqsubseteq", some bs!""),
  (bs!"\\sqsupset", some bs!""),
  (bs!"\\sqsupseteq", some bs!""),
  (bs!"\\subset", some bs!""),
  (bs!"\\subseteq", some bs!""),
  (bs!"\\succ", some bs!""),
  (bs!"\\succeq", some bs!""),
  (bs!"\\supset", some bs!""),
  (bs!"\\supseteq", some bs!""),
  (bs!"\\vdash", some bs!""),
  (bs!"\\Join", some bs!""),
  (bs!"\\downarrow", some bs!""),
  (bs!"\\hookleftarrow", some bs!""),
  (bs!"\\hookrightarrow", some bs!""),
  (bs!"\\leadsto", some bs!""),
  (bs!"\\leftarrow", some bs!""),
  (bs!"\\leftharpoondown", some bs!""),
  (bs!"\\leftharpoonup", some bs!""),
  (bs!"\\leftrightarrow", some bs!""),
  (bs!"\\longleftarrow", some bs!""),
  (bs!"\\longleftrightarrow", some bs!""),
  (bs!"\\longmapsto", some bs!""),
  (bs!"\\longrightarrow", some bs!""),
  (bs!"\\rightarrow", some bs!""),
  (bs!"\\mapsto", some bs!""),
  (bs!"\\nearrow", some bs!""),
  (bs!"\\nwarrow", some bs!""),
  (bs!"\\rightharpoondown", some bs!""),
  (bs!"\\rightharpoonup", some bs!""),
  (bs!"\\rightleftharpoons", some bs!""),
  (bs!"\\searrow", some bs!""),
  (bs!"\\swarrow", some bs!""),
  (bs!"\\uparrow", some bs!""),
  (bs!"\\updownarrow", some bs!""),
  (bs!"\\Downarrow", some bs!""),
  (bs!"\\Leftarrow", some bs!""),
  (bs!"\\Leftrightarrow", some bs!""),
  (bs!"\\Longleftarrow", some bs!""),
  (bs!"\\Longleftrightarrow", some bs!""),
  (bs!"\\Longrightarrow", some bs!""),
  (bs!"\\Rightarrow", some bs!""),
  (bs!"\\Uparrow", some bs!""),
  (bs!"\\Updownarrow", some bs!""),
  (bs!"\\ldotp", some bs!""),
  (bs!"\\cdotp", some bs!""),
  (bs!"\\bigcap", some bs!""),
  (bs!"\\bigcup", some bs!""),
  (bs!"\\bigodot", some bs!""),
  (bs!"\\bigoplus", some bs!""),
  (bs!"\\bigotimes", some bs!""),
  (bs!"\\bigsqcup", some bs!""),
  (bs!"\\biguplus", some bs!""),
  (bs!"\\bigvee", some bs!""),
  (bs!"\\bigwedge", some bs!""),
  (bs!"\\coprod", some bs!""),
  (bs!"\\prod", some bs!""),
  (bs!"\\sum", some bs!""),
  (bs!"\\lim", some bs!""),
  (bs!"\\liminf", some bs!""),
  (bs!"\\limsup", some bs!""),
  (bs!"\\max", some bs!""),
  (bs!"\\min", some bs!""),
  (bs!"\\sup", some bs!""),
  (bs!"\\int", some bs!""),
  (bs!"\\oint", some bs!""),
  (bs!"\\rm", some bs!""),
  (bs!"\\cal", some bs!""),
  (bs!"\\it", some bs!""),
  (bs!"\\tt", some bs!""),
  (bs!"\\sf", some bs!""),
  (bs!"\\bf", some bs!""),
  (bs!"\\default", some bs!""),
  (bs!"\\bb", some bs!""),
  (bs!"\\frak", some bs!""),
  (bs!"\\scr", some bs!""),
  (bs!"\\regular", some bs!""),
  (bs!"\\arccos", some bs!""),
  (bs!"\\arcsin", some bs!""),
  (bs!"\\arctan", some bs!""),
  (bs!"\\arg", some bs!""),
  (bs!"\\cos", some bs!""),
  (bs!"\\cosh", some bs!""),
  (bs!"\\cot", some bs!""),
  (bs!"\\coth", some bs!""),
  (bs!"\\csc", some bs!""),
  (bs!"\\deg", some bs!""),
  (bs!"\\det", some bs!""),
  (bs!"\\dim", some bs!""),
  (bs!"\\exp", some bs!"A"),
  (bs!"\\gcd", some bs!""),
  (bs!"\\hom", some bs!""),
  (bs!"\\inf", some bs!""),
  (bs!"\\ker", some bs!""),
  (bs!"\\lg", some bs!""),
  (bs!"\\ln", some bs!""),
  (bs!"\\log", some bs!""),
  (bs!"\\sec", some bs!""),
  (bs!"\\sin", some bs!""),
  (bs!"\\sinh", some bs!""),
  (bs!"\\sqrt", some bs!"OA"),
  (bs!"\\tan", some bs!""),
  (bs!"\\tanh", some bs!""),
  (bs!"\\Pr", some bs!""),
  (bs!"\\backslash", some bs!""),
  (bs!"\\vert", some bs!""),
  (bs!"\\Vert", some bs!""),
  (bs!"\\{", some bs!""),
  (bs!"\\(", some bs!""),
  (bs!"(", some bs!""),
  (bs!"\\langle", some bs!""),
  (bs!"\\lceil", some bs!""),
  (bs!"\\lfloor", some bs!""),
  (bs!"\\}", some bs!""),
  (bs!"\\)", some bs!""),
  (bs!")", some bs!""),
  (bs!"\\rangle", some bs!""),
  (bs!"\\rceil", some bs!""),
  (bs!"\\rfloor", some bs!""),
  (bs!"\\alpha", some bs!""),
  (bs!"\\beta", some bs!""),
  (bs!"\\gamma", some bs!""),
  (bs!"\\delta", some bs!""),
  (bs!"\\iota", some bs!""),
  (bs!"\\epsilon", some bs!""),
  (bs!"\\eta", some bs!""),
  (bs!"\\kappa", some bs!""),
  (bs!"\\lambda", some bs!""),
  (bs!"\\mu", some bs!""),
  (bs!"\\nu", some bs!""),
  (bs!"\\omicron", some bs!""),
  (bs!"\\pi", some bs!""),
  (bs!"\\theta", some bs!""),
  (bs!"\\xi", some bs!""),
  (bs!"\\rho", some bs!""),
  (bs!"\\sigma", some bs!""),
  (bs!"\\tau", some bs!""),
  (bs!"\\upsilon", some bs!""),
  (bs!"\\phi", some bs!""),
  (bs!"\\chi", some bs!""),
  (bs!"\\psi", some bs!""),
  (bs!"\\omega", some bs!""),
  (bs!"\\zeta", some bs!""),
  (bs!"\\Alpha", some bs!""),
  (bs!"\\Beta", some bs!""),
  (bs!"\\Gamma", some bs!""),
  (bs!"\\Delta", some bs!""),
  (bs!"\\Epsilon", some bs!""),
  (bs!"\\Zeta", some bs!""),
  (bs!"\\Eta", some bs!""),
  (bs!"\\Theta", some bs!""),
  (bs!"\\Iota", some bs!""),
  (bs!"\\Kappa", some bs!""),
  (bs!"\\Lambda", some bs!""),
  (bs!"\\Mu", some bs!""),
  (bs!"\\Nu", some bs!""),
  (bs!"\\Xi", some bs!""),
  (bs!"\\Omicron", some bs!""),
  (bs!"\\Pi", some bs!""),
  (bs!"\\Rho", some bs!""),
  (bs!"\\Sigma", some bs!""),
  (bs!"\\Tau", some bs!""),
  (bs!"\\Upsilon", some bs!""),
  (bs!"\\Phi", some bs!""),
  (bs!"\\Chi", some bs!""),
  (bs!"\\Psi", some bs!""),
  (bs!"\\Omega", some bs!""),
  (bs!"\\hbar", some bs!""),
  (bs!"\\nabla", some bs!""),
  (bs!"\\mathbf", some bs!"A"),
  (bs!"\\mathit", some bs!"A"),
  (bs!"\\mathsf", some bs!"A"),
  (bs!"\\mathtt", some bs!"A"),
  (bs!"\\mathcal", some bs!"A"),
  (bs!"\\mathdefault", some bs!"A"),
  (bs!"\\mathbb", some bs!"A"),
  (bs!"\\mathfrak", some bs!"A"),
  (bs!"\\mathscr", some bs!"A"),
  (bs!"\\mathregular", some bs!"A"),
  (bs!"\\textbf", some bs!"A"),
  (bs!"\\textit", some bs!"A"),
  (bs!"\\textsf", some bs!"A"),
  (bs!"\\texttt", some bs!"A"),
  (bs!"\\textcal", some bs!"A"),
  (bs!"\\textdefault", some bs!"A"),
  (bs!"\\textbb", some bs!"A"),
  (bs!"\\textfrak", some bs!"A"),
  (bs!"\\textscr", some bs!"A"),
  (bs!"\\textregular", some bs!"A"),
  (bs!"\\ ", some bs!""),
  (bs!"\\,", some bs!""),
  (bs!"\\;", some bs!""),
  (bs!"\\!", some bs!""),
  (bs!"\\quad", some bs!""),
  (bs!"\\qquad", some bs!""),
  (bs!"\\:", some bs!""),
  (bs!"\\cdots", some bs!""),
  (bs!"\\ddots", some bs!""),
  (bs!"\\ldots", some bs!""),
  (bs!"\\vdots", some bs!""),
  (bs!"\\hspace", some bs!"A"),
  (bs!"\\overline", some bs!"A"),
  (bs!"\\operatorname", some bs!"A")]

/-- internal/tex2unicode/utf8.go:61-633, `tex2uni`. -/
def tex2uni : List (GoString × Nat) := [
  (bs!"widehat", 770),
  (bs!"widetilde", 771),
  (bs!"widebar", 773),
  (bs!"langle", 10216),
  (bs!"rangle", 10217),
  (bs!"perp", 10178),
  (bs!"neq", 8800),
  (bs!"Join", 10781),
  (bs!"leqslant", 10877),
  (bs!"geqslant", 10878),
  (bs!"lessapprox", 10885),
  (bs!"gtrapprox", 10886),
  (bs!"lesseqqgtr", 10891),
  (bs!"gtreqqless", 10892),
  (bs!"triangleeq", 8796),
  (bs!"eqslantless", 10901),
  (bs!"eqslantgtr", 10902),
  (bs!"backepsilon", 1014),
  (bs!"precapprox", 10935),
  (bs!"succapprox", 10936),
  (bs!"fallingdotseq", 8786),
  (bs!"subseteqq", 10949),
  (bs!"supseteqq", 10950),
  (bs!"varpropto", 8733),
  (bs!"precnapprox", 10937),
  (bs!"succnapprox", 10938),
  (bs!"subsetneqq", 10955),
  (bs!"supsetneqq", 10956),
  (bs!"lnapprox", 10937),
  (bs!"gnapprox", 10938),
  (bs!"longleftarrow", 10229),
  (bs!"longrightarrow", 10230),
  (bs!"longleftrightarrow", 10231),
  (bs!"Longleftarrow", 10232),
  (bs!"Longrightarrow", 10233),
  (bs!"Longleftrightarrow", 10234),
  (bs!"longmapsto", 10236),
  (bs!"leadsto", 8669),
  (bs!"dashleftarrow", 10510),
  (bs!"dashrightarrow", 10511),
  (bs!"circlearrowleft", 8634),
  (bs!"circlearrowright", 8635),
  (bs!"leftrightsquigarrow", 8621),
  (bs!"leftsquigarrow", 8604),
  (bs!"rightsquigarrow", 8605),
  (bs!"Game", 8513),
  (bs!"hbar", 295),
  (bs!"hslash", 8463),
  (bs!"ldots", 8230),
  (bs!"vdots", 8942),
  (bs!"doteqdot", 8785),
  (bs!"doteq", 8784),
  (bs!"partial", 8706),
  (bs!"gg", 8811),
  (bs!"asymp", 8781),
  (bs!"blacktriangledown", 9662),
  (bs!"otimes", 8855),
  (bs!"nearrow", 8599),
  (bs!"varpi", 982),
  (bs!"vee", 8744),
  (bs!"vec", 8407),
  (bs!"smile", 8995),
  (bs!"succnsim", 8937),
  (bs!"gimel", 8503),
  (bs!"vert", 124),
  (bs!"|", 124),
  (bs!"varrho", 1009),
  (bs!"P", 182),
  (bs!"approxident", 8779),
  (bs!"Swarrow", 8665),
  (bs!"textasciicircum", 94),
  (bs!"imageof", 8887),
  (bs!"ntriangleleft", 8938),
  (bs!"nleq", 8816),
  (bs!"div", 247),
  (bs!"nparallel", 8742),
  (bs!"Leftarrow", 8656),
  (bs!"lll", 8920),
  (bs!"oiint", 8751),
  (bs!"ngeq", 8817),
  (bs!"Theta", 920),
  (bs!"origof", 8886),
  (bs!"blacksquare", 9632),
  (bs!"solbar", 9023),
  (bs!"neg", 172),
  (bs!"sum", 8721),
  (bs!"Vdash", 8873),
  (bs!"coloneq", 8788),
  (bs!"degree", 176),
  (bs!"bowtie", 8904),
  (bs!"blacktriangleright", 9654),
  (bs!"varsigma", 962),
  (bs!"leq", 8804),
  (bs!"ggg", 8921),
  (bs!"lneqq", 8808),
  (bs!"scurel", 8881),
  (bs!"stareq", 8795),
  (bs!"BbbN", 8469),
  (bs!"nLeftarrow", 8653),
  (bs!"nLeftrightarrow", 8654),
  (bs!"k", 808),
  (bs!"bot", 8869),
  (bs!"BbbC", 8450),
  (bs!"Lsh", 8624),
  (bs!"leftleftarrows", 8647),
  (bs!"BbbZ", 8484),
  (bs!"digamma", 989),
  (bs!"BbbR", 8477),
  (bs!"BbbP", 8473),
  (bs!"BbbQ", 8474),
  (bs!"vartriangleright", 8883),
  (bs!"succsim", 8831),
  (bs!"wedge", 8743),
  (bs!"lessgtr", 8822),
  (bs!"veebar", 8891),
  (bs!"mapsdown", 8615),
  (bs!"Rsh", 8625),
  (bs!"chi", 967),
  (bs!"prec", 8826),
  (bs!"nsubseteq", 8840),
  (bs!"therefore", 8756),
  (bs!"eqcirc", 8790),
  (bs!"textexclamdown", 161),
  (bs!"nRightarrow", 8655),
  (bs!"flat", 9837),
  (bs!"notin", 8713),
  (bs!"llcorner", 8990),
  (bs!"varepsilon", 949),
  (bs!"bigtriangleup", 9651),
  (bs!"aleph", 8501),
  (bs!"dotminus", 8760),
  (bs!"upsilon", 965),
  (bs!"Lambda", 923),
  (bs!"cap", 8745),
  (bs!"barleftarrow", 8676),
  (bs!"mu", 956),
  (bs!"boxplus", 8862),
  (bs!"mp", 8723),
  (bs!"circledast", 8859),
  (bs!"tau", 964),
  (bs!"in", 8712),
  (bs!"backslash", 92),
  (bs!"varnothing", 8709),
  (bs!"sharp", 9839),
  (bs!"eqsim", 8770),
  (bs!"gnsim", 8935),
  (bs!"Searrow", 8664),
  (bs!"updownarrows", 8645),
  (bs!"heartsuit", 9825),
  (bs!"trianglelefteq", 8884),
  (bs!"ddag", 8225),
  (bs!"sqsubseteq", 8849),
  (bs!"mapsfrom", 8612),
  (bs!"boxbar", 9707),
  (bs!"sim", 8764),
  (bs!"Nwarrow", 8662),
  (bs!"nequiv", 8802),
  (bs!"succ", 8827),
  (bs!"vdash", 8866),
  (bs!"Leftrightarrow", 8660),
  (bs!"parallel", 8741),
  (bs!"invnot", 8976),
  (bs!"natural", 9838),
  (bs!"ss", 223),
  (bs!"uparrow", 8593),
  (bs!"nsim", 8769),
  (bs!"hookrightarrow", 8618),
  (bs!"Equiv", 8803),
  (bs!"approx", 8776),
  (bs!"Vvdash", 8874),
  (bs!"nsucc", 8833),
  (bs!"leftrightharpoons", 8651),
  (bs!"Re", 8476),
  (bs!"boxminus", 8863),
  (bs!"equiv", 8801),
  (bs!"Lleftarrow", 8666),
  (bs!"ll", 8810),
  (bs!"Cup", 8915),
  (bs!"measeq", 8798),
  (bs!"upharpoonleft", 8639),
  (bs!"lq", 8216),
  (bs!"Upsilon", 933),
  (bs!"subsetneq", 8842),
  (bs!"greater", 62),
  (bs!"supsetneq", 8843),
  (bs!"Cap", 8914),
  (bs!"L", 321),
  (bs!"spadesuit", 9824),
  (bs!"lrcorner", 8991),
  (bs!"not", 824),
  (bs!"bar", 772),
  (bs!"rightharpoonaccent", 8401),
  (bs!"boxdot", 8865),
  (bs!"l", 322),
  (bs!"leftharpoondown", 8637),
  (bs!"bigcup", 8899),
  (bs!"iint", 8748),
  (bs!"bigwedge", 8896),
  (bs!"downharpoonleft", 8643),
  (bs!"textasciitilde", 126),
  (bs!"subset", 8834),
  (bs!"leqq", 8806),
  (bs!"mapsup", 8613),
  (bs!"nvDash", 8877),
  (bs!"looparrowleft", 8619),
  (bs!"nless", 8814),
  (bs!"rightarrowbar", 8677),
  (bs!"Vert", 8214),
  (bs!"downdownarrows", 8650),
  (bs!"uplus", 8846),
  (bs!"simeq", 8771),
  (bs!"napprox", 8777),
  (bs!"ast", 8727),
  (bs!"twoheaduparrow", 8607),
  (bs!"doublebarwedge", 8966),
  (bs!"Sigma", 931),
  (bs!"leftharpoonaccent", 8400),
  (bs!"ntrianglelefteq", 8940),
  (bs!"nexists", 8708),
  (bs!"times", 215),
  (bs!"measuredangle", 8737),
  (bs!"bumpeq", 8783),
  (bs!"carriagereturn", 8629),
  (bs!"adots", 8944),
  (bs!"checkmark", 10003),
  (bs!"lambda", 955),
  (bs!"xi", 958),
  (bs!"rbrace", 125),
  (bs!"rbrack", 93),
  (bs!"Nearrow", 8663),
  (bs!"maltese", 10016),
  (bs!"clubsuit", 9827),
  (bs!"top", 8868),
  (bs!"overarc", 785),
  (bs!"varphi", 966),
  (bs!"Delta", 916),
  (bs!"iota", 953),
  (bs!"nleftarrow", 8602),
  (bs!"candra", 784),
  (bs!"supset", 8835),
  (bs!"triangleleft", 9665),
  (bs!"gtreqless", 8923),
  (bs!"ntrianglerighteq", 8941),
  (bs!"quad", 8195),
  (bs!"Xi", 926),
  (bs!"gtrdot", 8919),
  (bs!"leftthreetimes", 8907),
  (bs!"minus", 8722),
  (bs!"preccurlyeq", 8828),
  (bs!"nleftrightarrow", 8622),
  (bs!"lambdabar", 411),
  (bs!"blacktriangle", 9652),
  (bs!"kernelcontraction", 8763),
  (bs!"Phi", 934),
  (bs!"angle", 8736),
  (bs!"spadesuitopen", 9828),
  (bs!"eqless", 8924),
  (bs!"mid", 8739),
  (bs!"varkappa", 1008),
  (bs!"Ldsh", 8626),
  (bs!"updownarrow", 8597),
  (bs!"beta", 946),
  (bs!"textquotedblleft", 8220),
  (bs!"rho", 961),
  (bs!"alpha", 945),
  (bs!"intercal", 8890),
  (bs!"beth", 8502),
  (bs!"grave", 768),
  (bs!"acwopencirclearrow", 8634),
  (bs!"nmid", 8740),
  (bs!"nsupset", 8837),
  (bs!"sigma", 963),
  (bs!"dot", 775),
  (bs!"Rightarrow", 8658),
  (bs!"turnednot", 8985),
  (bs!"backsimeq", 8909),
  (bs!"leftarrowtail", 8610),
  (bs!"approxeq", 8778),
  (bs!"curlyeqsucc", 8927),
  (bs!"rightarrowtail", 8611),
  (bs!"Psi", 936),
  (bs!"copyright", 169),
  (bs!"yen", 165),
  (bs!"vartriangleleft", 8882),
  (bs!"rasp", 700),
  (bs!"triangleright", 9655),
  (bs!"precsim", 8830),
  (bs!"infty", 8734),
  (bs!"geq", 8805),
  (bs!"updownarrowbar", 8616),
  (bs!"precnsim", 8936),
  (bs!"H", 779),
  (bs!"ulcorner", 8988),
  (bs!"looparrowright", 8620),
  (bs!"ncong", 8775),
  (bs!"downarrow", 8595),
  (bs!"circeq", 8791),
  (bs!"subseteq", 8838),
  (bs!"bigstar", 9733),
  (bs!"prime", 8242),
  (bs!"lceil", 8968),
  (bs!"Rrightarrow", 8667),
  (bs!"oiiint", 8752),
  (bs!"curlywedge", 8911),
  (bs!"vDash", 8872),
  (bs!"lfloor", 8970),
  (bs!"ddots", 8945),
  (bs!"exists", 8707),
  (bs!"underbar", 817),
  (bs!"Pi", 928),
  (bs!"leftrightarrows", 8646),
  (bs!"sphericalangle", 8738),
  (bs!"coprod", 8720),
  (bs!"circledcirc", 8858),
  (bs!"gtrsim", 8819),
  (bs!"gneqq", 8809),
  (bs!"between", 8812),
  (bs!"theta", 952),
  (bs!"complement", 8705),
  (bs!"arceq", 8792),
  (bs!"nVdash", 8878),
  (bs!"S", 167),
  (bs!"wr", 8768),
  (bs!"wp", 8472),
  (bs!"backcong", 8780),
  (bs!"lasp", 701),
  (bs!"c", 807),
  (bs!"nabla", 8711),
  (bs!"dotplus", 8724),
  (bs!"eta", 951),
  (bs!"forall", 8704),
  (bs!"eth", 240),
  (bs!"colon", 58),
  (bs!"sqcup", 8852),
  (bs!"rightrightarrows", 8649),
  (bs!"sqsupset", 8848),
  (bs!"mapsto", 8614),
  (bs!"bigtriangledown", 9661),
  (bs!"sqsupseteq", 8850),
  (bs!"propto", 8733),
  (bs!"pi", 960),
  (bs!"pm", 177),
  (bs!"dots", 8230),
  (bs!"nrightarrow", 8603),
  (bs!"textasciiacute", 180),
  (bs!"Doteq", 8785),
  (bs!"breve", 774),
  (bs!"sqcap", 8851),
  (bs!"twoheadrightarrow", 8608),
  (bs!"kappa", 954),
  (bs!"vartriangle", 9653),
  (bs!"diamondsuit", 9826),
  (bs!"pitchfork", 8916),
  (bs!"blacktriangleleft", 9664),
  (bs!"nprec", 8832),
  (bs!"curvearrowright", 8631),
  (bs!"barwedge", 8892),
  (bs!"multimap", 8888),
  (bs!"textquestiondown", 191),
  (bs!"cong", 8773),
  (bs!"rtimes", 8906),
  (bs!"rightzigzagarrow", 8669),
  (bs!"rightarrow", 8594),
  (bs!"leftarrow", 8592),
  (bs!"__sqrt__", 8730),
  (bs!"twoheaddownarrow", 8609),
  (bs!"oint", 8750),
  (bs!"bigvee", 8897),
  (bs!"eqdef", 8797),
  (bs!"sterling", 163),
  (bs!"phi", 981),
  (bs!"Updownarrow", 8661),
  (bs!"backprime", 8245),
  (bs!"emdash", 8212),
  (bs!"Gamma", 915),
  (bs!"i", 305),
  (bs!"rceil", 8969),
  (bs!"leftharpoonup", 8636),
  (bs!"Im", 8465),
  (bs!"curvearrowleft", 8630),
  (bs!"wedgeq", 8793),
  (bs!"curlyeqprec", 8926),
  (bs!"questeq", 8799),
  (bs!"less", 60),
  (bs!"upuparrows", 8648),
  (bs!"tilde", 771),
  (bs!"textasciigrave", 96),
  (bs!"smallsetminus", 8726),
  (bs!"ell", 8467),
  (bs!"cup", 8746),
  (bs!"danger", 9761),
  (bs!"nVDash", 8879),
  (bs!"cdotp", 183),
  (bs!"cdots", 8943),
  (bs!"hat", 770),
  (bs!"eqgtr", 8925),
  (bs!"psi", 968),
  (bs!"frown", 8994),
  (bs!"acute", 769),
  (bs!"downzigzagarrow", 8623),
  (bs!"ntriangleright", 8939),
  (bs!"cupdot", 8845),
  (bs!"circleddash", 8861),
  (bs!"oslash", 8856),
  (bs!"mho", 8487),
  (bs!"d", 803),
  (bs!"sqsubset", 8847),
  (bs!"cdot", 8901),
  (bs!"Omega", 937),
  (bs!"OE", 338),
  (bs!"veeeq", 8794),
  (bs!"Finv", 8498),
  (bs!"t", 865),
  (bs!"leftrightarrow", 8596),
  (bs!"swarrow", 8601),
  (bs!"rightthreetimes", 8908),
  (bs!"rightleftharpoons", 8652),
  (bs!"lesssim", 8818),
  (bs!"searrow", 8600),
  (bs!"because", 8757),
  (bs!"gtrless", 8823),
  (bs!"star", 8902),
  (bs!"nsubset", 8836),
  (bs!"zeta", 950),
  (bs!"dddot", 8411),
  (bs!"bigcirc", 9675),
  (bs!"Supset", 8913),
  (bs!"circ", 8728),
  (bs!"slash", 8725),
  (bs!"ocirc", 778),
  (bs!"prod", 8719),
  (bs!"twoheadleftarrow", 8606),
  (bs!"daleth", 8504),
  (bs!"upharpoonright", 8638),
  (bs!"odot", 8857),
  (bs!"Uparrow", 8657),
  (bs!"O", 216),
  (bs!"hookleftarrow", 8617),
  (bs!"trianglerighteq", 8885),
  (bs!"nsime", 8772),
  (bs!"oe", 339),
  (bs!"nwarrow", 8598),
  (bs!"o", 248),
  (bs!"ddddot", 8412),
  (bs!"downharpoonright", 8642),
  (bs!"succcurlyeq", 8829),
  (bs!"gamma", 947),
  (bs!"scrR", 8475),
  (bs!"dag", 8224),
  (bs!"thickspace", 8197),
  (bs!"frakZ", 8488),
  (bs!"lessdot", 8918),
  (bs!"triangledown", 9663),
  (bs!"ltimes", 8905),
  (bs!"scrB", 8492),
  (bs!"endash", 8211),
  (bs!"scrE", 8496),
  (bs!"scrF", 8497),
  (bs!"scrH", 8459),
  (bs!"scrI", 8464),
  (bs!"rightharpoondown", 8641),
  (bs!"scrL", 8466),
  (bs!"scrM", 8499),
  (bs!"frakC", 8493),
  (bs!"nsupseteq", 8841),
  (bs!"circledR", 174),
  (bs!"circledS", 9416),
  (bs!"ngtr", 8815),
  (bs!"bigcap", 8898),
  (bs!"scre", 8495),
  (bs!"Downarrow", 8659),
  (bs!"scrg", 8458),
  (bs!"overleftrightarrow", 8417),
  (bs!"scro", 8500),
  (bs!"lnsim", 8934),
  (bs!"eqcolon", 8789),
  (bs!"curlyvee", 8910),
  (bs!"urcorner", 8989),
  (bs!"lbrace", 123),
  (bs!"Bumpeq", 8782),
  (bs!"delta", 948),
  (bs!"boxtimes", 8864),
  (bs!"overleftarrow", 8406),
  (bs!"prurel", 8880),
  (bs!"clubsuitopen", 9831),
  (bs!"cwopencirclearrow", 8635),
  (bs!"geqq", 8807),
  (bs!"rightleftarrows", 8644),
  (bs!"ac", 8766),
  (bs!"ae", 230),
  (bs!"int", 8747),
  (bs!"rfloor", 8971),
  (bs!"risingdotseq", 8787),
  (bs!"nvdash", 8876),
  (bs!"diamond", 8900),
  (bs!"ddot", 776),
  (bs!"backsim", 8765),
  (bs!"oplus", 8853),
  (bs!"triangleq", 8796),
  (bs!"check", 780),
  (bs!"ni", 8715),
  (bs!"iiint", 8749),
  (bs!"ne", 8800),
  (bs!"lesseqgtr", 8922),
  (bs!"obar", 9021),
  (bs!"supseteq", 8839),
  (bs!"nu", 957),
  (bs!"AA", 197),
  (bs!"AE", 198),
  (bs!"models", 8871),
  (bs!"ominus", 8854),
  (bs!"dashv", 8867),
  (bs!"omega", 969),
  (bs!"rq", 8217),
  (bs!"Subset", 8912),
  (bs!"rightharpoonup", 8640),
  (bs!"Rdsh", 8627),
  (bs!"bullet", 8729),
  (bs!"divideontimes", 8903),
  (bs!"lbrack", 91),
  (bs!"textquotedblright", 8221),
  (bs!"Colon", 8759),
  (bs!"%", 37),
  (bs!"$", 36),
  (bs!"{", 123),
  (bs!"}", 125),
  (bs!"_", 95),
  (bs!"#", 35),
  (bs!"imath", 305),
  (bs!"circumflexaccent", 770),
  (bs!"combiningbreve", 774),
  (bs!"combiningoverline", 772),
  (bs!"combininggraveaccent", 768),
  (bs!"combiningacuteaccent", 769),
  (bs!"combiningdiaeresis", 776),
  (bs!"combiningtilde", 771),
  (bs!"combiningrightarrowabove", 8407),
  (bs!"combiningdotabove", 775),
  (bs!"to", 8594),
  (bs!"succeq", 8829),
  (bs!"emptyset", 8709),
  (bs!"(", 40),
  (bs!")", 41),
  (bs!"leftparen", 40),
  (bs!"rightparen", 41),
  (bs!"bigoplus", 10753),
  (bs!"leftangle", 10216),
  (bs!"rightangle", 10217),
  (bs!"leftbrace", 124),
  (bs!"rightbrace", 125),
  (bs!"jmath", 567),
  (bs!"bigodot", 10752),
  (bs!"preceq", 8828),
  (bs!"biguplus", 10756),
  (bs!"epsilon", 949),
  (bs!"vartheta", 977),
  (bs!"bigotimes", 10754),
  (bs!"guillemotleft", 171),
  (bs!"ring", 730),
  (bs!"Thorn", 222),
  (bs!"guilsinglright", 8250),
  (bs!"perthousand", 8240),
  (bs!"macron", 175),
  (bs!"cent", 162),
  (bs!"guillemotright", 187),
  (bs!"equal", 61),
  (bs!"asterisk", 42),
  (bs!"guilsinglleft", 8249),
  (bs!"plus", 43),
  (bs!"thorn", 254),
  (bs!"dagger", 8224)]

/-- mtex/symbols/symbols_gen.go:6, arguments of `NewSet` for `AmbiDelim`. -/
def symAmbiDelim : List GoString := [
  bs!"\\downarrow",
  bs!"\\Uparrow",
  bs!"\\|",
  bs!"\\updownarrow",
  bs!"\\vert",
  bs!"\\Vert",
  bs!"\\backslash",
  bs!".",
  bs!"\\Updownarrow",
  bs!"/",
  bs!"\\Downarrow",
  bs!"|",
  bs!"\\\\|",
  bs!"\\uparrow"]

/-- mtex/symbols/symbols_gen.go:23, arguments of `NewSet` for `ArrowSymbols`. -/
def symArrowSymbols : List GoString := [
  bs!"\\Uparrow",
  bs!"\\searrow",
  bs!"\\hookleftarrow",
  bs!"\\longleftrightarrow",
  bs!"\\longrightarrow",
  bs!"\\rightarrow",
  bs!"\\leadsto",
  bs!"\\nearrow",
  bs!"\\Updownarrow",
  bs!"\\rightharpoonup",
  bs!"\\Longrightarrow",
  bs!"\\leftrightarrow",
  bs!"\\downarrow",
  bs!"\\nwarrow",
  bs!"\\leftarrow",
  bs!"\\leftharpoondown",
  bs!"\\swarrow",
  bs!"\\Longleftarrow",
  bs!"\\Leftarrow",
  bs!"\\Longleftrightarrow",
  bs!"\\uparrow",
  bs!"\\hookrightarrow",
  bs!"\\rightleftharpoons",
  bs!"\\mapsto",
  bs!"\\Leftrightarrow",
  bs!"\\leftharpoonup",
  bs!"\\rightharpoondown",
  bs!"\\updownarrow",
  bs!"\\Rightarrow",
  bs!"\\longleftarrow",
  bs!"\\Downarrow",
  bs!"\\longmapsto"]

/-- mtex/symbols/symbols_gen.go:58, arguments of `NewSet` for `BinaryOperators`. -/
def symBinaryOperators : List GoString := [
  bs!"\\triangleleft",
  bs!"\\cup",
  bs!"+",
  bs!"\\oplus",
  bs!"*",
  bs!"\\bullet",
  bs!"\\star",
  bs!"\\diamond",
  bs!"\\div",
  bs!"\\bigtriangledown",
  bs!"\\unrhd",
  bs!"\\wr",
  bs!"\\bigtriangleup",
  bs!"\\sqcup",
  bs!"\\vee",
  bs!"\\sqcap",
  bs!"\\dagger",
  bs!"\\cdot",
  bs!"\\unlhd",
  bs!"\\triangleright",
  bs!"\\ddagger",
  bs!"\\amalg",
  bs!"\\circ",
  bs!"\\odot",
  bs!"\\cap",
  bs!"\\bigcirc",
  bs!"\\lhd",
  bs!"\\times",
  bs!"-",
  bs!"\\wedge",
  bs!"\\mp",
  bs!"\\otimes",
  bs!"\\ominus",
  bs!"\\ast",
  bs!"\\pm",
  bs!"\\oslash",
  bs!"\\rhd",
  bs!"\\setminus",
  bs!"\\uplus"]

/-- mtex/symbols/symbols_gen.go:100, arguments of `NewSet` for `DropSubSymbols`. -/
def symDropSubSymbols : List GoString := [
  bs!"\\oint",
  bs!"\\int"]

/-- mtex/symbols/symbols_gen.go:105, arguments of `NewSet` for `FontNames`. -/
def symFontNames : List GoString := [
  bs!"circled",
  bs!"default",
  bs!"cal",
  bs!"bf",
  bs!"regular",
  bs!"tt",
  bs!"scr",
  bs!"sf",
  bs!"frak",
  bs!"rm",
  bs!"it",
  bs!"bb"]

/-- mtex/symbols/symbols_gen.go:120, arguments of `NewSet` for `FunctionNames`. -/
def symFunctionNames : List GoString := [
  bs!"lim",
  bs!"arccos",
  bs!"min",
  bs!"arcsin",
  bs!"gcd",
  bs!"arctan",
  bs!"sup",
  bs!"sec",
  bs!"max",
  bs!"cos",
  bs!"deg",
  bs!"arg",
  bs!"sin",
  bs!"log",
  bs!"sinh",
  bs!"ker",
  bs!"liminf",
  bs!"coth",
  bs!"exp",
  bs!"det",
  bs!"ln",
  bs!"lg",
  bs!"Pr",
  bs!"tan",
  bs!"tanh",
  bs!"csc",
  bs!"hom",
  bs!"cosh",
  bs!"cot",
  bs!"dim",
  bs!"limsup",
  bs!"inf"]

/-- mtex/symbols/symbols_gen.go:155, arguments of `NewSet` for `LeftDelim`. -/
def symLeftDelim : List GoString := [
  bs!"\\lfloor",
  bs!"<",
  bs!"\\{",
  bs!"\\langle",
  bs!"[",
  bs!"(",
  bs!"\\lceil"]

/-- mtex/symbols/symbols_gen.go:165, arguments of `NewSet` for `OverUnderFunctions`. -/
def symOverUnderFunctions : List GoString := [
  bs!"sup",
  bs!"max",
  bs!"lim",
  bs!"limsup",
  bs!"min",
  bs!"liminf"]

/-- mtex/symbols/symbols_gen.go:174, arguments of `NewSet` for `OverUnderSymbols`. -/
def symOverUnderSymbols : List GoString := [
  bs!"\\biguplus",
  bs!"\\bigoplus",
  bs!"\\prod",
  bs!"\\bigcap",
  bs!"\\bigsqcup",
  bs!"\\bigodot",
  bs!"\\bigvee",
  bs!"\\bigwedge",
  bs!"\\sum",
  bs!"\\bigcup",
  bs!"\\coprod",
  bs!"\\bigotimes"]

/-- mtex/symbols/symbols_gen.go:189, arguments of `NewSet` for `PunctuationSymbols`. -/
def symPunctuationSymbols : List GoString := [
  bs!"!",
  bs!";",
  bs!"\\cdotp",
  bs!",",
  bs!".",
  bs!"\\ldotp"]

/-- mtex/symbols/symbols_gen.go:198, arguments of `NewSet` for `RelationSymbols`. -/
def symRelationSymbols : List GoString := [
  bs!"\\ni",
  bs!"\\leq",
  bs!"\\ll",
  bs!"\\supseteq",
  bs!"\\succ",
  bs!"=",
  bs!"\\neq",
  bs!"\\parallel",
  bs!"\\geq",
  bs!"\\prec",
  bs!"\\frown",
  bs!"\\in",
  bs!"\\Join",
  bs!"\\sqsubset",
  bs!"\\dashv",
  bs!"\\vdash",
  bs!"\\dots",
  bs!"\\asymp",
  bs!"\\subset",
  bs!"\\subseteq",
  bs!"\\sqsupseteq",
  bs!"<",
  bs!"\\models",
  bs!"\\bowtie",
  bs!"\\equiv",
  bs!":",
  bs!"\\sqsupset",
  bs!"\\smile",
  bs!"\\propto",
  bs!"\\dotplus",
  bs!"\\preceq",
  bs!"\\cong",
  bs!"\\simeq",
  bs!">",
  bs!"\\mid",
  bs!"\\approx",
  bs!"\\supset",
  bs!"\\gg",
  bs!"\\doteq",
  bs!"\\sqsubseteq",
  bs!"\\doteqdot",
  bs!"\\succeq",
  bs!"\\perp",
  bs!"\\sim"]

/-- mtex/symbols/symbols_gen.go:245, arguments of `NewSet` for `RightDelim`. -/
def symRightDelim : List GoString := [
  bs!"\\rceil",
  bs!"]",
  bs!"\\rangle",
  bs!">",
  bs!"\\}",
  bs!"\\rfloor",
  bs!")"]

end Verif
