import Verif.Spec.Parse
import Verif.Model.Tables
/-!
# The language of ParseExpr: lexemes and grammar (C83)

Two layers.  `Lexes` cuts the characters of the source into lexemes; `Items` says which sequences of lexemes are sentences,
and which tree a sentence has.  Nothing here refers to how the scanner or the parser work; the tables of macro names
are data (`Model/Tables`).
-/

namespace Verif.Spec
open Verif

/-! ## Lexemes -/

/-- The characters `a`, which satisfy `p`, and no more: what comes next does not. -/
def Run (p : Nat → Bool) (a rest : List Ch) : Prop := (∀ c ∈ a, p c.r = true) ∧ ∀ c, rest.head? = some c → p c.r = false

/-- A decimal digit or an underscore. -/
def decimal (r : Nat) : Bool := (bs!"0123456789_").contains r
/-- A hexadecimal digit or an underscore. -/
def hexadecimal (r : Nat) : Bool := (bs!"0123456789abcdefABCDEF_").contains r

/-- How a number begins, and the digits it then consists of: `0x`, `0o`, `0b`, or a digit. -/
inductive Begins : List Ch → (Nat → Bool) → List Ch → Prop where
  | hex {z x rest} : z.r = ch!"0" → x.r ∈ bs!"xX" → Begins [z, x] hexadecimal rest
  | other {z x rest} : z.r = ch!"0" → x.r ∈ bs!"oObB" → Begins [z, x] decimal rest
  | digit {d rest} : d.r ∈ bs!"0123456789" → (d.r = ch!"0" → ∀ c, rest.head? = some c → c.r ∉ bs!"xXoObB") → Begins [d] decimal rest

/-- A fraction: a dot and digits, if there is a dot. -/
inductive Fraction (p : Nat → Bool) : List Ch → List Ch → Prop where
  | none {rest} : (∀ c, rest.head? = some c → c.r ≠ ch!".") → Fraction p [] rest
  | some {dot a rest} : dot.r = ch!"." → Run p a rest → Fraction p (dot :: a) rest

/-- An exponent: `e` or `p`, at most one sign, and digits, if there is an `e` or `p`. -/
inductive Exponent : List Ch → List Ch → Prop where
  | none {rest} : (∀ c, rest.head? = some c → c.r ∉ bs!"eEpP") → Exponent [] rest
  | some {e a rest} : e.r ∈ bs!"eEpP" → (∀ c, (a ++ rest).head? = some c → c.r ∉ bs!"+-") → Run decimal a rest → Exponent (e :: a) rest
  | signed {e s a rest} : e.r ∈ bs!"eEpP" → s.r ∈ bs!"+-" → Run decimal a rest → Exponent (e :: s :: a) rest

/-- A number, and what follows it. -/
inductive Number : List Ch → List Ch → Prop where
  | mk {start p a f e rest} : Begins start p (a ++ f ++ e ++ rest) → Run p a (f ++ e ++ rest) → Fraction p f (e ++ rest) → Exponent e rest →
      Number (start ++ a ++ f ++ e) rest
  | dot {dot d a e rest} : dot.r = ch!"." → d.r ∈ bs!"0123456789" → Run decimal a (e ++ rest) → Exponent e rest →
      Number (dot :: d :: a ++ e) rest

/-- The rest of a quoted string: up to a double quote or the end of the line, or of the input; a backslash protects a
double quote and a backslash. -/
inductive Quoted : List Ch → List Ch → Prop where
  | eof : Quoted [] []
  | close {c rest} : c.r ∈ bs!"\"\n" → Quoted [c] rest
  | guarded {b c a rest} : b.r = ch!"\\" → c.r ∈ bs!"\"\\" → Quoted a rest → Quoted (b :: c :: a) rest
  | plain {c a rest} : c.r ∉ bs!"\"\n" → (c.r = ch!"\\" → ∀ d, (a ++ rest).head? = some d → d.r ∉ bs!"\"\\") → Quoted a rest → Quoted (c :: a) rest

/-- The rest of a comment: up to the end of the line, or of the input; but the end of the line may be part of a
quoted string. -/
inductive Comment : List Ch → List Ch → Prop where
  | eof : Comment [] []
  | close {c rest} : c.r = ch!"\n" → Comment [c] rest
  | plain {c a rest} : c.r ∉ bs!"\"\n" → Comment a rest → Comment (c :: a) rest
  | quoted {q a b rest} : q.r = ch!"\"" → Quoted a (b ++ rest) → Comment b rest → Comment (q :: a ++ b) rest

/-- The kinds of lexemes. -/
inductive Lex where
  | word (text : GoString)
  | number (text : GoString)
  /-- a blank, or a backslash and a blank -/
  | blank (text : GoString)
  | comment
  /-- the name of a macro -/
  | name (text : GoString)
  | quoted
  /-- a single character -/
  | mark (c : Nat)
  /-- a character that begins no lexeme (no rule of the grammar has it) -/
  | wrong (c : Nat)
deriving DecidableEq

/-- The characters that are lexemes. -/
def marks1 : GoString := bs!"$_=<>^/*-+!?':,;.[]{}()"

/-- What can be named after a backslash, apart from a blank: a word, a number, a quoted string, a single character, or nothing. -/
inductive Name (U : Nat → Bool) : List Ch → List Ch → Prop where
  | nothing : Name U [] []
  | word {c a rest} : isLetter U c.r = true → Run (isLetter U) a rest → Name U (c :: a) rest
  | number {a rest} : Number a rest → Name U a rest
  | quoted {q a rest} : q.r = ch!"\"" → Quoted a rest → Name U (q :: a) rest
  | char {c rest} : isLetter U c.r = false → c.r ∉ bs!"0123456789\"\t\n\r" →
      (c.r = ch!"." → ∀ d, rest.head? = some d → d.r ∉ bs!"0123456789") → Name U [c] rest

/-- The characters at the beginning of the input are a lexeme. -/
inductive Lexeme (U : Nat → Bool) : List Ch → Lex → List Ch → Prop where
  | word {c a rest} : isLetter U c.r = true → Run (isLetter U) a rest → Lexeme U (c :: a) (.word (bytesOf (c :: a))) rest
  | number {a rest} : Number a rest → Lexeme U a (.number (bytesOf a)) rest
  | blank {c rest} : c.r = ch!" " → Lexeme U [c] (.blank bs!" ") rest
  | escaped {b c rest} : b.r = ch!"\\" → c.r = ch!" " → Lexeme U [b, c] (.blank bs!"\\ ") rest
  | comment {c a rest} : c.r = ch!"%" → Comment a rest → Lexeme U (c :: a) .comment rest
  /-- line breaks after the backslash are not part of the name -/
  | name {b w a rest} : b.r = ch!"\\" → (∀ c, (w ++ a ++ rest).head? = some c → c.r ≠ ch!" ") → (∀ c ∈ w, isBreak c.r = true) → Name U a rest →
      Lexeme U (b :: w ++ a) (.name (bs!"\\" ++ bytesOf a)) rest
  | quoted {q a rest} : q.r = ch!"\"" → Quoted a rest → Lexeme U (q :: a) .quoted rest
  | mark {c rest} : c.r ∈ marks1 → (c.r = ch!"." → ∀ d, rest.head? = some d → d.r ∉ bs!"0123456789") → Lexeme U [c] (.mark c.r) rest

/-- A lexeme at its place in the source. -/
structure Lexed where
  lex : Lex
  start : Nat
  stop : Nat
deriving DecidableEq

/-- The characters, which begin at byte `o` of the source, are these lexemes, with line breaks between them. -/
inductive Lexes (U : Nat → Bool) : Nat → List Ch → List Lexed → Prop where
  | done {o w} : (∀ c ∈ w, isBreak c.r = true) → Lexes U o w []
  | more {o w a k rest L} : (∀ c ∈ w, isBreak c.r = true) → Lexeme U a k rest → Lexes U (o + (bytesOf w).length + (bytesOf a).length) rest L →
      Lexes U o (w ++ a ++ rest) (⟨k, o + (bytesOf w).length, o + (bytesOf w).length + (bytesOf a).length⟩ :: L)

/-- The character begins no lexeme. -/
def Stuck (U : Nat → Bool) (r : Nat) : Prop := isLetter U r = false ∧ r ∉ bs!"0123456789\" \\%\t\n\r" ∧ r ∉ marks1

/-- The same for characters that need not be lexemes up to the end: the lexemes before the first character that begins none,
and then this character. -/
inductive Reads (U : Nat → Bool) : Nat → List Ch → List Lexed → Prop where
  | done {o w} : (∀ c ∈ w, isBreak c.r = true) → Reads U o w []
  | stuck {o w c rest} : (∀ c ∈ w, isBreak c.r = true) → Stuck U c.r →
      Reads U o (w ++ c :: rest) [⟨.wrong c.r, o + (bytesOf w).length, o + (bytesOf w).length⟩]
  | more {o w a k rest L} : (∀ c ∈ w, isBreak c.r = true) → Lexeme U a k rest → Reads U (o + (bytesOf w).length + (bytesOf a).length) rest L →
      Reads U o (w ++ a ++ rest) (⟨k, o + (bytesOf w).length, o + (bytesOf w).length + (bytesOf a).length⟩ :: L)

/-! ## Grammar -/

/-- How many arguments in braces a macro has. -/
def arity (name : GoString) : Nat := if name ∈ twoArg then 2 else if name = bs!"\\sqrt" ∨ name ∈ oneArg then 1 else 0

/-- The macros there are: those listed in macros.go, except `\genfrac`, and the names of Unicode characters. -/
def Known (name : GoString) : Prop :=
  name ≠ bs!"\\genfrac" ∧ (name ∈ latexMacros.map Prod.fst ∨ ∃ k, name = bs!"\\" ++ k ∧ k ∈ tex2uni.map Prod.fst)

/-- What ends a list of items, apart from the end of the input. -/
inductive Until where
  | eof | dollar | brace | bracket
deriving DecidableEq

/-- The lexeme that ends the list. -/
def Until.mark : Until → Option Lex
  | .eof => none
  | .dollar => some (.mark ch!"$")
  | .brace => some (.mark ch!"}")
  | .bracket => some (.mark ch!"]")

/-- A node, unless it is nil. -/
def keep : Node → List Node → List Node
  | .nil, l => l
  | n, l => n :: l

mutual
/-- `Item math L n L'`: in math or not, the lexemes `L` begin with an item whose tree is `n` (nil if it leaves no trace);
`L'` come after it. -/
inductive Item1 : Bool → List Lexed → Node → List Lexed → Prop where
  | word {m t o e L} : Item1 m (⟨.word t, o, e⟩ :: L) (.word o t) L
  | number {m t o e L} : Item1 m (⟨.number t, o, e⟩ :: L) (.lit o t) L
  | comment {m o e L} : Item1 m (⟨.comment, o, e⟩ :: L) .nil L
  | blank {t o e L} : Item1 false (⟨.blank t, o, e⟩ :: L) (.sym o t) L
  | mathBlank {t o e L} : Item1 true (⟨.blank t, o, e⟩ :: L) .nil L
  | symbol {m c o e L} : c ∈ bs!"=<>/*-+!?':,;.[]()" → Item1 m (⟨.mark c, o, e⟩ :: L) (.sym o [c]) L
  | math {m o e L l p L'} : Items true .dollar L l p L' → Item1 m (⟨.mark ch!"$", o, e⟩ :: L) (.math bs!"$" o l p) L'
  | group {o e L l p L'} : Items true .brace L l p L' → Item1 true (⟨.mark ch!"{", o, e⟩ :: L) (.list l) L'
  /-- the brace directly after the caret -/
  | supGroup {m o e e' L l p L'} : Items m .brace L l p L' → Item1 m (⟨.mark ch!"^", o, e⟩ :: ⟨.mark ch!"{", e, e'⟩ :: L) (.sup o (.list l)) L'
  | sup {m o e L n L'} : Item1 m L n L' → Item1 m (⟨.mark ch!"^", o, e⟩ :: L) (.sup o n) L'
  | subGroup {m o e e' L l p L'} : Items m .brace L l p L' → Item1 m (⟨.mark ch!"_", o, e⟩ :: ⟨.mark ch!"{", e, e'⟩ :: L) (.sub o (.list l)) L'
  | sub {m o e L n L'} : Item1 m L n L' → Item1 m (⟨.mark ch!"_", o, e⟩ :: L) (.sub o n) L'
  /-- only `\\sqrt` has an argument in brackets, directly after the name, but need not have it -/
  | root {m o e e' L l p L1 args L'} : Items m .bracket L l p L1 → Args m 1 L1 args L' →
      Item1 m (⟨.name bs!"\\sqrt", o, e⟩ :: ⟨.mark ch!"[", e, e'⟩ :: L) (.macro (some (o, bs!"\\sqrt")) (.optArg e l p :: args)) L'
  | macro {m t o e L args L'} : Known t → Args m (arity t) L args L' → (t = bs!"\\sqrt" → ∀ e', L.head? ≠ some ⟨.mark ch!"[", e, e'⟩) →
      Item1 m (⟨.name t, o, e⟩ :: L) (.macro (some (o, t)) args) L'
/-- `Items math u L l p L'`: `L` begins with items whose trees are `l`, ended by `u` at position `p`, or by the end of the
input (then `p` is 0); `L'` come after it. -/
inductive Items : Bool → Until → List Lexed → List Node → Nat → List Lexed → Prop where
  | eof {m u} : Items m u [] [] 0 []
  | close {m u k o e L} : u.mark = some k → Items m u (⟨k, o, e⟩ :: L) [] o L
  | item {m u x L n L1 l p L'} : u.mark ≠ some x.lex → Item1 m (x :: L) n L1 → Items m u L1 l p L' → Items m u (x :: L) (keep n l) p L'
/-- `Args math n L args L'`: `L` begins with `n` arguments in braces. -/
inductive Args : Bool → Nat → List Lexed → List Node → List Lexed → Prop where
  | done {m L} : Args m 0 L [] L
  | more {m n o e L l p L1 args L'} : Items m .brace L l p L1 → Args m n L1 args L' →
      Args m (n + 1) (⟨.mark ch!"{", o, e⟩ :: L) (.arg o l p :: args) L'
end

/-- The lexemes of a source text; a byte order mark at its beginning is left out. -/
def LexesOf (U : Nat → Bool) (x : GoString) (L : List Lexed) : Prop := Lexes U (x.length - (stripBom x).length) (decode (stripBom x)) L

/-- The source is a sentence with this tree. -/
def Sentence (U : Nat → Bool) (x : GoString) (t : Node) : Prop := ∃ L l, LexesOf U x L ∧ Items false .eof L l 0 [] ∧ t = .list l

end Verif.Spec
