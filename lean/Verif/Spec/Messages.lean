import Verif.Spec.Grammar
/-!
# When ParseExpr has nothing to say (C98)

The scanner of the standard library reads the source as if it were Go, also inside of comments: numbers should be number literals of Go, and
what begins with a double quote a string literal.
-/

namespace Verif.Spec
open Verif

/-- The pieces of a source the scanner has an opinion on. -/
inductive Piece where
  | number (a rest : List Ch)
  | quoted (a : List Ch)

/-- The source, from left to right: words, numbers, quoted strings, and single characters. -/
inductive Pieces (U : Nat → Bool) : List Ch → List Piece → Prop where
  | done : Pieces U [] []
  | word {c a rest P} : isLetter U c.r = true → Run (isLetter U) a rest → Pieces U rest P → Pieces U (c :: a ++ rest) P
  | number {a rest P} : Number a rest → Pieces U rest P → Pieces U (a ++ rest) (.number a rest :: P)
  | quoted {q a rest P} : q.r = ch!"\"" → Quoted a rest → Pieces U rest P → Pieces U (q :: a ++ rest) (.quoted a :: P)
  | char {c rest P} : isLetter U c.r = false → c.r ∉ bs!"0123456789\"" → (c.r = ch!"." → ∀ d, rest.head? = some d → d.r ∉ bs!"0123456789") →
      Pieces U rest P → Pieces U (c :: rest) P

/-- GoDigits, with single underscores between them. -/
inductive GoDigits (D : GoString) : List Ch → Prop where
  | one {c} : c.r ∈ D → GoDigits D [c]
  | more {c a} : c.r ∈ D → GoDigits D a → GoDigits D (c :: a)
  | sep {c u a} : c.r ∈ D → u.r = ch!"_" → GoDigits D a → GoDigits D (c :: u :: a)

/-- The same, after a base prefix: there may be an underscore in front. -/
def GoDigits1 (D : GoString) (a : List Ch) : Prop := GoDigits D a ∨ ∃ u b, a = u :: b ∧ u.r = ch!"_" ∧ GoDigits D b

/-- An exponent of Go: one of these letters, a sign or none, and decimal digits. -/
def GoExponent (letters : GoString) (e : List Ch) : Prop :=
  ∃ x s a, e = x :: s ++ a ∧ x.r ∈ letters ∧ (s = [] ∨ ∃ c, s = [c] ∧ c.r ∈ bs!"+-") ∧ GoDigits bs!"0123456789" a

/-- The number is a number literal of Go. -/
inductive GoNumber : List Ch → List Ch → Prop where
  /-- a decimal or octal integer, or a decimal fraction -/
  | plain {d a f e rest} : Begins [d] decimal (a ++ f ++ e ++ rest) → Run decimal a (f ++ e ++ rest) → Fraction decimal f (e ++ rest) → Exponent e rest →
      GoDigits bs!"0123456789" (d :: a) → (f.tail = [] ∨ GoDigits bs!"0123456789" f.tail) → (e = [] ∨ GoExponent bs!"eE" e) →
      (d.r = ch!"0" → f = [] → e = [] → ∀ c ∈ a, c.r ∉ bs!"89") → GoNumber (d :: a ++ f ++ e) rest
  /-- a fraction that begins with a dot -/
  | dot {dot d a e rest} : dot.r = ch!"." → d.r ∈ bs!"0123456789" → Run decimal a (e ++ rest) → Exponent e rest →
      GoDigits bs!"0123456789" (d :: a) → (e = [] ∨ GoExponent bs!"eE" e) → GoNumber (dot :: d :: a ++ e) rest
  | octal {z o a rest} : z.r = ch!"0" → o.r ∈ bs!"oO" → Run decimal a rest → Fraction decimal [] rest → Exponent [] rest →
      GoDigits1 bs!"01234567" a → GoNumber (z :: o :: a) rest
  | binary {z b a rest} : z.r = ch!"0" → b.r ∈ bs!"bB" → Run decimal a rest → Fraction decimal [] rest → Exponent [] rest →
      GoDigits1 bs!"01" a → GoNumber (z :: b :: a) rest
  | hex {z x a rest} : z.r = ch!"0" → x.r ∈ bs!"xX" → Run hexadecimal a rest → Fraction hexadecimal [] rest → Exponent [] rest →
      GoDigits1 bs!"0123456789abcdefABCDEF" a → GoNumber (z :: x :: a) rest
  /-- a hexadecimal fraction; it has an exponent -/
  | hexFloat {z x a f e rest} : z.r = ch!"0" → x.r ∈ bs!"xX" → Run hexadecimal a (f ++ e ++ rest) → Fraction hexadecimal f (e ++ rest) → Exponent e rest →
      GoExponent bs!"pP" e → (GoDigits1 bs!"0123456789abcdefABCDEF" a ∨ a = [] ∧ f.tail ≠ []) →
      (f.tail = [] ∨ GoDigits bs!"0123456789abcdefABCDEF" f.tail) → GoNumber (z :: x :: a ++ f ++ e) rest

/-- What comes after a double quote is the rest of a string literal of Go. -/
inductive GoQuoted : List Ch → Prop where
  | close {c} : c.r = ch!"\"" → GoQuoted [c]
  | plain {c a} : c.r ∉ bs!"\"\n\\" → GoQuoted a → GoQuoted (c :: a)
  | simple {b c a} : b.r = ch!"\\" → c.r ∈ bs!"abfnrtv\\\"" → GoQuoted a → GoQuoted (b :: c :: a)
  | octal {b n a} : b.r = ch!"\\" → n.length = 3 → (∀ c ∈ n, c.r ∈ bs!"01234567") → GoQuoted a → GoQuoted (b :: n ++ a)
  | hex {b x n a} : b.r = ch!"\\" → (x.r = ch!"x" ∧ n.length = 2 ∨ x.r = ch!"u" ∧ n.length = 4 ∨ x.r = ch!"U" ∧ n.length = 8) →
      (∀ c ∈ n, c.r ∈ bs!"0123456789abcdefABCDEF") → GoQuoted a → GoQuoted (b :: x :: n ++ a)

/-- The piece is a literal of Go. -/
def Piece.Fine : Piece → Prop
  | .number a rest => GoNumber a rest
  | .quoted a => GoQuoted a

/-- The character is not NUL, and not a byte that belongs to no character (which is read as U+FFFD). -/
def CleanCh (c : Ch) : Prop := c.r ≠ 0 ∧ ¬ (c.r = 0xFFFD ∧ c.b.length = 1)

/-- The scanner has nothing to complain of. -/
def Quiet (U : Nat → Bool) (cs : List Ch) : Prop := (∀ c ∈ cs, CleanCh c) ∧ ∃ P, Pieces U cs P ∧ ∀ p ∈ P, p.Fine

end Verif.Spec
