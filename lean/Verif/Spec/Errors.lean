import Verif.Spec.Grammar
/-!
# Why a source is not a sentence (C90)

For lexemes that are not a sentence of `Spec/Grammar`: what ParseExpr panics with.  The lexemes are those before the first
character that begins none, and then this character (`Spec.Reads`), so that there are such lexemes for every source.
-/

namespace Verif.Spec
open Verif

/-- The lexeme is a brace, directly at position `o`. -/
def braceAt (o : Nat) (L : List Lexed) : Prop := ∃ e, L.head? = some ⟨.mark ch!"{", o, e⟩

/-- The lexeme is a bracket, directly at position `o`. -/
def bracketAt (o : Nat) (L : List Lexed) : Prop := ∃ e, L.head? = some ⟨.mark ch!"[", o, e⟩

mutual
/-- `Fail1 math L p`: in math or not, an item is needed, and the lexemes `L` do not begin with one: the panic is `p`. -/
inductive Fail1 : Bool → List Lexed → Panic → Prop where
  /-- the end of the input (after a caret or an underscore) -/
  | eof {m} : Fail1 m [] .impossible
  /-- a character that begins no lexeme -/
  | wrong {m r o e L} : Fail1 m (⟨.wrong r, o, e⟩ :: L) (.unhandledToken r)
  | quoted {m o e L} : Fail1 m (⟨.quoted, o, e⟩ :: L) .otherNotImplemented
  /-- a group outside of math -/
  | group {o e L} : Fail1 false (⟨.mark ch!"{", o, e⟩ :: L) .lbraceNotImplemented
  /-- a brace that closes nothing -/
  | brace {m o e L} : Fail1 m (⟨.mark ch!"}", o, e⟩ :: L) .impossible
  | unknown {m t o e L} : ¬ Known t → t ≠ bs!"\\genfrac" → Fail1 m (⟨.name t, o, e⟩ :: L) (.unknownMacro t)
  | genfrac {m o e L} : Fail1 m (⟨.name bs!"\\genfrac", o, e⟩ :: L) .nilMacro
  /-- inside of math -/
  | inMath {m o e L p} : FailIn true .dollar L p → Fail1 m (⟨.mark ch!"$", o, e⟩ :: L) p
  /-- inside of a group -/
  | inGroup {o e L p} : FailIn true .brace L p → Fail1 true (⟨.mark ch!"{", o, e⟩ :: L) p
  /-- inside of the braces directly after a caret or an underscore -/
  | inScript {m c o e e' L p} : c ∈ bs!"^_" → FailIn m .brace L p → Fail1 m (⟨.mark c, o, e⟩ :: ⟨.mark ch!"{", e, e'⟩ :: L) p
  /-- in the item after a caret or an underscore -/
  | script {m c o e L p} : c ∈ bs!"^_" → ¬ braceAt e L → Fail1 m L p → Fail1 m (⟨.mark c, o, e⟩ :: L) p
  /-- inside of the argument in brackets -/
  | inRoot {m o e e' L p} : FailIn m .bracket L p → Fail1 m (⟨.name bs!"\\sqrt", o, e⟩ :: ⟨.mark ch!"[", e, e'⟩ :: L) p
  /-- in the argument after it -/
  | root {m o e e' L l q L1 p} : Items m .bracket L l q L1 → FailArgs m 1 L1 p →
      Fail1 m (⟨.name bs!"\\sqrt", o, e⟩ :: ⟨.mark ch!"[", e, e'⟩ :: L) p
  /-- in the arguments of a macro -/
  | args {m t o e L p} : Known t → (t = bs!"\\sqrt" → ¬ bracketAt e L) → FailArgs m (arity t) L p → Fail1 m (⟨.name t, o, e⟩ :: L) p
/-- `FailIn math u L p`: items ended by `u` are needed; the first that is wrong is so for the reason `p`. -/
inductive FailIn : Bool → Until → List Lexed → Panic → Prop where
  | here {m u x L p} : u.mark ≠ some x.lex → Fail1 m (x :: L) p → FailIn m u (x :: L) p
  | later {m u x L n L1 p} : u.mark ≠ some x.lex → Item1 m (x :: L) n L1 → FailIn m u L1 p → FailIn m u (x :: L) p
/-- `FailArgs math n L p`: `n` arguments in braces are needed. -/
inductive FailArgs : Bool → Nat → List Lexed → Panic → Prop where
  | eof {m n} : FailArgs m (n + 1) [] (.expected ch!"{")
  | wrong {m n r o e L} : FailArgs m (n + 1) (⟨.wrong r, o, e⟩ :: L) (.unhandledToken r)
  /-- something else than a brace -/
  | other {m n x L} : x.lex ≠ .mark ch!"{" → (∀ r, x.lex ≠ .wrong r) → FailArgs m (n + 1) (x :: L) (.expected ch!"{")
  | inside {m n o e L p} : FailIn m .brace L p → FailArgs m (n + 1) (⟨.mark ch!"{", o, e⟩ :: L) p
  | later {m n o e L l q L1 p} : Items m .brace L l q L1 → FailArgs m n L1 p → FailArgs m (n + 1) (⟨.mark ch!"{", o, e⟩ :: L) p
end

/-- The lexemes of a source text, up to the first character that begins none; a byte order mark at its beginning is left out. -/
def ReadsOf (U : Nat → Bool) (x : GoString) (L : List Lexed) : Prop := Reads U (x.length - (stripBom x).length) (decode (stripBom x)) L

end Verif.Spec
