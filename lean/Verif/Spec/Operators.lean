import Verif.Model.Box
import Verif.Model.Tables
/-! # Spaced symbols -/

namespace Verif.Spec
variable {F : Type} [GoFloat F]
open GoFloat

/-- The symbol names that are set with space around them: binary operators, relations and arrows. -/
def spacedNames : List GoString := symBinaryOperators ++ symRelationSymbols ++ symArrowSymbols

/-- A binary operator at position `p` of the source `x` right after an opening brace, parenthesis or
bracket or after `<`, with nothing but blanks between. -/
def Tight (x : GoString) (p : Nat) (t : GoString) : Prop :=
  t ∈ symBinaryOperators ∧ ∃ (a : GoString) (b : Nat) (n : Nat),
    x.take p = a ++ [b] ++ List.replicate n ch!" " ∧ b ∈ [ch!"{", ch!"(", ch!"[", ch!"<"]

/-- The symbol alone. -/
def Bare (t : GoString) (n : TNode F) : Prop := ∃ c, n = .char c ∧ c.c = t

/-- The symbol between two blanks of one fifth of an em; nothing else but kerns. -/
def Spaced (be : Backend F) (st : TState F) (t : GoString) (n : TNode F) : Prop :=
  ∃ hd cs c k1 k2, n = .list .h hd cs ∧ [.kern k1, .char c, .kern k2].Sublist cs ∧
    (∀ m ∈ cs, m = .char c ∨ ∃ k, m = .kern k) ∧ c.c = t ∧
    k1.width = (be.metrics bs!"m" ⟨bs!"it", bs!"it", st.font.size⟩ st.dpi true).advance * ofRat 2 10 ∧
    k2.width = (be.metrics bs!"m" ⟨bs!"it", bs!"it", st.font.size⟩ st.dpi true).advance * ofRat 2 10

end Verif.Spec
