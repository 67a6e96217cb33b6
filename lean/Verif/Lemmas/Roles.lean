import Verif.Spec.Mtex
import Verif.Model.Mtex
import Verif.Model.Krfl
import Verif.Lemmas.Symbols
/-! # The handlers of mtex and the roles of names -/

namespace Verif
open Spec

theorem has_newSet (vs : List GoString) (k : GoString) : setHas (newSet vs) k = vs.contains k := by
  rw [Bool.eq_iff_iff]
  simpa [setHas, newSet] using (foldl_setAdd vs [] (by simp)).2 k

theorem isSpaced_eq (k : GoString) :
    isSpaced k = (symBinaryOperators.contains k || symRelationSymbols.contains k || symArrowSymbols.contains k) := by
  have := (unionOf_spec [newSet symBinaryOperators, newSet symRelationSymbols, newSet symArrowSymbols]).2 k
  have e : ∀ vs k, k ∈ newSet vs ↔ k ∈ vs := fun vs k => by simpa [newSet] using (foldl_setAdd vs [] (by simp)).2 k
  rw [Bool.eq_iff_iff]
  simpa [isSpaced, setHas, spacedSymbols, e, or_assoc] using this

theorem any_contains {β : Type} (l : List (GoString × β)) (k : GoString) :
    (l.any fun q => k == q.1) = (l.map Prod.fst).contains k := by
  induction l with
  | nil => rfl
  | cons a l ih => simp [List.any_cons, List.contains_cons, ih]

theorem lookup_contains {β : Type} (l : List (GoString × β)) (k : GoString) :
    (l.lookup k).isSome = (l.map Prod.fst).contains k := by
  induction l with
  | nil => rfl
  | cons a l ih =>
    rw [List.lookup_cons]
    by_cases h : k == a.1
    · simp [h]
    · simp only [h, List.map_cons, List.contains_cons, Bool.false_or, ih]

theorem hasMacro_eq (k : GoString) : hasMacro k =
    ((k.take 1 == bs!"\\" && (tex2uni.map Prod.fst).contains (k.drop 1)) || (mtexMacros.map Prod.fst).contains k) := by
  unfold hasMacro
  rw [any_contains]
  congr 1
  cases k with
  | nil => simp
  | cons c k =>
    by_cases h : c = 92
    · subst h
      simp only [List.cons_append, List.nil_append, List.drop_succ_cons, List.drop_zero, List.take_succ_cons, List.take_zero]
      have : ∀ q : GoString × Nat, ((92 :: k == 92 :: q.1) = (k == q.1)) := fun q => by
        rw [Bool.eq_iff_iff]; simp
      simp only [this, any_contains]
      simp
    · have : ∀ q : GoString × Nat, ((c :: k == 92 :: q.1) = false) := fun q => by simp [h]
      have e : (c == 92) = false := by simpa using h
      simp [this, e]

/-- The role of a handler. -/
def Hk.role : Hk → Role
  | .space => .blank
  | .symbol => .glyph
  | .hspace => .hspace
  | .function => .function
  | .frac => .fraction true
  | .tfrac => .fraction true
  | .dfrac => .fraction false
  | .binom => .binomial
  | .sqrt => .root
  | .overline => .overline

/-- The role that belongs to the result of `handler`. -/
def roleOfHandler : Option Hk → Role
  | none => .unknown
  | some k => k.role

/-- The symbols drawn with `handleSymbol` first are none of the special names. -/
theorem spaced_plain : ∀ k ∈ symBinaryOperators ++ symRelationSymbols ++ symArrowSymbols ++ symPunctuationSymbols,
    k ∉ [bs!"\\frac", bs!"\\tfrac", bs!"\\dfrac", bs!"\\binom", bs!"\\sqrt", bs!"\\overline", bs!"\\hspace"] ++ blankNames ∧
    symFunctionNames.contains (k.drop 1) = false := by
  decide +kernel

theorem special_plain : ∀ k ∈ [bs!"\\frac", bs!"\\tfrac", bs!"\\dfrac", bs!"\\binom", bs!"\\sqrt", bs!"\\overline", bs!"\\hspace"],
    k ∉ blankNames ∧ symFunctionNames.contains (k.drop 1) = false := by
  decide +kernel

theorem spaceWidth_names : spaceWidth.map Prod.fst = blankNames := by decide +kernel

theorem spaced_not_punct : ∀ k ∈ symBinaryOperators ++ symRelationSymbols ++ symArrowSymbols,
    symPunctuationSymbols.contains k = false := by
  decide +kernel

/-- The handler found for a name is the one for its role. -/
theorem role_handler (name : GoString) : role name = roleOfHandler (handlerOf name) := by
  unfold handlerOf
  rw [lookup_contains, spaceWidth_names, isSpaced_eq, has_newSet, has_newSet]
  have sp := spaced_plain name
  simp only [List.mem_append, List.mem_cons, not_or] at sp
  have sq := special_plain name
  simp only [List.mem_cons] at sq
  unfold role
  by_cases h1 : name = bs!"\\frac"
  · subst h1; decide +kernel
  by_cases h2 : name = bs!"\\tfrac"
  · subst h2; decide +kernel
  by_cases h3 : name = bs!"\\dfrac"
  · subst h3; decide +kernel
  by_cases h4 : name = bs!"\\binom"
  · subst h4; decide +kernel
  by_cases h5 : name = bs!"\\sqrt"
  · subst h5; decide +kernel
  by_cases h6 : name = bs!"\\overline"
  · subst h6; decide +kernel
  by_cases h7 : name = bs!"\\hspace"
  · subst h7; decide +kernel
  simp only [h1, h2, h3, h4, h5, h6, h7, or_self, if_false]
  cases h8 : blankNames.contains name
  case true => simp only [if_true]; rfl
  simp only [Bool.false_eq_true, if_false]
  cases h9 : (symBinaryOperators.contains name || symRelationSymbols.contains name || symArrowSymbols.contains name ||
      symPunctuationSymbols.contains name)
  case true =>
    have := (sp (by simpa [or_assoc] using h9)).2
    rw [this, if_pos rfl, if_neg (by simp), if_pos]
    · rfl
    · unfold IsGlyphName; rw [h9]; rfl
  simp only [Bool.false_eq_true, if_false]
  cases h10 : symFunctionNames.contains (name.drop 1)
  case true => simp only [if_true]; rfl
  simp only [Bool.false_eq_true, if_false]
  unfold IsGlyphName
  rw [h9, hasMacro_eq, Bool.false_or, Bool.or_comm]
  cases ((name.take 1 == bs!"\\" && (tex2uni.map Prod.fst).contains (name.drop 1)) || (mtexMacros.map Prod.fst).contains name) <;> rfl

theorem isPunct_spaced {t : GoString} (h : isSpaced t = true) : isPunct t = false := by
  rw [isSpaced_eq] at h
  have := spaced_not_punct t (by simpa [or_assoc] using h)
  unfold isPunct; rw [this]; rfl

end Verif
