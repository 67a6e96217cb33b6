import Verif.Lemmas.Diag
import Verif.Spec.Messages
/-! # Numbers about which nothing is printed -/

namespace Verif
open Spec

/-- the digits of `D` are those `invalidSep` takes for digits -/
def DigSet (hex : Bool) (D : GoString) : Prop := ∀ r, r ∈ D ↔ (isDecimal r || (hex && isHex r)) = true

theorem digSet_dec : DigSet false bs!"0123456789" := by
  intro r
  rw [← digit_iff]; simp
theorem digSet_hex : DigSet true bs!"0123456789abcdefABCDEF" := by
  intro r
  simp [isDecimal, isHex]
  omega

def rs (a : List Ch) : List Nat := a.map Ch.r

theorem sep_break {hex : Bool} {r : Nat} (h1 : r ≠ ch!"_") (h2 : (isDecimal r || (hex && isHex r)) = false) (u v : List Nat) :
    ∀ d, sepLoop hex d (u ++ r :: v) = (sepLoop hex d u || sepLoop hex ch!"." v) := by
  induction u with
  | nil =>
    intro d
    simp [sepLoop, h1, h2]
  | cons x u ih =>
    intro d
    rw [List.cons_append, sepLoop, sepLoop]
    split
    · rw [ih, Bool.or_assoc]
    split
    · exact ih _
    · rw [ih, Bool.or_assoc]

theorem not_us {hex : Bool} {D : GoString} (hD : DigSet hex D) : ch!"_" ∉ D := by
  rw [hD]; cases hex <;> decide

/-- what `sepLoop` says of digits and underscores -/
theorem sep_digits {hex : Bool} {D : GoString} (hD : DigSet hex D) : ∀ a : List Ch, (∀ c ∈ a, c.r ∈ D ∨ c.r = ch!"_") →
    (sepLoop hex ch!"." (rs a) = false ↔ a = [] ∨ GoDigits D a) ∧
    (sepLoop hex ch!"0" (rs a) = false ↔ a = [] ∨ GoDigits1 D a) ∧
    (sepLoop hex ch!"_" (rs a) = false ↔ GoDigits D a)
  | [], _ => by
    refine ⟨by simp [rs, sepLoop], by simp [rs, sepLoop], ?_⟩
    simp only [rs, List.map_nil, sepLoop]
    constructor
    · intro h; cases h
    · intro h; cases h
  | c :: a, h => by
    obtain ⟨-, h2, h3⟩ := sep_digits hD a fun d hd => h d (List.mem_cons_of_mem _ hd)
    rcases h c List.mem_cons_self with hc | hc
    · have hne : c.r ≠ ch!"_" := fun e => not_us hD (e ▸ hc)
      have hd := (hD c.r).1 hc
      have key : ∀ d, sepLoop hex d (rs (c :: a)) = sepLoop hex ch!"0" (rs a) := by
        intro d
        show sepLoop hex d (c.r :: rs a) = _
        rw [sepLoop, if_neg hne, if_pos hd]
      have e1 : (sepLoop hex ch!"0" (rs a) = false ↔ GoDigits D (c :: a)) := by
        rw [h2]
        constructor
        · rintro (rfl | h' | ⟨u, b, rfl, hu, hb⟩)
          · exact .one hc
          · exact .more hc h'
          · exact .sep hc hu hb
        · intro h'
          cases h' with
          | one => exact .inl rfl
          | more _ h' => exact .inr (.inl h')
          | sep _ hu hb => exact .inr (.inr ⟨_, _, rfl, hu, hb⟩)
      rw [key, key, key, e1]
      refine ⟨by simp, ?_, Iff.rfl⟩
      constructor
      · intro h'; exact .inr (.inl h')
      · rintro (h' | h' | ⟨u, b, e, hu, -⟩)
        · cases h'
        · exact h'
        · cases e; exact absurd hu hne
    · have key : ∀ d, sepLoop hex d (rs (c :: a)) = (d != ch!"0" || sepLoop hex ch!"_" (rs a)) := by
        intro d
        show sepLoop hex d (c.r :: rs a) = _
        rw [sepLoop, if_pos hc]
      have no : ¬ GoDigits D (c :: a) := by
        intro h'
        cases h' with
        | one h' => exact not_us hD (hc ▸ h')
        | more h' => exact not_us hD (hc ▸ h')
        | sep h' => exact not_us hD (hc ▸ h')
      rw [key, key, key]
      refine ⟨by simp [no], ?_, by simp [no]⟩
      simp only [bne_self_eq_false, Bool.false_or, h3]
      constructor
      · intro h'; exact .inr (.inr ⟨c, a, rfl, hc, h'⟩)
      · rintro (h' | h' | ⟨u, b, e, hu, hb⟩)
        · cases h'
        · exact absurd h' no
        · cases e; exact hb

theorem sep_none {hex : Bool} : ∀ (t : List Nat) (d : Nat), d ≠ ch!"_" → (∀ r ∈ t, r ≠ ch!"_") → sepLoop hex d t = false
  | [], d, hd, _ => by simp [sepLoop, hd]
  | r :: t, d, hd, h => by
    have h' : ∀ r ∈ t, r ≠ ch!"_" := fun x hx => h x (List.mem_cons_of_mem _ hx)
    rw [sepLoop, if_neg (h r List.mem_cons_self)]
    split
    · exact sep_none t _ (by decide) h'
    · rw [sep_none t _ (by decide) h']; simp [hd]

theorem invalidSep_none {t : List Nat} (h : ∀ r ∈ t, r ≠ ch!"_") : invalidSep t = false := by
  unfold invalidSep
  split
  · next z x rs =>
    split
    · exact sep_none _ _ (by decide) fun r hr => h r (by simp [hr])
    · exact sep_none _ _ (by decide) h
  · exact sep_none _ _ (by decide) h

/-- looking for an underscore first makes no difference -/
theorem sep_guard {a : List Ch} {t : List Nat} (h : ∀ r ∈ t, r = ch!"_" → r ∈ rs a) :
    (a.any (fun c => c.r == ch!"_") && invalidSep t) = invalidSep t := by
  cases hg : a.any (fun c => c.r == ch!"_") with
  | true => rfl
  | false =>
    rw [invalidSep_none fun r hr e => ?_]
    · rfl
    · obtain ⟨c, hc, e'⟩ := List.mem_map.1 (h r hr e)
      rw [List.any_eq_false] at hg
      exact hg c hc (by simp [e', e])

theorem taken_eq (base : Nat) (cs : List Ch) : digitsTaken base cs = cs.takeWhile fun c => (if base ≤ 10 then decimal else hexadecimal) c.r := by
  unfold digitsTaken
  congr 1
  funext c
  split
  · exact decimal_eq c.r
  · exact hexadecimal_eq c.r

theorem run_take {p : Nat → Bool} {a rest : List Ch} (h : Run p a rest) : ((a ++ rest).takeWhile fun c => p c.r) = a := by
  rw [List.takeWhile_append_of_pos fun c hc => h.1 c hc]
  cases rest with
  | nil => simp
  | cons d rest =>
    have := h.2 d rfl
    rw [List.takeWhile_cons, this]
    simp

theorem taken_run {a rest : List Ch} (h : Run decimal a rest) {base : Nat} (hb : base ≤ 10) : digitsTaken base (a ++ rest) = a := by
  rw [taken_eq, if_pos hb]; exact run_take h
theorem taken_run16 {a rest : List Ch} (h : Run hexadecimal a rest) : digitsTaken 16 (a ++ rest) = a := by
  rw [taken_eq, if_neg (by omega)]; exact run_take h
theorem digits_end {a rest : List Ch} (h : Run decimal a rest) {base : Nat} (hb : base ≤ 10) : digits base (a ++ rest) = rest := by
  rw [digits_eq, if_pos hb]; exact run_rest h
theorem digits_end16 {a rest : List Ch} (h : Run hexadecimal a rest) : digits 16 (a ++ rest) = rest := by
  rw [digits_eq, if_neg (by omega)]; exact run_rest h

/-- an optional sign -/
def Sign (s : List Ch) : Prop := s = [] ∨ ∃ c, s = [c] ∧ c.r ∈ bs!"+-"

theorem exp_parts {e rest : List Ch} (h : Exponent e rest) (hne : e ≠ []) : ∃ x s a, e = x :: s ++ a ∧ x.r ∈ bs!"eEpP" ∧ Sign s ∧ Run decimal a rest ∧
    digitsTaken 10 (if nextIs (fun r => r == ch!"+" || r == ch!"-") (e ++ rest).tail then (e ++ rest).tail.tail else (e ++ rest).tail) = a := by
  cases h with
  | none => exact absurd rfl hne
  | @some x a _ hx hs ha =>
    refine ⟨x, [], a, rfl, hx, .inl rfl, ha, ?_⟩
    rw [List.cons_append, List.tail_cons, if_neg, taken_run ha (by omega)]
    rw [nextIs_not]
    intro c hc
    have := hs c hc
    rw [← signChar] at this
    simpa using this
  | @signed x s a _ hx hs ha =>
    refine ⟨x, [s], a, rfl, hx, .inr ⟨s, rfl, hs⟩, ha, ?_⟩
    rw [List.cons_append, List.tail_cons, List.cons_append,
      if_pos (show nextIs (fun r => r == ch!"+" || r == ch!"-") (s :: (a ++ rest)) = true from (signChar _).2 hs), List.tail_cons, taken_run ha (by omega)]

theorem numExponent_rest {e rest : List Ch} (h : Exponent e rest) : (numExponent (e ++ rest)).2 = rest := by
  obtain ⟨e', h1, h2⟩ := exponent_lex (e ++ rest)
  exact (exponent_unique h h2 h1).2.symm

theorem run_us {p : Nat → Bool} (hp : ∀ r, p r = decimal r ∨ p r = hexadecimal r) : p ch!"_" = true := by
  rcases hp ch!"_" with h | h <;> rw [h] <;> decide

theorem exp_diags {base pre : Nat} {mant : List Ch} {dot : Bool} {text e rest : List Ch} (h : Exponent e rest)
    (hm : ∀ r ∈ rs text, r = ch!"_" → r ∈ rs mant) :
    exponentDiags base pre mant dot text (e ++ rest) = [] ↔
      (e = [] ∧ ¬ (pre = ch!"x" ∧ dot = true) ∧ (dot = false → badDigit base mant = false) ∧ invalidSep (rs text) = false) ∨
      ∃ x s a, e = x :: s ++ a ∧ (x.r ∈ bs!"eE" ∧ (pre = 0 ∨ pre = ch!"0") ∨ x.r ∈ bs!"pP" ∧ pre = ch!"x") ∧ Sign s ∧ (∀ c ∈ a, decimal c.r = true) ∧
        hasDigit a = true ∧ invalidSep (rs (text ++ e)) = false := by
  unfold exponentDiags
  simp only [numExponent_rest h, consumed_append]
  by_cases he : e = []
  · subst he
    have h0 : ∀ c, rest.head? = some c → c.r ∉ bs!"eEpP" := by
      cases h with
      | none h => exact h
    have hE : nextIs (lowerIs · ch!"e") ([] ++ rest) = false := by
      rw [← Bool.not_eq_true, nextIs_not]
      intro c hc
      have := h0 c hc
      rw [← expChar, Bool.or_eq_true, not_or] at this
      simpa using this.1
    have hP : nextIs (lowerIs · ch!"p") ([] ++ rest) = false := by
      rw [← Bool.not_eq_true, nextIs_not]
      intro c hc
      have := h0 c hc
      rw [← expChar, Bool.or_eq_true, not_or] at this
      simpa using this.2
    simp only [hE, hP, Bool.or_false, Bool.false_eq_true, if_false, List.append_nil]
    have g : ((mant.any fun c => c.r == ch!"_") && invalidSep (rs text)) = invalidSep (rs text) := sep_guard hm
    rw [show (text.map Ch.r) = rs text from rfl, g]
    have no : ¬ ∃ x s a, ([] : List Ch) = x :: s ++ a ∧ (x.r ∈ bs!"eE" ∧ (pre = 0 ∨ pre = ch!"0") ∨ x.r ∈ bs!"pP" ∧ pre = ch!"x") ∧ Sign s ∧ (∀ c ∈ a, decimal c.r = true) ∧
        hasDigit a = true ∧ invalidSep (rs text) = false := by
      rintro ⟨x, s, a, h, -⟩; cases h
    simp only [no, or_false, true_and, List.append_eq_nil_iff]
    cases dot <;> cases hb : badDigit base mant <;> cases invalidSep (rs text) <;> by_cases hx : pre = ch!"x" <;> simp [hx, beq_iff_eq]
  · obtain ⟨x, s, a, rfl, hx, hs, ha, ht⟩ := exp_parts h he
    simp only [ht]
    have g : (((mant ++ a).any fun c => c.r == ch!"_") && invalidSep (rs (text ++ (x :: s ++ a)))) = invalidSep (rs (text ++ (x :: s ++ a))) := by
      refine sep_guard fun r hr hu => ?_
      simp only [rs, List.map_append, List.mem_append, List.map_cons, List.mem_cons, List.cons_append] at hr hm ⊢
      rcases hr with hr | rfl | hr | hr
      · exact .inl (hm r hr hu)
      · rw [hu] at hx; exact absurd hx (by decide)
      · rcases hs with rfl | ⟨c, rfl, hc⟩
        · cases hr
        · simp at hr; subst hr; rw [hu] at hc; exact absurd hc (by decide)
      · exact .inr hr
    have hn : ∀ q : Nat → Bool, nextIs q (x :: s ++ a ++ rest) = q x.r := fun q => rfl
    have h4 : x.r = 101 ∨ x.r = 69 ∨ x.r = 112 ∨ x.r = 80 := by simpa using hx
    have lE : lowerIs x.r ch!"e" = decide (x.r ∈ bs!"eE") ∧ lowerIs x.r ch!"p" = decide (x.r ∈ bs!"pP") ∧ (x.r ∈ bs!"eE" ↔ ¬ x.r ∈ bs!"pP") ∧
        (lowerIs x.r ch!"e" || lowerIs x.r ch!"p") = true := by
      rcases h4 with h | h | h | h <;> rw [h] <;> decide
    simp only [hn, lE.2.2.2, if_true]
    rw [show ((text ++ (x :: s ++ a)).map Ch.r) = rs (text ++ (x :: s ++ a)) from rfl, g]
    have no : ¬ ((x :: s ++ a : List Ch) = [] ∧ ¬ (pre = ch!"x" ∧ dot = true) ∧ (dot = false → badDigit base mant = false) ∧ invalidSep (rs text) = false) := by
      rintro ⟨h, -⟩; cases h
    have one : (∃ x' s' a', x :: s ++ a = x' :: s' ++ a' ∧ (x'.r ∈ bs!"eE" ∧ (pre = 0 ∨ pre = ch!"0") ∨ x'.r ∈ bs!"pP" ∧ pre = ch!"x") ∧ Sign s' ∧ (∀ c ∈ a', decimal c.r = true) ∧
        hasDigit a' = true ∧ invalidSep (rs (text ++ (x :: s ++ a))) = false) ↔
        ((x.r ∈ bs!"eE" ∧ (pre = 0 ∨ pre = ch!"0") ∨ x.r ∈ bs!"pP" ∧ pre = ch!"x") ∧ hasDigit a = true ∧ invalidSep (rs (text ++ (x :: s ++ a))) = false) := by
      constructor
      · rintro ⟨x', s', a', h1, h2, h3, h4, h5, h6⟩
        simp only [List.cons_append, List.cons.injEq] at h1
        obtain ⟨rfl, h1⟩ := h1
        have sg : ∀ c : Ch, c.r ∈ bs!"+-" → decimal c.r = true → False := by
          intro c hc hd
          have : c.r = 43 ∨ c.r = 45 := by simpa using hc
          rcases this with h | h <;> rw [h] at hd <;> revert hd <;> decide
        have : a = a' := by
          rcases hs with rfl | ⟨c, rfl, hc⟩ <;> rcases h3 with rfl | ⟨c', rfl, hc'⟩
          · exact h1
          · exact (sg c' hc' (ha.1 c' (by rw [show a = c' :: a' from h1]; exact List.mem_cons_self))).elim
          · exact (sg c hc (h4 c (by rw [← show c :: a = a' from h1]; exact List.mem_cons_self))).elim
          · exact (List.cons.inj (show c :: a = c' :: a' from h1)).2
        subst this
        exact ⟨h2, h5, h6⟩
      · rintro ⟨h2, h5, h6⟩
        exact ⟨x, s, a, rfl, h2, hs, ha.1, h5, h6⟩
    rw [one]
    simp only [no, false_or]
    rw [lE.1, lE.2.1]
    by_cases h1 : x.r ∈ bs!"pP" <;> cases hasDigit a <;> cases invalidSep (rs (text ++ (x :: s ++ a))) <;>
      by_cases h2 : pre = 0 <;> by_cases h3 : pre = ch!"0" <;> by_cases h4 : pre = ch!"x" <;> simp [lE.2.2.1, h1, h2, h3, h4] <;> omega

theorem num_split {cs A u f e rest : List Ch} {base pre : Nat} {p : Nat → Bool} (hp : base ≤ 10 ∧ p = decimal ∨ base = 16 ∧ p = hexadecimal)
    (h1 : numLetter cs = pre) (h2 : numPrefix cs = (base, u ++ (f ++ (e ++ rest)))) (hu : Run p u (f ++ (e ++ rest))) (hf : Fraction p f (e ++ rest))
    (hA : cs = A ++ (e ++ rest)) :
    numDiags [] cs false = (if f ≠ [] ∧ (pre = ch!"o" ∨ pre = ch!"b") then [.radix] else []) ++
      (if pre = ch!"0" ∨ hasDigit (u ++ f.tail) = true then [] else [.noDigits]) ++
      exponentDiags base pre (u ++ f.tail) (!f.isEmpty) A (e ++ rest) := by
  have ht : ∀ {a b}, Run p a b → digitsTaken base (a ++ b) = a ∧ digits base (a ++ b) = b := by
    intro a b h
    rcases hp with ⟨hb, rfl⟩ | ⟨rfl, rfl⟩
    · exact ⟨taken_run h hb, digits_end h hb⟩
    · exact ⟨taken_run16 h, digits_end16 h⟩
  unfold numDiags
  simp only [Bool.false_eq_true, if_false, h1, h2, (ht hu).1, (ht hu).2, Bool.false_or, List.nil_append]
  cases hf with
  | none h =>
    have hd : nextIs (· == ch!".") (e ++ rest) = false := by
      rw [← Bool.not_eq_true, nextIs_not]
      intro c hc
      simpa using h c hc
    simp only [List.append_nil, List.nil_append, List.tail_nil, hd, Bool.false_and, Bool.false_eq_true, if_false]
    have hc : consumed cs (e ++ rest) = A := by rw [hA, consumed_append]
    rw [hc]
    simp
  | @some dot v _ hdot hv =>
    have hd : nextIs (· == ch!".") (dot :: (v ++ (e ++ rest))) = true := by
      show (dot.r == ch!".") = true
      rw [hdot]; rfl
    simp only [List.cons_append, hd, if_true, List.tail_cons, (ht hv).1, (ht hv).2]
    have hc : consumed cs (e ++ rest) = A := by rw [hA, consumed_append]
    rw [hc]
    simp
    by_cases h : pre = 48 ∨ hasDigit (u ++ v) = true <;> simp [h]

theorem num_split_dot {lead v e rest : List Ch} (hv : Run decimal v (e ++ rest)) :
    numDiags lead (v ++ (e ++ rest)) true = (if hasDigit v = true then [] else [.noDigits]) ++ exponentDiags 10 0 v true (lead ++ v) (e ++ rest) := by
  unfold numDiags
  simp only [if_true, Bool.true_or, taken_run hv (by omega : 10 ≤ 10), digits_end hv (by omega : 10 ≤ 10), consumed_append, List.nil_append]
  simp

theorem digits_has {D : GoString} (hD : ch!"_" ∉ D) {a : List Ch} (h : GoDigits D a) : hasDigit a = true := by
  have : ∃ c t, a = c :: t ∧ c.r ∈ D := by
    cases h with
    | one h => exact ⟨_, _, rfl, h⟩
    | more h => exact ⟨_, _, rfl, h⟩
    | sep h => exact ⟨_, _, rfl, h⟩
  obtain ⟨c, t, rfl, hc⟩ := this
  have hne : c.r ≠ ch!"_" := fun e => hD (e ▸ hc)
  simp [hasDigit, hne]

/-- the exponent as `invalidSep` sees it -/
theorem sep_exp {hex : Bool} {x : Ch} {s a : List Ch} (hx : x.r ∈ bs!"eEpP") (hxx : (isDecimal x.r || (hex && isHex x.r)) = false) (hs : Sign s) (u : List Nat) (d : Nat) :
    sepLoop hex d (u ++ rs (x :: s ++ a)) = (sepLoop hex d u || sepLoop hex ch!"." (rs a)) := by
  have h1 : x.r ≠ ch!"_" := by intro e; rw [e] at hx; revert hx; decide
  show sepLoop hex d (u ++ x.r :: rs (s ++ a)) = _
  rw [sep_break h1 hxx]
  congr 1
  rcases hs with rfl | ⟨c, rfl, hc⟩
  · rfl
  · have hc' : c.r = 43 ∨ c.r = 45 := by simpa using hc
    show sepLoop hex ch!"." (c.r :: rs a) = _
    rw [sepLoop]
    rcases hc' with h | h <;> rw [h] <;> cases hex <;> rfl

theorem decimal_mem {r : Nat} (h : decimal r = true) : r ∈ bs!"0123456789" ∨ r = ch!"_" := by
  have : r ∈ bs!"0123456789_" := by simpa [decimal] using h
  simp at this ⊢
  omega
theorem hexadecimal_mem {r : Nat} (h : hexadecimal r = true) : r ∈ bs!"0123456789abcdefABCDEF" ∨ r = ch!"_" := by
  have : r ∈ bs!"0123456789abcdefABCDEF_" := by simpa [hexadecimal] using h
  simp at this ⊢
  omega

theorem digits_mono {D D' : GoString} (h : ∀ r ∈ D, r ∈ D') {a : List Ch} (ha : GoDigits D a) : GoDigits D' a := by
  induction ha with
  | one hc => exact .one (h _ hc)
  | more hc _ ih => exact .more (h _ hc) ih
  | sep hc hu _ ih => exact .sep (h _ hc) hu ih

theorem digits_sub {D D' : GoString} {a : List Ch} (ha : GoDigits D a) (h : ∀ c ∈ a, c.r ∈ D → c.r ∈ D') : GoDigits D' a := by
  induction ha with
  | one hc => exact .one (h _ List.mem_cons_self hc)
  | more hc _ ih => exact .more (h _ List.mem_cons_self hc) (ih fun c hc => h c (List.mem_cons_of_mem _ hc))
  | sep hc hu _ ih => exact .sep (h _ List.mem_cons_self hc) hu (ih fun c hc => h c (List.mem_cons_of_mem _ (List.mem_cons_of_mem _ hc)))

theorem digits_mem {D : GoString} {a : List Ch} (ha : GoDigits D a) : ∀ c ∈ a, c.r ∈ D ∨ c.r = ch!"_" := by
  induction ha with
  | one hc => intro c h; rw [List.mem_singleton] at h; exact .inl (h ▸ hc)
  | more hc _ ih => intro c h; rcases List.mem_cons.1 h with rfl | h; exact .inl hc; exact ih c h
  | sep hc hu _ ih =>
    intro c h
    rcases List.mem_cons.1 h with rfl | h
    · exact .inl hc
    rcases List.mem_cons.1 h with rfl | h
    · exact .inr hu
    · exact ih c h

theorem invalidSep_plain {t : List Nat} (h : ∀ z x r, t = z :: x :: r → z = ch!"0" → x ∉ bs!"xXoObB") : invalidSep t = sepLoop false ch!"." t := by
  unfold invalidSep
  split
  · next z x r =>
    rw [if_neg]
    rintro ⟨h1, h2⟩
    have := h z x r rfl h1
    revert h2 this
    simp [lowerIs]
    omega
  · rfl

theorem sign_exp {L : GoString} {e : List Ch} : GoExponent L e ↔ ∃ x s a, e = x :: s ++ a ∧ x.r ∈ L ∧ Sign s ∧ GoDigits bs!"0123456789" a := Iff.rfl

/-- the separators before an exponent -/
theorem sep_frac {hex : Bool} {D : GoString} (hD : DigSet hex D) {d0 : Nat} {u f : List Ch} (hfr : f = [] ∨ ∃ dot v, f = dot :: v ∧ dot.r = ch!".")
    (hfd : ∀ c ∈ f.tail, c.r ∈ D ∨ c.r = ch!"_") :
    sepLoop hex d0 (rs (u ++ f)) = false ↔ sepLoop hex d0 (rs u) = false ∧ (f.tail = [] ∨ GoDigits D f.tail) := by
  rcases hfr with rfl | ⟨dot, v, rfl, hd⟩
  · simp
  · have h1 : rs (u ++ dot :: v) = rs u ++ dot.r :: rs v := by simp [rs]
    rw [h1, sep_break (by rw [hd]; decide) (by rw [hd]; cases hex <;> decide), Bool.or_eq_false_iff]
    rw [(sep_digits hD v hfd).1]
    rfl

/-- the messages about a number, in parts -/
def numParts (base pre : Nat) (u f A e rest : List Ch) : List Diag :=
  (if f ≠ [] ∧ (pre = ch!"o" ∨ pre = ch!"b") then [.radix] else []) ++
      (if pre = ch!"0" ∨ hasDigit (u ++ f.tail) = true then [] else [.noDigits]) ++
      exponentDiags base pre (u ++ f.tail) (!f.isEmpty) A (e ++ rest)

theorem num_core {hex : Bool} {D : GoString} (hD : DigSet hex D) {base pre d0 : Nat} {u f A e rest w : List Ch} (he : Exponent e rest)
    (hh : hex = true ↔ pre = ch!"x") (hfr : f = [] ∨ ∃ dot v, f = dot :: v ∧ dot.r = ch!".") (hfd : ∀ c ∈ f.tail, c.r ∈ D ∨ c.r = ch!"_")
    (hm : ∀ r ∈ rs A, r = ch!"_" → r ∈ rs (u ++ f.tail)) (hI : ∀ e', e' = [] ∨ e' = e → invalidSep (rs (A ++ e')) = sepLoop hex d0 (rs (w ++ f ++ e'))) :
    numParts base pre u f A e rest = [] ↔
      ¬ (f ≠ [] ∧ (pre = ch!"o" ∨ pre = ch!"b")) ∧ (pre = ch!"0" ∨ hasDigit (u ++ f.tail) = true) ∧ sepLoop hex d0 (rs w) = false ∧
      (f.tail = [] ∨ GoDigits D f.tail) ∧
      ((e = [] ∧ ¬ (pre = ch!"x" ∧ f ≠ []) ∧ (f = [] → badDigit base (u ++ f.tail) = false)) ∨
        (pre = 0 ∨ pre = ch!"0") ∧ GoExponent bs!"eE" e ∨ pre = ch!"x" ∧ GoExponent bs!"pP" e) := by
  unfold numParts
  rw [List.append_eq_nil_iff, List.append_eq_nil_iff, exp_diags he hm]
  have hfe : (!f.isEmpty) = true ↔ f ≠ [] := by cases f <;> simp
  have hfe' : (!f.isEmpty) = false ↔ f = [] := by cases f <;> simp
  have i1 : ((if f ≠ [] ∧ (pre = ch!"o" ∨ pre = ch!"b") then [Diag.radix] else []) = []) ↔ ¬ (f ≠ [] ∧ (pre = ch!"o" ∨ pre = ch!"b")) := by
    split <;> simp_all
  have i2 : ((if pre = ch!"0" ∨ hasDigit (u ++ f.tail) = true then [] else [Diag.noDigits]) = []) ↔ (pre = ch!"0" ∨ hasDigit (u ++ f.tail) = true) := by
    split <;> simp_all
  rw [i1, i2, hfe, hfe', and_assoc]
  refine and_congr Iff.rfl (and_congr Iff.rfl ?_)
  have s0 : invalidSep (rs A) = false ↔ sepLoop hex d0 (rs w) = false ∧ (f.tail = [] ∨ GoDigits D f.tail) := by
    have := hI [] (.inl rfl)
    rw [List.append_nil, List.append_nil] at this
    rw [this, sep_frac hD hfr hfd]
  have dec : ∀ a : List Ch, (∀ c ∈ a, decimal c.r = true) → hasDigit a = true → (sepLoop hex ch!"." (rs a) = false ↔ GoDigits bs!"0123456789" a) := by
    intro a ha hda
    have hsub : ∀ r, r ∈ bs!"0123456789" → r ∈ D := by
      intro r hr
      rw [hD, (digSet_dec r).1 hr |> fun h => show isDecimal r = true by simpa using h]; simp
    rw [(sep_digits hD a fun c hc => (decimal_mem (ha c hc)).imp (hsub _) id).1]
    constructor
    · rintro (rfl | h)
      · cases hda
      · refine digits_sub h fun c hc hcD => ?_
        rcases decimal_mem (ha c hc) with h | h
        · exact h
        · exact absurd (h ▸ hcD) (not_us hD)
    · intro h; exact .inr (digits_mono hsub h)
  have s1 : ∀ x s a, e = x :: s ++ a → x.r ∈ bs!"eEpP" → (isDecimal x.r || (hex && isHex x.r)) = false → Sign s →
      (invalidSep (rs (A ++ e)) = false ↔ (sepLoop hex d0 (rs w) = false ∧ (f.tail = [] ∨ GoDigits D f.tail)) ∧ sepLoop hex ch!"." (rs a) = false) := by
    intro x s a hxe hx hxx hs
    rw [hI e (.inr rfl), show rs (w ++ f ++ e) = rs (w ++ f) ++ rs (x :: s ++ a) by rw [hxe]; simp [rs], sep_exp hx hxx hs, Bool.or_eq_false_iff,
      sep_frac hD hfr hfd]
  constructor
  · rintro (⟨rfl, h1, h2, h3⟩ | ⟨x, s, a, hxe, hx, hs, ha, hda, hsep⟩)
    · obtain ⟨h4, h5⟩ := s0.1 h3
      exact ⟨h4, h5, .inl ⟨rfl, h1, h2⟩⟩
    · have hx4 : x.r ∈ bs!"eEpP" := by
        rcases hx with ⟨h, -⟩ | ⟨h, -⟩ <;> revert h <;> simp <;> omega
      have hxx : (isDecimal x.r || (hex && isHex x.r)) = false := by
        rcases hx with ⟨h, hp⟩ | ⟨h, -⟩
        · have : hex = false := by
            cases hex with
            | false => rfl
            | true => rw [hh.1 rfl] at hp; revert hp; decide
          subst this
          have : x.r = 101 ∨ x.r = 69 := by simpa using h
          rcases this with h | h <;> rw [h] <;> rfl
        · have : x.r = 112 ∨ x.r = 80 := by simpa using h
          rcases this with h | h <;> rw [h] <;> cases hex <;> rfl
      obtain ⟨⟨h4, h5⟩, h6⟩ := (s1 x s a hxe hx4 hxx hs).1 hsep
      have h7 := (dec a ha hda).1 h6
      refine ⟨h4, h5, .inr ?_⟩
      rcases hx with ⟨h, hp⟩ | ⟨h, hp⟩
      · exact .inl ⟨hp, x, s, a, hxe, h, hs, h7⟩
      · exact .inr ⟨hp, x, s, a, hxe, h, hs, h7⟩
  · rintro ⟨h4, h5, ⟨rfl, h1, h2⟩ | hg⟩
    · exact .inl ⟨rfl, h1, h2, s0.2 ⟨h4, h5⟩⟩
    · right
      have : ∃ x s a, e = x :: s ++ a ∧ (x.r ∈ bs!"eE" ∧ (pre = 0 ∨ pre = ch!"0") ∨ x.r ∈ bs!"pP" ∧ pre = ch!"x") ∧ Sign s ∧ GoDigits bs!"0123456789" a := by
        rcases hg with ⟨hp, x, s, a, hxe, h, hs, h7⟩ | ⟨hp, x, s, a, hxe, h, hs, h7⟩
        · exact ⟨x, s, a, hxe, .inl ⟨h, hp⟩, hs, h7⟩
        · exact ⟨x, s, a, hxe, .inr ⟨h, hp⟩, hs, h7⟩
      obtain ⟨x, s, a, hxe, hx, hs, h7⟩ := this
      have hx4 : x.r ∈ bs!"eEpP" := by
        rcases hx with ⟨h, -⟩ | ⟨h, -⟩ <;> revert h <;> simp <;> omega
      have hxx : (isDecimal x.r || (hex && isHex x.r)) = false := by
        rcases hx with ⟨h, hp⟩ | ⟨h, -⟩
        · have : hex = false := by
            cases hex with
            | false => rfl
            | true => rw [hh.1 rfl] at hp; revert hp; decide
          subst this
          have : x.r = 101 ∨ x.r = 69 := by simpa using h
          rcases this with h | h <;> rw [h] <;> rfl
        · have : x.r = 112 ∨ x.r = 80 := by simpa using h
          rcases this with h | h <;> rw [h] <;> cases hex <;> rfl
      have ha : ∀ c ∈ a, decimal c.r = true := by
        intro c hc
        rcases digits_mem h7 c hc with h | h
        · have : isDecimal c.r = true := by have := (digSet_dec c.r).1 h; simpa using this
          have hh : c.r ∈ bs!"0123456789_" := by simp at h ⊢; omega
          simpa [decimal] using hh
        · rw [h]; decide
      have hda := digits_has (not_us digSet_dec) h7
      exact ⟨x, s, a, hxe, hx, hs, ha, hda, (s1 x s a hxe hx4 hxx hs).2 ⟨⟨h4, h5⟩, (dec a ha hda).2 h7⟩⟩

theorem frac_shape {p : Nat → Bool} {f rest : List Ch} (h : Fraction p f rest) : f = [] ∨ ∃ dot v, f = dot :: v ∧ dot.r = ch!"." := by
  cases h with
  | none => exact .inl rfl
  | some h => exact .inr ⟨_, _, rfl, h⟩

theorem frac_tail {p : Nat → Bool} {f rest : List Ch} (h : Fraction p f rest) : ∀ c ∈ f.tail, p c.r = true := by
  cases h with
  | none => intro c hc; cases hc
  | some _ h => exact h.1

theorem frac_us {p : Nat → Bool} {f rest : List Ch} (h : Fraction p f rest) : ∀ r ∈ rs f, r = ch!"_" → r ∈ rs f.tail := by
  cases h with
  | none => intro r hr; cases hr
  | some hd h =>
    intro r hr hu
    rcases List.mem_cons.1 hr with rfl | hr
    · rw [hd] at hu; exact absurd hu (by decide)
    · exact hr

theorem badDigit_8 {a : List Ch} (ha : ∀ c ∈ a, decimal c.r = true) : badDigit 8 a = false ↔ ∀ c ∈ a, c.r ∉ bs!"89" := by
  simp only [badDigit, show (8 : Nat) ≤ 10 from by omega, decide_true, Bool.true_and, List.any_eq_false]
  refine forall_congr' fun c => forall_congr' fun hc => ?_
  have : c.r ∈ bs!"0123456789" ∨ c.r = ch!"_" := decimal_mem (ha c hc)
  simp at this ⊢
  omega

theorem badDigit_10 {a : List Ch} (ha : ∀ c ∈ a, decimal c.r = true) : badDigit 10 a = false := by
  simp only [badDigit, show (10 : Nat) ≤ 10 from by omega, decide_true, Bool.true_and, List.any_eq_false]
  intro c hc
  have : c.r ∈ bs!"0123456789" ∨ c.r = ch!"_" := decimal_mem (ha c hc)
  simp at this ⊢
  omega

theorem badDigit_2 {a : List Ch} (ha : ∀ c ∈ a, decimal c.r = true) : badDigit 2 a = false ↔ ∀ c ∈ a, c.r ∉ bs!"23456789" := by
  simp only [badDigit, show (2 : Nat) ≤ 10 from by omega, decide_true, Bool.true_and, List.any_eq_false]
  refine forall_congr' fun c => forall_congr' fun hc => ?_
  have : c.r ∈ bs!"0123456789" ∨ c.r = ch!"_" := decimal_mem (ha c hc)
  simp at this ⊢
  omega

theorem letters_not {c : Ch} {cs : List Ch} (h : ∀ d, cs.head? = some d → d.r ∉ bs!"xXoObB") (l : Nat) (hl : l = ch!"x" ∨ l = ch!"o" ∨ l = ch!"b") :
    nextIs (lowerIs · l) cs = false := by
  rw [← Bool.not_eq_true, nextIs_not]
  intro d hd
  have := h d hd
  simp [lowerIs] at this ⊢
  rcases hl with rfl | rfl | rfl <;> omega

theorem plain_quiet {d : Ch} {a f e rest : List Ch} (hb : Begins [d] decimal (a ++ f ++ e ++ rest)) (hr : Run decimal a (f ++ e ++ rest))
    (hf : Fraction decimal f (e ++ rest)) (he : Exponent e rest) :
    numDiags [] (d :: a ++ f ++ e ++ rest) false = [] ↔ GoDigits bs!"0123456789" (d :: a) ∧ (f.tail = [] ∨ GoDigits bs!"0123456789" f.tail) ∧
      (e = [] ∨ GoExponent bs!"eE" e) ∧ (d.r = ch!"0" → f = [] → e = [] → ∀ c ∈ a, c.r ∉ bs!"89") := by
  cases hb with
  | digit hd hx =>
  have hdd : decimal d.r = true := by
    have : d.r ∈ bs!"0123456789_" := by simp at hd ⊢; omega
    simpa [decimal] using this
  have hd_ : d.r ≠ ch!"_" := by intro h; rw [h] at hd; revert hd; decide
  have hcs : d :: a ++ f ++ e ++ rest = (d :: a ++ f) ++ (e ++ rest) := by simp
  have hI : ∀ e', e' = [] ∨ e' = e → invalidSep (rs ((d :: a ++ f) ++ e')) = sepLoop false ch!"." (rs ((d :: a) ++ f ++ e')) := by
    intro e' he'
    apply invalidSep_plain
    intro z x r ht hz
    have ht' : d.r :: rs (a ++ f ++ e') = z :: x :: r := by rw [← ht]; simp [rs]
    rw [List.cons.injEq] at ht'
    obtain ⟨h1, h2⟩ := ht'
    have h3 := hx (h1.trans hz)
    cases hl : a ++ f ++ e' with
    | nil => rw [hl] at h2; cases h2
    | cons y l =>
      rw [hl] at h2
      have : y.r = x := (List.cons.inj h2).1
      rw [← this]
      refine h3 y ?_
      have : ∃ t, a ++ f ++ e ++ rest = (a ++ f ++ e') ++ t := by
        rcases he' with rfl | rfl
        · exact ⟨e ++ rest, by simp⟩
        · exact ⟨rest, rfl⟩
      obtain ⟨t, h⟩ := this
      rw [h, hl]; rfl
  have hft := frac_tail hf
  have hm : ∀ r ∈ rs (d :: a ++ f), r = ch!"_" → r ∈ rs (a ++ f.tail) := by
    intro r hr hu
    simp only [rs, List.cons_append, List.map_cons, List.map_append, List.mem_cons, List.mem_append] at hr ⊢
    rcases hr with rfl | hr | hr
    · exact absurd hu hd_
    · exact .inl hr
    · exact .inr (frac_us hf r hr hu)
  have hsd : sepLoop false ch!"." (rs (d :: a)) = false ↔ GoDigits bs!"0123456789" (d :: a) := by
    rw [(sep_digits digSet_dec (d :: a) ?_).1]
    · simp
    · intro c hc
      rcases List.mem_cons.1 hc with rfl | hc
      · exact .inl hd
      · exact decimal_mem (hr.1 c hc)
  by_cases h0 : d.r = ch!"0"
  · have hl := fun l hl => letters_not (c := d) (hx h0) l hl
    have h1 : numLetter (d :: a ++ f ++ e ++ rest) = ch!"0" := by
      show numLetter (d :: (a ++ f ++ e ++ rest)) = _
      simp only [numLetter, h0, hl ch!"x" (.inl rfl), hl ch!"o" (.inr (.inl rfl)), hl ch!"b" (.inr (.inr rfl)), if_true, Bool.false_eq_true, if_false]
    have h2 : numPrefix (d :: a ++ f ++ e ++ rest) = (8, a ++ (f ++ (e ++ rest))) := by
      show numPrefix (d :: (a ++ f ++ e ++ rest)) = _
      simp only [numPrefix, h0, hl ch!"x" (.inl rfl), hl ch!"o" (.inr (.inl rfl)), hl ch!"b" (.inr (.inr rfl)), if_true, Bool.false_eq_true, if_false]
      simp
    rw [num_split (p := decimal) (.inl ⟨by omega, rfl⟩) h1 h2 (by simpa using hr) hf hcs]
    show numParts 8 ch!"0" a f (d :: a ++ f) e rest = [] ↔ _
    rw [num_core digSet_dec he (by decide) (frac_shape hf) (fun c hc => decimal_mem (hft c hc)) hm hI, hsd]
    constructor
    · rintro ⟨-, -, h3, h4, h5⟩
      refine ⟨h3, h4, ?_, ?_⟩
      · rcases h5 with ⟨h, -⟩ | ⟨-, h⟩ | ⟨h, -⟩
        · exact .inl h
        · exact .inr h
        · exact absurd h (by decide)
      · intro _ hf0 he0
        rcases h5 with ⟨-, -, h⟩ | ⟨-, h⟩ | ⟨h, -⟩
        · have := h hf0
          rw [hf0, List.tail_nil, List.append_nil] at this
          exact (badDigit_8 hr.1).1 this
        · obtain ⟨x, s, b, h, -⟩ := h
          rw [he0] at h; cases h
        · exact absurd h (by decide)
    · rintro ⟨h3, h4, h5, h6⟩
      refine ⟨by simp, .inl rfl, h3, h4, ?_⟩
      rcases h5 with h5 | h5
      · refine .inl ⟨h5, by simp, fun h => ?_⟩
        rw [h, List.tail_nil, List.append_nil]
        exact (badDigit_8 hr.1).2 (h6 h0 h h5)
      · exact .inr (.inl ⟨.inr rfl, h5⟩)
  · have h1 : numLetter (d :: a ++ f ++ e ++ rest) = 0 := by
      show numLetter (d :: (a ++ f ++ e ++ rest)) = _
      simp only [numLetter, h0, if_false]
    have h2 : numPrefix (d :: a ++ f ++ e ++ rest) = (10, (d :: a) ++ (f ++ (e ++ rest))) := by
      show numPrefix (d :: (a ++ f ++ e ++ rest)) = _
      simp only [numPrefix, h0, if_false]
      simp
    have hr' : Run decimal (d :: a) (f ++ (e ++ rest)) := by
      refine ⟨?_, by simpa using hr.2⟩
      intro c hc
      rcases List.mem_cons.1 hc with rfl | hc
      · exact hdd
      · exact hr.1 c hc
    have hm' : ∀ r ∈ rs (d :: a ++ f), r = ch!"_" → r ∈ rs (d :: a ++ f.tail) := fun r hr hu => List.mem_cons_of_mem _ (hm r hr hu)
    have hdig : hasDigit (d :: a ++ f.tail) = true := by simp [hasDigit, hd_]
    rw [num_split (p := decimal) (.inl ⟨by omega, rfl⟩) h1 h2 hr' hf hcs]
    show numParts 10 0 (d :: a) f (d :: a ++ f) e rest = [] ↔ _
    rw [num_core digSet_dec he (by decide) (frac_shape hf) (fun c hc => decimal_mem (hft c hc)) hm' hI, hsd]
    constructor
    · rintro ⟨-, -, h3, h4, h5⟩
      refine ⟨h3, h4, ?_, fun h => absurd h h0⟩
      rcases h5 with ⟨h, -⟩ | ⟨-, h⟩ | ⟨h, -⟩
      · exact .inl h
      · exact .inr h
      · exact absurd h (by decide)
    · rintro ⟨h3, h4, h5, -⟩
      refine ⟨by simp, .inr hdig, h3, h4, ?_⟩
      rcases h5 with h5 | h5
      · refine .inl ⟨h5, by simp, fun h => badDigit_10 ?_⟩
        intro c hc
        rcases List.mem_append.1 hc with hc | hc
        · exact hr'.1 c hc
        · exact hft c hc
      · exact .inr (.inl ⟨.inl rfl, h5⟩)

/-- after a base prefix -/
theorem prefix_core {hex : Bool} {D : GoString} (hD : DigSet hex D) {z x : Ch} {a f e rest : List Ch} {base pre : Nat} {p : Nat → Bool}
    (hp : base ≤ 10 ∧ p = decimal ∨ base = 16 ∧ p = hexadecimal) (hz : z.r = ch!"0") (hx : lowerIs x.r pre = true)
    (hpre : pre = ch!"x" ∨ pre = ch!"o" ∨ pre = ch!"b") (hbase : numPrefix (z :: x :: (a ++ (f ++ (e ++ rest)))) = (base, a ++ (f ++ (e ++ rest))))
    (hlet : numLetter (z :: x :: (a ++ (f ++ (e ++ rest)))) = pre)
    (hpD : ∀ r, p r = true → r ∈ D ∨ r = ch!"_") (hh : hex = true ↔ pre = ch!"x") (hr : Run p a (f ++ e ++ rest)) (hf : Fraction p f (e ++ rest)) (he : Exponent e rest) :
    numDiags [] (z :: x :: a ++ f ++ e ++ rest) false = [] ↔ ¬ (f ≠ [] ∧ (pre = ch!"o" ∨ pre = ch!"b")) ∧ hasDigit (a ++ f.tail) = true ∧
      (a = [] ∨ GoDigits1 D a) ∧ (f.tail = [] ∨ GoDigits D f.tail) ∧
      ((e = [] ∧ ¬ (pre = ch!"x" ∧ f ≠ []) ∧ (f = [] → badDigit base (a ++ f.tail) = false)) ∨ pre = ch!"x" ∧ GoExponent bs!"pP" e) := by
  have hcs : z :: x :: a ++ f ++ e ++ rest = (z :: x :: a ++ f) ++ (e ++ rest) := by simp
  have hcs' : z :: x :: a ++ f ++ e ++ rest = z :: x :: (a ++ (f ++ (e ++ rest))) := by simp
  rw [← hcs'] at hbase hlet
  have hx' : (lowerIs x.r ch!"x" || lowerIs x.r ch!"o" || lowerIs x.r ch!"b") = true ∧ lowerIs x.r ch!"x" = hex := by
    have : hex = decide (pre = ch!"x") := by cases hex <;> simp_all
    rw [this]
    rcases hpre with rfl | rfl | rfl <;> simp [lowerIs] at hx ⊢ <;> rcases hx with h | h <;> rw [h] <;> decide
  have hI : ∀ e', e' = [] ∨ e' = e → invalidSep (rs ((z :: x :: a ++ f) ++ e')) = sepLoop hex ch!"0" (rs (a ++ f ++ e')) := by
    intro e' _
    show invalidSep (z.r :: x.r :: rs (a ++ f ++ e')) = _
    simp only [invalidSep]
    rw [if_pos ⟨hz, hx'.1⟩, hx'.2]
  have hft := frac_tail hf
  have hm : ∀ r ∈ rs (z :: x :: a ++ f), r = ch!"_" → r ∈ rs (a ++ f.tail) := by
    intro r hr hu
    simp only [rs, List.cons_append, List.map_cons, List.map_append, List.mem_cons, List.mem_append] at hr ⊢
    rcases hr with rfl | rfl | hr | hr
    · rw [hz] at hu; exact absurd hu (by decide)
    · exfalso
      rw [hu] at hx
      rcases hpre with rfl | rfl | rfl <;> revert hx <;> decide
    · exact .inl hr
    · exact .inr (frac_us hf r hr hu)
  rw [num_split hp hlet hbase (by simpa using hr) hf hcs]
  show numParts base pre a f (z :: x :: a ++ f) e rest = [] ↔ _
  rw [num_core hD he hh (frac_shape hf) (fun c hc => hpD _ (hft c hc)) hm hI, (sep_digits hD a fun c hc => hpD _ (hr.1 c hc)).2.1]
  have n0 : ¬ pre = ch!"0" := by rcases hpre with rfl | rfl | rfl <;> decide
  have n1 : ¬ pre = 0 := by rcases hpre with rfl | rfl | rfl <;> decide
  simp only [n0, n1, false_or, or_false, false_and]

theorem digits1_sub {D D' : GoString} {a : List Ch} (ha : GoDigits1 D a) (h : ∀ c ∈ a, c.r ∈ D → c.r ∈ D') : GoDigits1 D' a := by
  rcases ha with h' | ⟨u, b, rfl, hu, h'⟩
  · exact .inl (digits_sub h' h)
  · exact .inr ⟨u, b, rfl, hu, digits_sub h' fun c hc => h c (List.mem_cons_of_mem _ hc)⟩

theorem digits1_mem {D : GoString} {a : List Ch} (ha : GoDigits1 D a) : ∀ c ∈ a, c.r ∈ D ∨ c.r = ch!"_" := by
  rcases ha with h' | ⟨u, b, rfl, hu, h'⟩
  · exact digits_mem h'
  · intro c hc
    rcases List.mem_cons.1 hc with rfl | hc
    · exact .inr hu
    · exact digits_mem h' c hc

theorem digits1_has {D : GoString} (hD : ch!"_" ∉ D) {a : List Ch} (h : GoDigits1 D a) : hasDigit a = true := by
  rcases h with h' | ⟨u, b, rfl, hu, h'⟩
  · exact digits_has hD h'
  · have := digits_has hD h'
    simp only [hasDigit, List.any_cons] at this ⊢
    rw [this]; simp

theorem octal_quiet {z o : Ch} {a f e rest : List Ch} (hz : z.r = ch!"0") (ho : o.r ∈ bs!"oO") (hr : Run decimal a (f ++ e ++ rest))
    (hf : Fraction decimal f (e ++ rest)) (he : Exponent e rest) :
    numDiags [] (z :: o :: a ++ f ++ e ++ rest) false = [] ↔ f = [] ∧ e = [] ∧ GoDigits1 bs!"01234567" a := by
  have h2 : o.r = 111 ∨ o.r = 79 := by simpa using ho
  have hl : lowerIs o.r ch!"x" = false ∧ lowerIs o.r ch!"o" = true := by rcases h2 with h | h <;> rw [h] <;> decide
  rw [prefix_core (hex := false) (base := 8) (pre := ch!"o") digSet_dec (.inl ⟨by omega, rfl⟩) hz hl.2 (.inr (.inl rfl))
    (by simp [numPrefix, hz, nextIs, hl]) (by simp [numLetter, hz, nextIs, hl]) (fun r h => decimal_mem h) (by decide) hr hf he]
  constructor
  · rintro ⟨h1, h3, h4, -, h5⟩
    have f0 : f = [] := by
      cases f with
      | nil => rfl
      | cons => exact absurd ⟨by simp, .inl rfl⟩ h1
    subst f0
    rcases h5 with ⟨rfl, -, h5⟩ | ⟨h, -⟩
    · refine ⟨rfl, rfl, ?_⟩
      have h6 := h5 rfl
      rw [List.tail_nil, List.append_nil] at h6 h3
      rcases h4 with rfl | h4
      · cases h3
      · refine digits1_sub h4 fun c hc hcD => ?_
        have := (badDigit_8 hr.1).1 h6 c hc
        simp at hcD this ⊢
        omega
    · exact absurd h (by decide)
  · rintro ⟨rfl, rfl, h⟩
    have hD : ∀ c ∈ a, c.r ∈ bs!"01234567" → c.r ∈ bs!"0123456789" := by
      intro c _ h; simp at h ⊢; omega
    refine ⟨by simp, ?_, .inr (digits1_sub h hD), .inl rfl, .inl ⟨rfl, by decide, fun _ => ?_⟩⟩
    · rw [List.tail_nil, List.append_nil]; exact digits1_has (by decide) h
    · rw [List.tail_nil, List.append_nil, badDigit_8 hr.1]
      intro c hc
      rcases digits1_mem h c hc with h | h
      · simp at h ⊢; omega
      · rw [h]; decide

theorem binary_quiet {z o : Ch} {a f e rest : List Ch} (hz : z.r = ch!"0") (ho : o.r ∈ bs!"bB") (hr : Run decimal a (f ++ e ++ rest))
    (hf : Fraction decimal f (e ++ rest)) (he : Exponent e rest) :
    numDiags [] (z :: o :: a ++ f ++ e ++ rest) false = [] ↔ f = [] ∧ e = [] ∧ GoDigits1 bs!"01" a := by
  have h2 : o.r = 98 ∨ o.r = 66 := by simpa using ho
  have hl : lowerIs o.r ch!"x" = false ∧ lowerIs o.r ch!"o" = false ∧ lowerIs o.r ch!"b" = true := by rcases h2 with h | h <;> rw [h] <;> decide
  rw [prefix_core (hex := false) (base := 2) (pre := ch!"b") digSet_dec (.inl ⟨by omega, rfl⟩) hz hl.2.2 (.inr (.inr rfl))
    (by simp [numPrefix, hz, nextIs, hl]) (by simp [numLetter, hz, nextIs, hl]) (fun r h => decimal_mem h) (by decide) hr hf he]
  constructor
  · rintro ⟨h1, h3, h4, -, h5⟩
    have f0 : f = [] := by
      cases f with
      | nil => rfl
      | cons => exact absurd ⟨by simp, .inr rfl⟩ h1
    subst f0
    rcases h5 with ⟨rfl, -, h5⟩ | ⟨h, -⟩
    · refine ⟨rfl, rfl, ?_⟩
      have h6 := h5 rfl
      rw [List.tail_nil, List.append_nil] at h6 h3
      rcases h4 with rfl | h4
      · cases h3
      · refine digits1_sub h4 fun c hc hcD => ?_
        have := (badDigit_2 hr.1).1 h6 c hc
        simp at hcD this ⊢
        omega
    · exact absurd h (by decide)
  · rintro ⟨rfl, rfl, h⟩
    have hD : ∀ c ∈ a, c.r ∈ bs!"01" → c.r ∈ bs!"0123456789" := by
      intro c _ h; simp at h ⊢; omega
    refine ⟨by simp, ?_, .inr (digits1_sub h hD), .inl rfl, .inl ⟨rfl, by decide, fun _ => ?_⟩⟩
    · rw [List.tail_nil, List.append_nil]; exact digits1_has (by decide) h
    · rw [List.tail_nil, List.append_nil, badDigit_2 hr.1]
      intro c hc
      rcases digits1_mem h c hc with h | h
      · simp at h ⊢; omega
      · rw [h]; decide

theorem hex_quiet {z x : Ch} {a f e rest : List Ch} (hz : z.r = ch!"0") (hx : x.r ∈ bs!"xX") (hr : Run hexadecimal a (f ++ e ++ rest))
    (hf : Fraction hexadecimal f (e ++ rest)) (he : Exponent e rest) :
    numDiags [] (z :: x :: a ++ f ++ e ++ rest) false = [] ↔ (f = [] ∧ e = [] ∧ GoDigits1 bs!"0123456789abcdefABCDEF" a) ∨
      GoExponent bs!"pP" e ∧ (GoDigits1 bs!"0123456789abcdefABCDEF" a ∨ a = [] ∧ f.tail ≠ []) ∧ (f.tail = [] ∨ GoDigits bs!"0123456789abcdefABCDEF" f.tail) := by
  have h2 : x.r = 120 ∨ x.r = 88 := by simpa using hx
  have hl : lowerIs x.r ch!"x" = true := by rcases h2 with h | h <;> rw [h] <;> decide
  rw [prefix_core (hex := true) (base := 16) (pre := ch!"x") digSet_hex (.inr ⟨rfl, rfl⟩) hz hl (.inl rfl)
    (by simp [numPrefix, hz, nextIs, hl]) (by simp [numLetter, hz, nextIs, hl]) (fun r h => hexadecimal_mem h) (by decide) hr hf he]
  have hD : ch!"_" ∉ bs!"0123456789abcdefABCDEF" := by decide
  constructor
  · rintro ⟨-, h3, h4, h5, ⟨rfl, h6, -⟩ | ⟨-, h6⟩⟩
    · have f0 : f = [] := by
        cases f with
        | nil => rfl
        | cons => exact absurd ⟨rfl, by simp⟩ h6
      subst f0
      rw [List.tail_nil, List.append_nil] at h3
      rcases h4 with rfl | h4
      · cases h3
      · exact .inl ⟨rfl, rfl, h4⟩
    · refine .inr ⟨h6, ?_, h5⟩
      rcases h4 with rfl | h4
      · refine .inr ⟨rfl, fun h => ?_⟩
        rw [h] at h3; cases h3
      · exact .inl h4
  · rintro (⟨rfl, rfl, h⟩ | ⟨h6, h4, h5⟩)
    · refine ⟨by simp, ?_, .inr h, .inl rfl, .inl ⟨rfl, by simp, fun _ => rfl⟩⟩
      rw [List.tail_nil, List.append_nil]; exact digits1_has hD h
    · refine ⟨by simp, ?_, ?_, h5, .inr ⟨rfl, h6⟩⟩
      · rcases h4 with h4 | ⟨rfl, h4⟩
        · have := digits1_has hD h4
          simp only [hasDigit, List.any_append] at this ⊢
          rw [this]; rfl
        · rcases h5 with h5 | h5
          · exact absurd h5 h4
          · exact digits_has hD h5
      · rcases h4 with h4 | ⟨h4, -⟩
        · exact .inr h4
        · exact .inl h4

theorem dot_quiet {dot d : Ch} {a e rest : List Ch} (hdot : dot.r = ch!".") (hd : d.r ∈ bs!"0123456789") (hr : Run decimal a (e ++ rest)) (he : Exponent e rest) :
    numDiags [dot] (d :: a ++ e ++ rest) true = [] ↔ GoDigits bs!"0123456789" (d :: a) ∧ (e = [] ∨ GoExponent bs!"eE" e) := by
  have hdd : decimal d.r = true := by
    have : d.r ∈ bs!"0123456789_" := by simp at hd ⊢; omega
    simpa [decimal] using this
  have hd_ : d.r ≠ ch!"_" := by intro h; rw [h] at hd; revert hd; decide
  have hr' : Run decimal (d :: a) (e ++ rest) := by
    refine ⟨?_, hr.2⟩
    intro c hc
    rcases List.mem_cons.1 hc with rfl | hc
    · exact hdd
    · exact hr.1 c hc
  have hdig : hasDigit (d :: a) = true := by simp [hasDigit, hd_]
  have hsplit := num_split_dot (lead := [dot]) hr'
  have hparts : numDiags [dot] (d :: a ++ e ++ rest) true = numParts 10 0 [] (dot :: d :: a) (dot :: d :: a) e rest := by
    rw [List.append_assoc, hsplit]
    simp [numParts, hdig]
  have hI : ∀ e', e' = [] ∨ e' = e → invalidSep (rs ((dot :: d :: a) ++ e')) = sepLoop false ch!"." (rs ([] ++ (dot :: d :: a) ++ e')) := by
    intro e' _
    apply invalidSep_plain
    intro z x r ht hz
    have : dot.r = z := (List.cons.inj ht).1
    rw [hdot, hz] at this
    exact absurd this (by decide)
  rw [hparts, num_core digSet_dec (w := []) he (by decide) (.inr ⟨dot, d :: a, rfl, hdot⟩) (fun c hc => decimal_mem (hr'.1 c hc)) ?_ hI]
  · constructor
    · rintro ⟨-, -, -, h4, h5⟩
      refine ⟨?_, ?_⟩
      · rcases h4 with h4 | h4
        · cases h4
        · exact h4
      · rcases h5 with ⟨h, -⟩ | ⟨-, h⟩ | ⟨h, -⟩
        · exact .inl h
        · exact .inr h
        · exact absurd h (by decide)
    · rintro ⟨h4, h5⟩
      refine ⟨by simp, .inr hdig, by simp [rs, sepLoop], .inr h4, ?_⟩
      rcases h5 with h5 | h5
      · exact .inl ⟨h5, by simp, by simp⟩
      · exact .inr (.inl ⟨.inl rfl, h5⟩)
  · intro r hr hu
    rcases List.mem_cons.1 hr with rfl | hr
    · rw [hdot] at hu; exact absurd hu (by decide)
    · exact hr

/-- Nothing is printed about a number exactly if it is one of Go. -/
theorem number_quiet {U : Nat → Bool} {c : Ch} {mid rest : List Ch} (h : Number (c :: mid) rest) (hl : isLetter U c.r = false) :
    restDiags U c (mid ++ rest) = [] ↔ GoNumber (c :: mid) rest := by
  have hdiag : isDecimal c.r = true → restDiags U c (mid ++ rest) = numDiags [] (c :: mid ++ rest) false := by
    intro hd
    simp [restDiags, hl, hd]
  have hmem : ∀ {d : Ch}, isDecimal d.r = true ↔ d.r ∈ bs!"0123456789" := by
    intro d
    rw [digSet_dec]; simp
  constructor
  · intro hq
    generalize hA : c :: mid = A at h
    cases h with
    | @mk start p a f e _ hb hr hf he =>
      cases hb with
      | @hex z x _ hz hx =>
        have hc : c = z := (List.cons.inj hA).1
        subst hc
        rw [hdiag (by rw [hz]; rfl), hA] at hq
        replace hq : numDiags [] (c :: x :: a ++ f ++ e ++ rest) false = [] := by simpa using hq
        rcases (hex_quiet hz hx hr hf he).1 hq with ⟨rfl, rfl, h⟩ | ⟨h1, h2, h3⟩
        · simpa using GoNumber.hex hz hx (by simpa using hr) (by simpa using hf) he h
        · exact .hexFloat hz hx hr hf he h1 h2 h3
      | @other z x _ hz hx =>
        have hc : c = z := (List.cons.inj hA).1
        subst hc
        rw [hdiag (by rw [hz]; rfl), hA] at hq
        replace hq : numDiags [] (c :: x :: a ++ f ++ e ++ rest) false = [] := by simpa using hq
        have : x.r ∈ bs!"oO" ∨ x.r ∈ bs!"bB" := by simp at hx ⊢; omega
        rcases this with hx | hx
        · obtain ⟨rfl, rfl, h⟩ := (octal_quiet hz hx hr hf he).1 hq
          simpa using GoNumber.octal hz hx (by simpa using hr) (by simpa using hf) he h
        · obtain ⟨rfl, rfl, h⟩ := (binary_quiet hz hx hr hf he).1 hq
          simpa using GoNumber.binary hz hx (by simpa using hr) (by simpa using hf) he h
      | @digit d _ hd hx =>
        have hc : c = d := (List.cons.inj hA).1
        subst hc
        rw [hdiag (hmem.2 hd), hA, List.cons_append, List.nil_append] at hq
        obtain ⟨h1, h2, h3, h4⟩ := (plain_quiet (.digit hd hx) hr hf he).1 hq
        exact .plain (.digit hd hx) hr hf he h1 h2 h3 h4
    | @dot dt d a e _ hdot hd hr he =>
      obtain ⟨rfl, hmid⟩ := List.cons.inj hA
      have hm2 : mid ++ rest = d :: a ++ e ++ rest := by rw [hmid]; rfl
      have : restDiags U c (mid ++ rest) = numDiags [c] (mid ++ rest) true := by
        have hn : nextIs isDecimal (mid ++ rest) = true := by rw [hm2]; exact hmem.2 hd
        have h1 : isDecimal c.r = false := by rw [hdot]; rfl
        have h2 : ¬ c.r = ch!"\"" := by rw [hdot]; decide
        rw [restDiags, if_neg (by simp [hl]), if_neg (by simp [h1]), if_neg h2, if_pos hdot, if_pos hn]
      rw [this, hm2] at hq
      obtain ⟨h1, h2⟩ := (dot_quiet hdot hd hr he).1 hq
      exact .dot hdot hd hr he h1 h2
  · intro hg
    clear h
    generalize hA : c :: mid = A at hg
    cases hg with
    | @plain d a f e _ hb hr hf he h1 h2 h3 h4 =>
      have hc : c = d := (List.cons.inj hA).1
      subst hc
      have hd : c.r ∈ bs!"0123456789" := by cases hb with | digit h => exact h
      rw [hdiag (hmem.2 hd), hA]
      exact (plain_quiet hb hr hf he).2 ⟨h1, h2, h3, h4⟩
    | @dot dt d a e _ hdot hd hr he h1 h2 =>
      obtain ⟨rfl, hmid⟩ := List.cons.inj hA
      have hm2 : mid ++ rest = d :: a ++ e ++ rest := by rw [hmid]; rfl
      have : restDiags U c (mid ++ rest) = numDiags [c] (mid ++ rest) true := by
        have hn : nextIs isDecimal (mid ++ rest) = true := by rw [hm2]; exact hmem.2 hd
        have h1 : isDecimal c.r = false := by rw [hdot]; rfl
        have h2 : ¬ c.r = ch!"\"" := by rw [hdot]; decide
        rw [restDiags, if_neg (by simp [hl]), if_neg (by simp [h1]), if_neg h2, if_pos hdot, if_pos hn]
      rw [this, hm2]
      exact (dot_quiet hdot hd hr he).2 ⟨h1, h2⟩
    | @octal z o a _ hz hx hr hf he h =>
      have hc : c = z := (List.cons.inj hA).1
      subst hc
      rw [hdiag (by rw [hz]; rfl), hA]
      have := (octal_quiet (f := []) (e := []) hz hx (by simpa using hr) (by simpa using hf) he).2 ⟨rfl, rfl, h⟩
      simpa using this
    | @binary z o a _ hz hx hr hf he h =>
      have hc : c = z := (List.cons.inj hA).1
      subst hc
      rw [hdiag (by rw [hz]; rfl), hA]
      have := (binary_quiet (f := []) (e := []) hz hx (by simpa using hr) (by simpa using hf) he).2 ⟨rfl, rfl, h⟩
      simpa using this
    | @hex z o a _ hz hx hr hf he h =>
      have hc : c = z := (List.cons.inj hA).1
      subst hc
      rw [hdiag (by rw [hz]; rfl), hA]
      have := (hex_quiet (f := []) (e := []) hz hx (by simpa using hr) (by simpa using hf) he).2 (.inl ⟨rfl, rfl, h⟩)
      simpa using this
    | @hexFloat z o a f e _ hz hx hr hf he h1 h2 h3 =>
      have hc : c = z := (List.cons.inj hA).1
      subst hc
      rw [hdiag (by rw [hz]; rfl), hA]
      exact (hex_quiet hz hx hr hf he).2 (.inr ⟨h1, h2, h3⟩)

end Verif
