import Verif.Lemmas.Source
import Verif.Spec.Grammar
/-! # Lexemes: what the scanner reads is what `Spec/Grammar` says -/

namespace Verif
open Spec

/-! ## Numbers -/

theorem decimal_eq (r : Nat) : (isDecimal r || r == ch!"_") = decimal r := by
  rw [Bool.eq_iff_iff]
  simp [isDecimal, decimal]
  omega

theorem hexadecimal_eq (r : Nat) : (isHex r || r == ch!"_") = hexadecimal r := by
  rw [Bool.eq_iff_iff]
  simp [isHex, isDecimal, hexadecimal]
  omega

theorem digit_iff (r : Nat) : isDecimal r = true ↔ r ∈ bs!"0123456789" := by
  simp [isDecimal]
  omega

theorem digits_eq (base : Nat) (cs : List Ch) :
    digits base cs = cs.dropWhile fun c => (if base ≤ 10 then decimal else hexadecimal) c.r := by
  unfold digits
  congr 1
  funext c
  split
  · exact decimal_eq c.r
  · exact hexadecimal_eq c.r

theorem run_drop (p : Nat → Bool) (cs : List Ch) : ∃ a, cs = a ++ (cs.dropWhile fun c => p c.r) ∧ Run p a (cs.dropWhile fun c => p c.r) := by
  refine ⟨cs.takeWhile fun c => p c.r, (List.takeWhile_append_dropWhile).symm, fun c hc => List.all_eq_true.1 (List.all_takeWhile (p := fun c : Ch => p c.r)) c hc, fun c hc => ?_⟩
  have := List.head?_dropWhile_not (fun c : Ch => p c.r) cs
  rw [hc] at this
  simpa using this

theorem run_rest {p : Nat → Bool} {a rest : List Ch} (h : Run p a rest) : ((a ++ rest).dropWhile fun c => p c.r) = rest := by
  induction a with
  | nil =>
    cases rest with
    | nil => rfl
    | cons c rest =>
      have := h.2 c rfl
      simp [this]
  | cons c a ih =>
    have hc := h.1 c (by simp)
    simp only [List.cons_append, List.dropWhile_cons, hc, if_true]
    exact ih ⟨fun d hd => h.1 d (by simp [hd]), h.2⟩

theorem run_unique {p : Nat → Bool} {a rest a' rest' : List Ch} (h : Run p a rest) (h' : Run p a' rest') (e : a ++ rest = a' ++ rest') :
    a = a' ∧ rest = rest' := by
  have hr : rest = rest' := by rw [← run_rest h, e, run_rest h']
  subst hr
  exact ⟨List.append_cancel_right e, rfl⟩

theorem nextIs_iff {p : Nat → Bool} {cs : List Ch} : nextIs p cs = true ↔ ∃ c r, cs = c :: r ∧ p c.r = true := by
  cases cs with
  | nil => simp [nextIs]
  | cons c r => simp [nextIs]

theorem nextIs_not {p : Nat → Bool} {cs : List Ch} : ¬ nextIs p cs = true ↔ ∀ c, cs.head? = some c → p c.r = false := by
  cases cs with
  | nil => simp [nextIs]
  | cons c r => simp [nextIs]

theorem expChar (r : Nat) : (lowerIs r ch!"e" || lowerIs r ch!"p") = true ↔ r ∈ bs!"eEpP" := by
  simp [lowerIs]
  omega

theorem signChar (r : Nat) : (r == ch!"+" || r == ch!"-") = true ↔ r ∈ bs!"+-" := by
  simp

theorem exponent_lex (cs : List Ch) : ∃ e, cs = e ++ (numExponent cs).2 ∧ Exponent e (numExponent cs).2 := by
  unfold numExponent
  split
  · next h =>
    obtain ⟨c, r, rfl, hc⟩ := nextIs_iff.1 h
    rw [expChar] at hc
    dsimp only [List.tail_cons]
    split
    · next h =>
      obtain ⟨s, r, rfl, hs⟩ := nextIs_iff.1 h
      rw [signChar] at hs
      dsimp only [List.tail_cons]
      rw [digits_eq, if_pos (by omega)]
      obtain ⟨a, ha, hr⟩ := run_drop decimal r
      refine ⟨c :: s :: a, by rw [List.cons_append, List.cons_append, ← ha], .signed hc hs hr⟩
    · next h =>
      rw [nextIs_not] at h
      rw [digits_eq, if_pos (by omega)]
      obtain ⟨a, ha, hr⟩ := run_drop decimal r
      refine ⟨c :: a, by rw [List.cons_append, ← ha], .some hc (fun d hd => ?_) hr⟩
      rw [← ha] at hd
      have := h d hd
      rw [← signChar]
      simpa using this
  · next h =>
    rw [nextIs_not] at h
    refine ⟨[], rfl, .none fun c hc => ?_⟩
    have := h c hc
    rw [← expChar]
    simpa using this

theorem prefixChar (r : Nat) : (lowerIs r ch!"x" = true ↔ r ∈ bs!"xX") ∧ (lowerIs r ch!"o" = true ↔ r ∈ bs!"oO") ∧ (lowerIs r ch!"b" = true ↔ r ∈ bs!"bB") := by
  refine ⟨?_, ?_, ?_⟩ <;> (simp [lowerIs]; try omega)

/-- How the beginning of a number is read. -/
theorem begins_lex (c : Ch) (cs : List Ch) (hd : isDecimal c.r = true) : ∃ start p cs0, c :: cs = start ++ cs0 ∧ Begins start p cs0 ∧
    digits (numPrefix (c :: cs)).1 (numPrefix (c :: cs)).2 = (cs0.dropWhile fun c => p c.r) ∧
    ∀ l, digits (numPrefix (c :: cs)).1 l = l.dropWhile fun c => p c.r := by
  have hdig := (digit_iff c.r).1 hd
  unfold numPrefix
  dsimp only
  split
  · next h0 =>
    split
    · next h =>
      obtain ⟨x, r, rfl, hx⟩ := nextIs_iff.1 h
      rw [(prefixChar _).1] at hx
      exact ⟨[c, x], hexadecimal, r, rfl, .hex h0 hx, by rw [digits_eq]; rfl, fun l => by rw [digits_eq]; rfl⟩
    split
    · next _ h =>
      obtain ⟨x, r, rfl, hx⟩ := nextIs_iff.1 h
      rw [(prefixChar _).2.1] at hx
      refine ⟨[c, x], decimal, r, rfl, .other h0 ?_, by rw [digits_eq]; rfl, fun l => by rw [digits_eq]; rfl⟩
      revert hx; simp; omega
    split
    · next _ _ h =>
      obtain ⟨x, r, rfl, hx⟩ := nextIs_iff.1 h
      rw [(prefixChar _).2.2] at hx
      refine ⟨[c, x], decimal, r, rfl, .other h0 ?_, by rw [digits_eq]; rfl, fun l => by rw [digits_eq]; rfl⟩
      revert hx; simp; omega
    · next h1 h2 h3 =>
      rw [nextIs_not] at h1 h2 h3
      refine ⟨[c], decimal, cs, rfl, .digit hdig fun _ d hd' => ?_, by rw [digits_eq]; rfl, fun l => by rw [digits_eq]; rfl⟩
      have e1 := h1 d hd'
      have e2 := h2 d hd'
      have e3 := h3 d hd'
      rw [← Bool.not_eq_true, (prefixChar _).1] at e1
      rw [← Bool.not_eq_true, (prefixChar _).2.1] at e2
      rw [← Bool.not_eq_true, (prefixChar _).2.2] at e3
      intro hm
      revert e1 e2 e3 hm
      simp
      omega
  · next h0 =>
    refine ⟨[c], decimal, cs, rfl, .digit hdig fun h => absurd h h0, ?_, fun l => by rw [digits_eq]; rfl⟩
    rw [digits_eq]
    have : decimal c.r = true := by rw [← decimal_eq, hd]; rfl
    show List.dropWhile (fun c => decimal c.r) (c :: cs) = _
    rw [List.dropWhile_cons, if_pos this]

theorem begins_ne {a p rest} (h : Begins a p rest) : a ≠ [] := by cases h <;> simp

theorem number_ne {a rest : List Ch} (h : Number a rest) : a ≠ [] := by
  cases h with
  | mk hb => have := begins_ne hb; simp [this]
  | dot => simp

theorem number_lex (c : Ch) (cs : List Ch) (hd : isDecimal c.r = true) :
    ∃ a, cs = a ++ (scanNumber (c :: cs) false).2 ∧ Number (c :: a) (scanNumber (c :: cs) false).2 := by
  obtain ⟨start, p, cs0, h1, h2, h3, h4⟩ := begins_lex c cs hd
  suffices ∃ a, c :: cs = a ++ (scanNumber (c :: cs) false).2 ∧ Number a (scanNumber (c :: cs) false).2 by
    obtain ⟨a, ha, hn⟩ := this
    obtain ⟨c', a', rfl⟩ := List.exists_cons_of_ne_nil (number_ne hn)
    injection ha with h h'
    subst h
    exact ⟨a', h', hn⟩
  have key : ∀ (cs1 f : List Ch), (cs0.dropWhile fun c => p c.r) = f ++ cs1 → Fraction p f cs1 →
      ∃ a, c :: cs = a ++ (numExponent cs1).2 ∧ Number a (numExponent cs1).2 := by
    intro cs1 f hf hF
    obtain ⟨a, ha, hr⟩ := run_drop p cs0
    obtain ⟨e, he, hE⟩ := exponent_lex cs1
    refine ⟨start ++ a ++ f ++ e, ?_, .mk (p := p) ?_ ?_ ?_ hE⟩
    · rw [h1, List.append_assoc _ e, ← he, List.append_assoc, ← hf, List.append_assoc, ← ha]
    · rw [List.append_assoc _ e, ← he, List.append_assoc, ← hf, ← ha]; exact h2
    · rw [List.append_assoc, ← he, ← hf]; exact hr
    · rw [← he]; exact hF
  unfold scanNumber
  simp only [Bool.false_eq_true, if_false]
  rw [h3]
  split
  · next h =>
    obtain ⟨d, r, hdr, hdot⟩ := nextIs_iff.1 h
    simp only [if_true]
    rw [hdr, List.tail_cons, h4]
    obtain ⟨a, ha, hr⟩ := run_drop p r
    refine key _ (d :: a) (by rw [hdr, List.cons_append, ← ha]) (.some (by simpa using hdot) hr)
  · next h =>
    rw [nextIs_not] at h
    simp only [Bool.false_eq_true, if_false]
    refine key _ [] rfl (.none fun c hc => ?_)
    simpa using h c hc

theorem number_dot_lex (dot d : Ch) (cs : List Ch) (hdot : dot.r = ch!".") (hd : isDecimal d.r = true) :
    ∃ a, d :: cs = a ++ (scanNumber (d :: cs) true).2 ∧ Number (dot :: a) (scanNumber (d :: cs) true).2 := by
  unfold scanNumber
  simp only [if_true]
  have hdec : decimal d.r = true := by rw [← decimal_eq, hd]; rfl
  have : digits 10 (d :: cs) = cs.dropWhile fun c => decimal c.r := by
    rw [digits_eq]
    show List.dropWhile (fun c => decimal c.r) (d :: cs) = _
    rw [List.dropWhile_cons, if_pos hdec]
  rw [this]
  obtain ⟨a, ha, hr⟩ := run_drop decimal cs
  obtain ⟨e, he, hE⟩ := exponent_lex (cs.dropWhile fun c => decimal c.r)
  refine ⟨d :: a ++ e, ?_, .dot hdot ((digit_iff _).1 hd) (by rw [← he]; exact hr) hE⟩
  rw [List.cons_append, List.cons_append, List.append_assoc, ← he, ← ha]

/-! ### A number can be read in one way only -/

theorem cons_split {c c' : Ch} {a r a' r' : List Ch} (e : (c :: a) ++ r = (c' :: a') ++ r') : c = c' ∧ a ++ r = a' ++ r' := List.cons.inj e

theorem exponent_unique {a rest a' rest' : List Ch} (h : Exponent a rest) (h' : Exponent a' rest') (e : a ++ rest = a' ++ rest') :
    a = a' ∧ rest = rest' := by
  cases h with
  | none h =>
    cases h' with
    | none => exact ⟨rfl, e⟩
    | @some _ _ _ hc => exact absurd hc (h _ (by rw [← List.nil_append rest, e]; rfl))
    | signed hc => exact absurd hc (h _ (by rw [← List.nil_append rest, e]; rfl))
  | some hc hn hr =>
    cases h' with
    | none h => exact absurd hc (h _ (by rw [← List.nil_append rest', ← e]; rfl))
    | some hc' hn' hr' =>
      obtain ⟨e1, e2⟩ := cons_split e
      obtain ⟨rfl, rfl⟩ := run_unique hr hr' e2
      exact ⟨by rw [e1], rfl⟩
    | signed hc' hs' hr' =>
      obtain ⟨e1, e2⟩ := cons_split e
      exact absurd hs' (hn _ (by rw [e2]; rfl))
  | signed hc hs hr =>
    cases h' with
    | none h => exact absurd hc (h _ (by rw [← List.nil_append rest', ← e]; rfl))
    | some hc' hn' hr' =>
      obtain ⟨e1, e2⟩ := cons_split e
      exact absurd hs (hn' _ (by rw [← e2]; rfl))
    | signed hc' hs' hr' =>
      obtain ⟨e1, e0⟩ := cons_split e
      obtain ⟨e2, e3⟩ := cons_split e0
      obtain ⟨rfl, rfl⟩ := run_unique hr hr' e3
      exact ⟨by rw [e1, e2], rfl⟩

theorem fraction_unique {p : Nat → Bool} {a rest a' rest' : List Ch} (h : Fraction p a rest) (h' : Fraction p a' rest') (e : a ++ rest = a' ++ rest') :
    a = a' ∧ rest = rest' := by
  cases h with
  | none h =>
    cases h' with
    | none => exact ⟨rfl, e⟩
    | some hc => exact absurd hc (h _ (by rw [← List.nil_append rest, e]; rfl))
  | some hc hr =>
    cases h' with
    | none h => exact absurd hc (h _ (by rw [← List.nil_append rest', ← e]; rfl))
    | some hc' hr' =>
      obtain ⟨e1, e2⟩ := cons_split e
      obtain ⟨rfl, rfl⟩ := run_unique hr hr' e2
      exact ⟨by rw [e1], rfl⟩

theorem begins_unique {p p' : Nat → Bool} {a rest a' rest' : List Ch} (h : Begins a p rest) (h' : Begins a' p' rest') (e : a ++ rest = a' ++ rest') :
    a = a' ∧ p = p' ∧ rest = rest' := by
  cases h with
  | hex h0 hx =>
    cases h' with
    | hex h0' hx' => obtain ⟨e1, e⟩ := cons_split e; obtain ⟨e2, e3⟩ := cons_split e; exact ⟨by rw [e1, e2], rfl, e3⟩
    | other h0' hx' => obtain ⟨e1, e⟩ := cons_split e; obtain ⟨e2, e3⟩ := cons_split e; subst e2; revert hx hx'; simp; omega
    | digit hd' hn' =>
      obtain ⟨e1, e0⟩ := cons_split e
      subst e1
      refine absurd ?_ (hn' h0 _ (by rw [← List.nil_append rest', ← e0]; rfl))
      revert hx; simp; omega
  | other h0 hx =>
    cases h' with
    | hex h0' hx' => obtain ⟨e1, e⟩ := cons_split e; obtain ⟨e2, e3⟩ := cons_split e; subst e2; revert hx hx'; simp; omega
    | other h0' hx' => obtain ⟨e1, e⟩ := cons_split e; obtain ⟨e2, e3⟩ := cons_split e; exact ⟨by rw [e1, e2], rfl, e3⟩
    | digit hd' hn' =>
      obtain ⟨e1, e0⟩ := cons_split e
      subst e1
      refine absurd ?_ (hn' h0 _ (by rw [← List.nil_append rest', ← e0]; rfl))
      revert hx; simp; omega
  | digit hd hn =>
    cases h' with
    | hex h0' hx' =>
      obtain ⟨e1, e0⟩ := cons_split e
      subst e1
      refine absurd ?_ (hn h0' _ (by rw [← List.nil_append rest, e0]; rfl))
      revert hx'; simp; omega
    | other h0' hx' =>
      obtain ⟨e1, e0⟩ := cons_split e
      subst e1
      refine absurd ?_ (hn h0' _ (by rw [← List.nil_append rest, e0]; rfl))
      revert hx'; simp; omega
    | digit hd' hn' => obtain ⟨e1, e2⟩ := cons_split e; exact ⟨by rw [e1], rfl, e2⟩

theorem begins_digit {p : Nat → Bool} {c : Ch} {a rest : List Ch} (h : Begins (c :: a) p rest) : isDecimal c.r = true := by
  rw [digit_iff]
  cases h with
  | hex h => rw [h]; decide
  | other h => rw [h]; decide
  | digit h => exact h

/-- A number begins with a digit, or with a dot and a digit. -/
theorem number_head {c : Ch} {a rest : List Ch} (h : Number (c :: a) rest) :
    isDecimal c.r = true ∨ c.r = ch!"." ∧ ∃ d r, a = d :: r ∧ isDecimal d.r = true := by
  generalize hx : c :: a = x at h
  cases h with
  | @mk start _ _ _ _ _ hb =>
    obtain ⟨c', s, rfl⟩ := List.exists_cons_of_ne_nil (begins_ne hb)
    obtain ⟨h1, -⟩ := List.cons.inj hx
    exact .inl (h1 ▸ begins_digit hb)
  | @dot _ d _ _ _ h1 h2 =>
    obtain ⟨e1, e2⟩ := List.cons.inj hx
    exact .inr ⟨e1 ▸ h1, d, _, e2, (digit_iff _).2 h2⟩

theorem number_unique {a rest a' rest' : List Ch} (h : Number a rest) (h' : Number a' rest') (e : a ++ rest = a' ++ rest') :
    a = a' ∧ rest = rest' := by
  cases h with
  | mk hb hr hf he =>
    cases h' with
    | mk hb' hr' hf' he' =>
      simp only [List.append_assoc] at e hb hb' hr hr'
      obtain ⟨rfl, rfl, e0⟩ := begins_unique hb hb' e
      obtain ⟨rfl, e1⟩ := run_unique hr hr' e0
      obtain ⟨rfl, e2⟩ := fraction_unique hf hf' e1
      obtain ⟨rfl, e3⟩ := exponent_unique he he' e2
      exact ⟨rfl, e3⟩
    | dot hd' =>
      obtain ⟨c', s, rfl⟩ := List.exists_cons_of_ne_nil (begins_ne hb)
      obtain ⟨e1, -⟩ := cons_split e
      have := begins_digit hb
      rw [e1, hd'] at this
      exact absurd this (by decide)
  | dot hd h1 hr he =>
    cases h' with
    | mk hb' =>
      obtain ⟨c', s, rfl⟩ := List.exists_cons_of_ne_nil (begins_ne hb')
      obtain ⟨e1, -⟩ := cons_split e
      have := begins_digit hb'
      rw [← e1, hd] at this
      exact absurd this (by decide)
    | dot hd' h1' hr' he' =>
      simp only [List.append_assoc, List.cons_append] at e
      obtain ⟨e1, e0⟩ := List.cons.inj e
      obtain ⟨e2, e⟩ := List.cons.inj e0
      obtain ⟨rfl, e3⟩ := run_unique hr hr' e
      obtain ⟨rfl, e4⟩ := exponent_unique he he' e3
      exact ⟨by rw [e1, e2], e4⟩

/-! ## Quoted strings and comments -/

theorem quoted_unique {a rest a' rest' : List Ch} (h : Quoted a rest) : Quoted a' rest' → a ++ rest = a' ++ rest' → a = a' ∧ rest = rest' := by
  induction h generalizing a' with
  | eof =>
    intro h' e
    obtain ⟨h1, h2⟩ := List.append_eq_nil_iff.1 e.symm
    exact ⟨h1.symm, h2.symm⟩
  | close hc =>
    intro h' e
    cases h' with
    | eof => cases e
    | close => obtain ⟨e1, e2⟩ := cons_split e; exact ⟨by rw [e1], e2⟩
    | guarded hb => obtain ⟨e1, e2⟩ := cons_split e; rw [← e1] at hb; rw [hb] at hc; exact absurd hc (by decide)
    | plain hc' => obtain ⟨e1, e2⟩ := cons_split e; rw [← e1] at hc'; exact absurd hc hc'
  | guarded hb hc hq ih =>
    intro h' e
    cases h' with
    | eof => cases e
    | close hc' => obtain ⟨e1, e2⟩ := cons_split e; rw [← e1, hb] at hc'; exact absurd hc' (by decide)
    | guarded hb' hc' hq' =>
      obtain ⟨e1, e⟩ := cons_split e
      obtain ⟨e2, e⟩ := cons_split e
      obtain ⟨rfl, rfl⟩ := ih hq' e
      exact ⟨by rw [e1, e2], rfl⟩
    | plain hc' hn hq' =>
      obtain ⟨e1, e⟩ := cons_split e
      exact absurd hc (hn (e1 ▸ hb) _ (by rw [← e]; rfl))
  | plain hc hn hq ih =>
    intro h' e
    cases h' with
    | eof => cases e
    | close hc' => obtain ⟨e1, e2⟩ := cons_split e; rw [← e1] at hc'; exact absurd hc' hc
    | guarded hb' hc' hq' =>
      obtain ⟨e1, e⟩ := cons_split e
      exact absurd hc' (hn (e1 ▸ hb') _ (by rw [e]; rfl))
    | plain hc' hn' hq' =>
      obtain ⟨e1, e⟩ := cons_split e
      obtain ⟨rfl, rfl⟩ := ih hq' e
      exact ⟨by rw [e1], rfl⟩

theorem comment_unique {a rest a' rest' : List Ch} (h : Comment a rest) : Comment a' rest' → a ++ rest = a' ++ rest' → a = a' ∧ rest = rest' := by
  induction h generalizing a' with
  | eof =>
    intro h' e
    obtain ⟨h1, h2⟩ := List.append_eq_nil_iff.1 e.symm
    exact ⟨h1.symm, h2.symm⟩
  | close hc =>
    intro h' e
    cases h' with
    | eof => cases e
    | close => obtain ⟨e1, e2⟩ := cons_split e; exact ⟨by rw [e1], e2⟩
    | plain hc' => obtain ⟨e1, e2⟩ := cons_split e; rw [← e1, hc] at hc'; exact absurd (by decide) hc'
    | quoted hq => obtain ⟨e1, e2⟩ := cons_split e; rw [← e1, hc] at hq; exact absurd hq (by decide)
  | plain hc hq ih =>
    intro h' e
    cases h' with
    | eof => cases e
    | close hc' => obtain ⟨e1, e2⟩ := cons_split e; rw [← e1] at hc'; rw [hc'] at hc; exact absurd (by decide) hc
    | plain hc' hq' =>
      obtain ⟨e1, e⟩ := cons_split e
      obtain ⟨rfl, rfl⟩ := ih hq' e
      exact ⟨by rw [e1], rfl⟩
    | quoted hq' => obtain ⟨e1, e2⟩ := cons_split e; rw [← e1] at hq'; rw [hq'] at hc; exact absurd (by decide) hc
  | quoted hq hQ hC ih =>
    intro h' e
    cases h' with
    | eof => cases e
    | close hc' => obtain ⟨e1, e2⟩ := cons_split e; rw [← e1, hq] at hc'; exact absurd hc' (by decide)
    | plain hc' => obtain ⟨e1, e2⟩ := cons_split e; rw [← e1, hq] at hc'; exact absurd (by decide) hc'
    | quoted hq' hQ' hC' =>
      simp only [List.append_assoc, List.cons_append] at e
      obtain ⟨e1, e⟩ := List.cons.inj e
      obtain ⟨rfl, e2⟩ := quoted_unique hQ hQ' e
      obtain ⟨rfl, rfl⟩ := ih hC' e2
      exact ⟨by rw [e1], rfl⟩

theorem quoted_plain {a b rest : List Ch} (ha : ∀ c ∈ a, c.r ∉ bs!"\"\n\\") (h : Quoted b rest) : Quoted (a ++ b) rest := by
  induction a with
  | nil => exact h
  | cons c a ih =>
    have hc := ha c (by simp)
    refine .plain (fun hm => hc (by revert hm; simp; omega)) (fun hb => ?_) (ih fun d hd => ha d (by simp [hd]))
    rw [hb] at hc
    exact absurd (by decide) hc

theorem scanDigits_plain (base n : Nat) : ∀ cs, ∃ mid, cs = mid ++ scanDigits base n cs ∧ ∀ c ∈ mid, c.r ∉ bs!"\"\n\\" := by
  induction n with
  | zero => intro cs; exact ⟨[], rfl, by simp⟩
  | succ n ih =>
    intro cs
    unfold scanDigits
    split
    · next h =>
      obtain ⟨c, r, rfl, hc⟩ := nextIs_iff.1 h
      obtain ⟨mid, h1, h2⟩ := ih r
      refine ⟨c :: mid, by rw [List.tail_cons, List.cons_append, ← h1], ?_⟩
      intro d hd
      rcases List.mem_cons.1 hd with rfl | hd
      · revert hc; simp [digitLt, isHex, isDecimal]; omega
      · exact h2 d hd
    · exact ⟨[], rfl, by simp⟩

theorem scanEscape_lex (cs : List Ch) : ∃ mid, cs = mid ++ scanEscape cs ∧
    ((∃ d, mid = [d] ∧ d.r ∈ bs!"\"\\") ∨ (∀ c ∈ mid, c.r ∉ bs!"\"\n\\") ∧ ∀ d, cs.head? = some d → d.r ∉ bs!"\"\\") := by
  unfold scanEscape
  split
  · exact ⟨[], rfl, .inr ⟨by simp, by simp⟩⟩
  · next c cs' =>
    split
    · next h =>
      refine ⟨[c], rfl, ?_⟩
      by_cases hc : c.r ∈ bs!"\"\\"
      · exact .inl ⟨c, rfl, hc⟩
      · refine .inr ⟨?_, fun d hd => ?_⟩
        · intro d hd
          rw [List.mem_singleton] at hd
          subst hd
          revert hc h; simp; omega
        · cases hd; exact hc
    · next h =>
      have hn : c.r ∉ bs!"\"\\" := by
        intro hm; revert hm h; simp; omega
      have hnx : ∀ d, (c :: cs').head? = some d → d.r ∉ bs!"\"\\" := by
        intro d hd; cases hd; exact hn
      have cons : ∀ n, (c.r ∉ bs!"\"\n\\") → ∃ mid, c :: cs' = mid ++ scanDigits 16 n cs' ∧ ((∃ d, mid = [d] ∧ d.r ∈ bs!"\"\\") ∨
          (∀ c ∈ mid, c.r ∉ bs!"\"\n\\") ∧ ∀ d, (c :: cs').head? = some d → d.r ∉ bs!"\"\\") := by
        intro n hc
        obtain ⟨mid, h1, h2⟩ := scanDigits_plain 16 n cs'
        refine ⟨c :: mid, by rw [List.cons_append, ← h1], .inr ⟨?_, hnx⟩⟩
        intro d hd
        rcases List.mem_cons.1 hd with rfl | hd
        · exact hc
        · exact h2 d hd
      split
      · obtain ⟨mid, h1, h2⟩ := scanDigits_plain 8 3 (c :: cs')
        exact ⟨mid, h1, .inr ⟨h2, hnx⟩⟩
      split
      · next h => exact cons 2 (by rw [h]; decide)
      split
      · next h => exact cons 4 (by rw [h]; decide)
      split
      · next h => exact cons 8 (by rw [h]; decide)
      · exact ⟨[], rfl, .inr ⟨by simp, hnx⟩⟩

theorem scanString_lex (n : Nat) : ∀ cs : List Ch, cs.length ≤ n → ∃ a, cs = a ++ (scanStringN n cs).tail ∧ Quoted a (scanStringN n cs).tail := by
  induction n with
  | zero =>
    intro cs h
    have : cs = [] := List.eq_nil_of_length_eq_zero (by omega)
    subst this
    exact ⟨[], rfl, .eof⟩
  | succ n ih =>
    intro cs h
    cases cs with
    | nil => exact ⟨[], rfl, .eof⟩
    | cons c cs =>
      simp only [List.length_cons] at h
      unfold scanStringN
      split
      · next hc =>
        refine ⟨[c], rfl, .close ?_⟩
        revert hc; simp
      next hc =>
      have hc' : c.r ∉ bs!"\"\n" := by revert hc; simp
      split
      · next hb =>
        obtain ⟨mid, h1, h2⟩ := scanEscape_lex cs
        have hlen : (scanEscape cs).length ≤ n := by
          have := congrArg List.length h1
          rw [List.length_append] at this
          omega
        obtain ⟨a, h3, h4⟩ := ih _ hlen
        rcases h2 with ⟨d, rfl, hd⟩ | ⟨h2, hd⟩
        · refine ⟨c :: d :: a, ?_, .guarded hb hd h4⟩
          rw [List.cons_append, List.cons_append, ← h3]
          exact congrArg _ h1
        · refine ⟨c :: (mid ++ a), ?_, .plain hc' (fun _ => ?_) (quoted_plain h2 h4)⟩
          · rw [List.cons_append, List.append_assoc, ← h3, ← h1]
          · rw [List.append_assoc, ← h3, ← h1]; exact hd
      · next hb =>
        obtain ⟨a, h3, h4⟩ := ih cs (by omega)
        exact ⟨c :: a, by rw [List.cons_append, ← h3], .plain hc' (fun h => absurd h hb) h4⟩

/-! ## Tokens of text/scanner -/

/-- The characters `a` are a token of this class, if `rest` follows. -/
def ClsOf (U : Nat → Bool) : RTok → List Ch → List Ch → Prop
  | .ident, a, rest => ∃ c b, a = c :: b ∧ isLetter U c.r = true ∧ Run (isLetter U) b rest
  | .int, a, rest => Number a rest
  | .float, a, rest => Number a rest
  | .string, a, rest => ∃ q b, a = q :: b ∧ q.r = ch!"\"" ∧ Quoted b rest
  | .rune r, a, rest => ∃ c, a = [c] ∧ c.r = r ∧ isLetter U r = false ∧ r ∉ bs!"0123456789\"" ∧
      (r = ch!"." → ∀ d, rest.head? = some d → d.r ∉ bs!"0123456789")
  | .eof, a, rest => a = [] ∧ rest = []

theorem scanRest_lex (U : Nat → Bool) (c : Ch) (cs : List Ch) :
    ∃ mid, cs = mid ++ (scanRest U c cs).2 ∧ ClsOf U (scanRest U c cs).1 (c :: mid) (scanRest U c cs).2 := by
  unfold scanRest
  split
  · next h =>
    obtain ⟨a, h1, h2⟩ := run_drop (isLetter U) cs
    exact ⟨a, h1, c, a, rfl, h, h2⟩
  next hl =>
  split
  · next h =>
    obtain ⟨a, h1, h2⟩ := number_lex c cs h
    refine ⟨a, h1, ?_⟩
    rcases scanNumber_cls (c :: cs) false with e | e <;> rw [e] <;> exact h2
  next hdc =>
  have hdc' : c.r ∉ bs!"0123456789" := by rwa [← digit_iff]
  split
  · next h =>
    obtain ⟨a, h1, h2⟩ := scanString_lex cs.length cs (Nat.le_refl _)
    exact ⟨a, h1, c, a, rfl, h, h2⟩
  next hq =>
  have hcc : c.r ∉ bs!"0123456789\"" := by intro hm; revert hm hdc' hq; simp; omega
  split
  · next h =>
    split
    · next h' =>
      obtain ⟨d, r, rfl, hd⟩ := nextIs_iff.1 h'
      obtain ⟨a, h1, h2⟩ := number_dot_lex c d r h hd
      refine ⟨a, h1, ?_⟩
      rcases scanNumber_cls (d :: r) true with e | e <;> rw [e] <;> exact h2
    · next h' =>
      rw [nextIs_not] at h'
      refine ⟨[], rfl, c, rfl, rfl, by simpa using hl, hcc, fun _ d hd => ?_⟩
      rw [← digit_iff]
      simpa using h' d hd
  · next h => exact ⟨[], rfl, c, rfl, rfl, by simpa using hl, hcc, fun h' => absurd h' h⟩

/-- What `rawScan` reads. -/
structure RawLex (U : Nat → Bool) (ws : Nat → Bool) (s : SS) (t : RawTok) (s' : SS) (w a : List Ch) : Prop where
  rest : s.rest = w ++ a ++ s'.rest
  wsw : ∀ c ∈ w, ws c.r = true
  nows : ∀ c, a.head? = some c → ws c.r = false
  pos : t.pos = s.off + (bytesOf w).length
  text : t.text = bytesOf a
  off : s'.off = t.pos + (bytesOf a).length
  cls : ClsOf U t.cls a s'.rest

theorem rawScan_lex (U : Nat → Bool) (ws : Nat → Bool) (s : SS) : ∃ w a, RawLex U ws s (rawScan U ws s).1 (rawScan U ws s).2 w a := by
  obtain ⟨w, hw, hws⟩ := run_drop ws s.rest
  have hcons : consumed s.rest (s.rest.dropWhile fun c => ws c.r) = w := by
    conv => lhs; rw [hw]; arg 2; rw [← hw]
    rw [consumed_append]
  unfold rawScan
  simp only [hcons]
  split
  · next h =>
    rw [h] at hw
    exact ⟨w, [], by simpa using hw, hws.1, by simp, rfl, rfl, rfl, rfl, rfl⟩
  · next c cs h =>
    obtain ⟨mid, hmid, htok⟩ := scanRest_lex U c cs
    have hc : consumed (c :: cs) (scanRest U c cs).2 = c :: mid := by
      conv => lhs; arg 1; rw [hmid]
      rw [← List.cons_append, consumed_append]
    refine ⟨w, c :: mid, ?_, hws.1, ?_, rfl, by simp only [hc], by simp only [hc], htok⟩
    · rw [hw, h, List.append_assoc, List.cons_append, ← hmid]
    · intro d hd
      cases hd
      exact hws.2 c (by rw [h]; rfl)

theorem comment_plain {a b rest : List Ch} (ha : ∀ c ∈ a, c.r ∉ bs!"\"\n") (h : Comment b rest) : Comment (a ++ b) rest := by
  induction a with
  | nil => exact h
  | cons c a ih => exact .plain (ha c (by simp)) (ih fun d hd => ha d (by simp [hd]))

theorem dec_plain {r : Nat} (h : decimal r = true) : r ∉ bs!"\"\n" := by
  rw [← decimal_eq] at h; revert h; simp [isDecimal]; omega
theorem hex_plain {r : Nat} (h : hexadecimal r = true) : r ∉ bs!"\"\n" := by
  rw [← hexadecimal_eq] at h; revert h; simp [isHex, isDecimal]; omega

theorem exponent_plain {a rest : List Ch} (h : Exponent a rest) : ∀ c ∈ a, c.r ∉ bs!"\"\n" := by
  cases h with
  | none => simp
  | some he _ hr =>
    intro c hc
    rcases List.mem_cons.1 hc with rfl | hc
    · revert he; simp; omega
    · exact dec_plain (hr.1 c hc)
  | signed he hs hr =>
    intro c hc
    rcases List.mem_cons.1 hc with rfl | hc
    · revert he; simp; omega
    rcases List.mem_cons.1 hc with rfl | hc
    · revert hs; simp; omega
    · exact dec_plain (hr.1 c hc)

theorem number_plain {a rest : List Ch} (h : Number a rest) : ∀ c ∈ a, c.r ∉ bs!"\"\n" := by
  cases h with
  | @mk start p a f e _ hb hr hf he =>
    have hp : ∀ r, p r = true → r ∉ bs!"\"\n" := by
      cases hb with
      | hex => exact fun r => hex_plain
      | other => exact fun r => dec_plain
      | digit => exact fun r => dec_plain
    intro c hc
    simp only [List.mem_append] at hc
    rcases hc with ((hc | hc) | hc) | hc
    · cases hb with
      | hex h0 hx =>
        rcases List.mem_cons.1 hc with rfl | hc
        · rw [h0]; decide
        · rw [List.mem_singleton] at hc; subst hc; revert hx; simp; omega
      | other h0 hx =>
        rcases List.mem_cons.1 hc with rfl | hc
        · rw [h0]; decide
        · rw [List.mem_singleton] at hc; subst hc; revert hx; simp; omega
      | digit hd => rw [List.mem_singleton] at hc; subst hc; revert hd; simp; omega
    · exact hp _ (hr.1 c hc)
    · cases hf with
      | none => cases hc
      | some hd hr =>
        rcases List.mem_cons.1 hc with rfl | hc
        · rw [hd]; decide
        · exact hp _ (hr.1 c hc)
    · exact exponent_plain he c hc
  | @dot dt d a e _ h1 h2 hr he =>
    intro c hc
    simp only [List.cons_append, List.mem_cons, List.mem_append] at hc
    rcases hc with rfl | rfl | hc | hc
    · rw [h1]; decide
    · revert h2; simp; omega
    · exact dec_plain (hr.1 c hc)
    · exact exponent_plain he c hc

theorem letter_plain {U : Nat → Bool} {r : Nat} (h : isLetter U r = true) : r ∉ bs!"\"\n" := by
  intro hm
  have : r = 34 ∨ r = 10 := by simpa using hm
  rcases this with rfl | rfl <;> simp [isLetter] at h

theorem scanComment_lex (U : Nat → Bool) : ∀ (n : Nat) (s : SS) (acc : GoString), s.rest.length < n →
    ∃ line s' a, scanCommentN U n s acc = .ok (line, s') ∧ s.rest = a ++ s'.rest ∧ s'.off = s.off + (bytesOf a).length ∧ Comment a s'.rest := by
  intro n
  induction n with
  | zero => intro s acc h; omega
  | succ n ih =>
    intro s acc hn
    obtain ⟨w, a, h⟩ := rawScan_lex U (fun _ => false) s
    have hw : w = [] := by
      cases w with
      | nil => rfl
      | cons c w => exact absurd (h.wsw c (by simp)) (by simp)
    subst hw
    unfold scanCommentN
    generalize rawScan U (fun _ => false) s = R at h
    obtain ⟨t, s1⟩ := R
    dsimp only at h ⊢
    have hrest := h.rest
    have hoff := h.off
    rw [h.pos] at hoff
    simp only [List.nil_append, bytesOf, List.flatMap_nil, List.length_nil, Nat.add_zero] at hrest hoff
    have more : ∀ acc', a ≠ [] → (∀ b rest, s1.rest = b ++ rest → Comment b rest → Comment (a ++ b) rest) →
        ∃ line s' a', scanCommentN U n s1 acc' = .ok (line, s') ∧ s.rest = a' ++ s'.rest ∧ s'.off = s.off + (bytesOf a').length ∧ Comment a' s'.rest := by
      intro acc' ha hC
      have hlen : s1.rest.length < n := by
        have h1 := congrArg List.length hrest
        simp only [List.length_append] at h1
        have : a.length ≠ 0 := by simpa using ha
        omega
      obtain ⟨line, s', b, h1, h2, h3, h4⟩ := ih s1 acc' hlen
      refine ⟨line, s', a ++ b, h1, by rw [hrest, h2, List.append_assoc], ?_, hC b _ h2 h4⟩
      rw [h3, hoff]
      simp [bytesOf]
      omega
    have hcls := h.cls
    have plain : (∀ c ∈ a, c.r ∉ bs!"\"\n") → ∀ b rest, s1.rest = b ++ rest → Comment b rest → Comment (a ++ b) rest :=
      fun ha b rest _ hC => comment_plain ha hC
    by_cases h13 : t.cls = .rune 13
    · rw [if_pos h13]
      rw [h13] at hcls
      obtain ⟨c, rfl, hc, -⟩ := hcls
      refine more _ (by simp) (plain fun d hd => ?_)
      rw [List.mem_singleton] at hd
      rw [hd, hc]; decide
    rw [if_neg h13]
    by_cases hend : t.cls = .rune 10 ∨ t.cls = .eof
    · rw [if_pos hend]
      refine ⟨_, _, a, rfl, hrest, hoff, ?_⟩
      rcases hend with he | he
      · rw [he] at hcls
        obtain ⟨c, rfl, hc, -⟩ := hcls
        exact .close hc
      · rw [he] at hcls
        obtain ⟨rfl, hr⟩ := hcls
        rw [hr]
        exact .eof
    rw [if_neg hend]
    cases hc : t.cls with
    | eof => exact absurd (.inr hc) hend
    | ident =>
      rw [hc] at hcls
      obtain ⟨c, b, rfl, hl, hr⟩ := hcls
      refine more _ (by simp) (plain fun d hd => ?_)
      rcases List.mem_cons.1 hd with rfl | hd
      · exact letter_plain hl
      · exact letter_plain (hr.1 d hd)
    | int =>
      rw [hc] at hcls
      exact more _ (number_ne hcls) (plain (number_plain hcls))
    | float =>
      rw [hc] at hcls
      exact more _ (number_ne hcls) (plain (number_plain hcls))
    | string =>
      rw [hc] at hcls
      obtain ⟨q, b, rfl, hq, hQ⟩ := hcls
      refine more _ (by simp) fun b' rest he hC => ?_
      rw [he] at hQ
      exact .quoted hq hQ hC
    | rune r =>
      rw [hc] at hcls
      obtain ⟨c, rfl, hr, -, hn', -⟩ := hcls
      refine more _ (by simp) (plain fun d hd => ?_)
      rw [List.mem_singleton] at hd
      rw [hd, hr]
      intro hm
      have h10 : r ≠ 10 := fun h => hend (.inl (by rw [hc, h]))
      revert hm hn'
      simp
      omega

end Verif
