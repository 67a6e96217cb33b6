import Verif.Lemmas.Comment
import Verif.Spec.Doc
/-! # Tokens of a given source text -/

namespace Verif
open Spec

variable {U : Nat → Bool}

theorem Spec.Next.mono {y : GoString} {p q : Nat → Prop} (h : Next y p) (hpq : ∀ b, p b → q b) : Next y q :=
  fun b hb => hpq b (h b hb)

/-- Source text followed by nothing or by an ASCII byte. -/
theorem decode_append' (t : GoString) {y : GoString} (h : Next y (· < 128)) :
    decode (t ++ y) = decode t ++ decode y := by
  cases y with
  | nil => simp [decode_nil]
  | cons b y => exact decode_append t y (h b rfl)

theorem nextIs_decode {p : Nat → Bool} {y : GoString} (h1 : Next y fun b => b < 128 → p b = false)
    (h2 : ∀ r, 128 ≤ r → p r = false) : nextIs p (decode y) = false := by
  cases y with
  | nil => rfl
  | cons b y =>
    by_cases hb : b < 128
    · rw [decode_ascii_cons y hb]; exact h1 b rfl hb
    · rw [decode_cons]
      refine h2 _ ?_
      by_cases hr : (decodeRune b y).1 < 0x80
      · exact absurd (decodeRune_lt hr) hb
      · simp only; omega

theorem dropWhile_all {p : Ch → Bool} : ∀ (a cs : List Ch), (∀ c ∈ a, p c = true) →
    (∀ c ∈ cs.head?, p c = false) → (a ++ cs).dropWhile p = cs
  | [], [], _, _ => rfl
  | [], c :: cs, _, h => by
    have := h c (by simp)
    simp [this]
  | c :: a, cs, h1, h2 => by
    rw [List.cons_append, List.dropWhile_cons, if_pos (h1 c (by simp))]
    exact dropWhile_all a cs (fun d hd => h1 d (by simp [hd])) h2

theorem nextIs_head {p : Nat → Bool} {cs : List Ch} (h : nextIs p cs = false) :
    ∀ c ∈ cs.head?, p c.r = false := by
  cases cs with
  | nil => simp
  | cons c cs => simpa [nextIs] using h

/-- One token of the underlying scanner. -/
theorem rawScan_tok {c : Ch} {mid cs : List Ch} {cls : RTok} {o : Nat} (h0 : isWs c.r = false)
    (h : scanRest U c (mid ++ cs) = (cls, cs)) :
    rawScan U isWs ⟨c :: (mid ++ cs), o⟩ =
      (⟨cls, o, bytesOf (c :: mid)⟩, ⟨cs, o + (bytesOf (c :: mid)).length⟩) := by
  have e4 : consumed (c :: (mid ++ cs)) cs = c :: mid := by
    rw [← List.cons_append, consumed_append]
  have e5 : consumed (c :: (mid ++ cs)) (c :: (mid ++ cs)) = [] := by simp [consumed]
  simp only [rawScan, List.dropWhile_cons, h0, h, e4, e5, Bool.false_eq_true, if_false]
  simp [bytesOf]

theorem letter_not_ws {r : Nat} (h : isLetter U r = true) : isWs r = false := by
  simp only [isLetter] at h
  simp only [isWs, Bool.or_eq_false_iff, beq_eq_false_iff_ne]
  split at h
  · simp only [Bool.or_eq_true, Bool.and_eq_true, decide_eq_true_eq] at h; omega
  · omega

theorem notLetter_isLetter {b : Nat} (h : notLetter b) : isLetter U b = false := by
  obtain ⟨h1, h2, h3⟩ := h
  simp only [isLetter, h1, if_true, Bool.or_eq_false_iff, Bool.and_eq_false_iff, decide_eq_false_iff_not]
  omega

theorem notLetter_next {y : GoString} (h : Next y notLetter) : nextIs (isLetter U) (decode y) = false := by
  cases y with
  | nil => rfl
  | cons b y =>
    rw [decode_ascii_cons y (h b rfl).1]
    exact notLetter_isLetter (h b rfl)

theorem wordText_cons {t : GoString} (h : WordText U t) : ∃ c mid, decode t = c :: mid ∧
    isLetter U c.r = true ∧ ∀ d ∈ mid, isLetter U d.r = true := by
  obtain ⟨h1, h2⟩ := h
  cases hd : decode t with
  | nil =>
    have := bytesOf_decode t
    rw [hd] at this
    exact absurd this.symm h1
  | cons c mid =>
    rw [hd] at h2
    exact ⟨c, mid, rfl, h2 c (by simp), fun d hd => h2 d (by simp [hd])⟩

theorem rawScan_word {t y : GoString} {o : Nat} (h : WordText U t) (hy : Next y notLetter) :
    rawScan U isWs ⟨decode (t ++ y), o⟩ = (⟨.ident, o, t⟩, ⟨decode y, o + t.length⟩) := by
  obtain ⟨c, mid, h1, h2, h3⟩ := wordText_cons h
  rw [decode_append' t (hy.mono fun _ h => h.1), h1, List.cons_append]
  have hb : bytesOf (c :: mid) = t := by rw [← h1, bytesOf_decode]
  rw [rawScan_tok (cls := .ident) (letter_not_ws h2), hb]
  simp only [scanRest, h2, if_true]
  rw [dropWhile_all mid _ h3 (nextIs_head (notLetter_next hy))]

theorem scan_word {t y : GoString} {o : Nat} (h : WordText U t) (hy : Next y notLetter) :
    scan U ⟨decode (t ++ y), o⟩ = .ok (⟨.word, o, t⟩, ⟨decode y, o + t.length⟩) := by
  simp only [scan, rawScan_word h hy]

theorem scan_macroWord {t y : GoString} {o : Nat} (h : WordText U t) (hy : Next y notLetter) :
    scan U ⟨decode (ch!"\\" :: t ++ y), o⟩ =
      .ok (⟨.macro, o, ch!"\\" :: t⟩, ⟨decode y, o + (t.length + 1)⟩) := by
  obtain ⟨c, mid, h1, h2, h3⟩ := wordText_cons h
  have hp : (⟨decode (t ++ y), o + 1⟩ : SS).peek ≠ some ch!" " := by
    rw [decode_append' t (hy.mono fun _ h => h.1), h1]
    simp only [SS.peek, List.cons_append, List.head?_cons, Option.map_some, ne_eq, Option.some.injEq]
    rintro hc
    rw [hc] at h2
    cases h2
  rw [List.cons_append, decode_ascii_cons _ (by decide), scan]
  rw [rawScan_char rfl rfl rfl (by decide) (by decide)]
  simp only [List.length_singleton, if_true, hp, if_false, rawScan_word h hy]
  simp [Nat.add_comm, Nat.add_left_comm]

theorem scan_macroChar {c : Nat} {y : GoString} {o : Nat} (h : macroChar c) :
    scan U ⟨decode (ch!"\\" :: c :: y), o⟩ = .ok (⟨.macro, o, [ch!"\\", c]⟩, ⟨decode y, o + 2⟩) := by
  obtain ⟨h1, h2, h3, h4, h5, h6⟩ := h
  have hp : (⟨decode (c :: y), o + 1⟩ : SS).peek ≠ some ch!" " := by
    rw [decode_ascii_cons _ h3.1]
    simp [SS.peek]; omega
  rw [decode_ascii_cons _ (by decide), scan]
  rw [rawScan_char rfl rfl rfl (by decide) (by decide)]
  simp only [List.length_singleton, if_true, hp, if_false]
  rw [decode_ascii_cons _ h3.1, rawScan_char (c := ⟨c, [c]⟩) ?_ (notLetter_isLetter h3) (by simpa using h4) h5 h6]
  · rfl
  · simp [isWs]; omega

theorem scan_escBlank {y : GoString} {o : Nat} :
    scan U ⟨decode (bs!"\\ " ++ y), o⟩ = .ok (⟨.space, o, bs!"\\ "⟩, ⟨decode y, o + 2⟩) := by
  have e : decode (bs!"\\ " ++ y) = ⟨92, [92]⟩ :: ⟨32, [32]⟩ :: decode y := by
    simp only [List.cons_append, List.nil_append]
    rw [decode_ascii_cons _ (by decide), decode_ascii_cons _ (by decide)]
  rw [e, scan, rawScan_char rfl rfl rfl (by decide) (by decide)]
  simp only [if_true, SS.peek, List.head?_cons, Option.map_some]
  rw [rawScan_char rfl rfl rfl (by decide) (by decide)]
  rfl

/-- The token kind of a one-character token other than backslash and percent. -/
def charKind (c : Nat) : Kind :=
  if c = ch!" " then .space
  else if symbolChars.contains c then .symbol
  else if c = ch!"[" then .lbrack
  else if c = ch!"]" then .rbrack
  else if c = ch!"{" then .lbrace
  else if c = ch!"}" then .rbrace
  else if c = ch!"(" then .lparen
  else .rparen

theorem scan_char {c : Nat} {y : GoString} {o : Nat} (hc : c ∈ bs!" $_=<>^/*-+!?':,;.[]{}()")
    (hy : c = ch!"." → Next y fun b => ¬ isDecimal b) :
    scan U ⟨decode (c :: y), o⟩ = .ok (⟨charKind c, o, [c]⟩, ⟨decode y, o + 1⟩) := by
  have ha : c < 128 := by
    have : ∀ c ∈ bs!" $_=<>^/*-+!?':,;.[]{}()", c < 128 := by decide
    exact this c hc
  rw [decode_ascii_cons _ ha]
  have hraw : rawScan U isWs ⟨⟨c, [c]⟩ :: decode y, o⟩ = (⟨.rune c, o, [c]⟩, ⟨decode y, o + 1⟩) := by
    have hl : isLetter U c = false := by
      have : ∀ c ∈ bs!" $_=<>^/*-+!?':,;.[]{}()", notLetter c := by
        unfold notLetter; decide
      exact notLetter_isLetter (this c hc)
    have h2 : ∀ c ∈ bs!" $_=<>^/*-+!?':,;.[]{}()", isWs c = false ∧ isDecimal c = false ∧ c ≠ 34 := by decide
    obtain ⟨e1, e2, e3⟩ := h2 c hc
    by_cases hd : c = ch!"."
    · have hn : nextIs isDecimal (decode y) = false := by
        refine nextIs_decode ((hy hd).mono fun b hb _ => by simpa using hb) fun r hr => ?_
        simp [isDecimal]; omega
      have := rawScan_tok (U := U) (c := ⟨c, [c]⟩) (mid := []) (cs := decode y) (cls := .rune c) (o := o) e1
        (by subst hd; simp [scanRest, hl, hn, e2])
      simpa using this
    · exact rawScan_char e1 hl e2 e3 hd
  rw [scan, hraw]
  simp only
  have h3 : ∀ c ∈ bs!" $_=<>^/*-+!?':,;.[]{}()", c ≠ 92 ∧ c ≠ 37 := by decide
  rw [if_neg (h3 c hc).1]
  by_cases hs : c = ch!" "
  · subst hs; rfl
  rw [if_neg hs, if_neg (h3 c hc).2]
  simp only [charKind, hs, if_false]
  split
  · rfl
  · rename_i hn
    simp only [List.mem_cons, List.not_mem_nil, or_false] at hc
    simp only [symbolChars, List.contains_cons, List.contains_nil, Bool.or_false, Bool.or_eq_true, beq_iff_eq,
      not_or] at hn
    have : c = 91 ∨ c = 93 ∨ c = 123 ∨ c = 125 ∨ c = 40 ∨ c = 41 := by omega
    rcases this with rfl | rfl | rfl | rfl | rfl | rfl <;> rfl

/-! ## Numbers -/

/-- Digits and underscores. -/
def DigU (a : GoString) : Prop := ∀ d ∈ a, isDecimal d = true ∨ d = 95

theorem Spec.Digits.digU {a : GoString} (h : Digits a) : DigU a := fun d hd => .inl (h d hd)

theorem digits_run {base : Nat} (hb : base ≤ 10) {a : GoString} (ha : DigU a) {cs : List Ch}
    (h : nextIs (fun r => isDecimal r || r == ch!"_") cs = false) : digits base (ascii a ++ cs) = cs := by
  unfold digits
  refine dropWhile_all _ _ ?_ ?_
  · intro c hc
    simp only [ascii, List.mem_map] at hc
    obtain ⟨d, hd, rfl⟩ := hc
    rcases ha d hd with h | h <;> simp [hb, h]
  · intro c hc
    have := nextIs_head h c hc
    simpa [hb] using this

theorem numExponent_none {cs : List Ch} (h : nextIs (fun r => lowerIs r ch!"e" || lowerIs r ch!"p") cs = false) :
    numExponent cs = (false, cs) := by
  simp [numExponent, h]

theorem digits_cons {d : Nat} {a : GoString} (hd : isDecimal d = true) (ha : DigU a) : DigU (d :: a) := by
  intro e he
  rcases List.mem_cons.1 he with rfl | he
  · exact .inl hd
  · exact ha e he

/-- After the prefix of a decimal number the base is at most ten, and only the initial zero has been read. -/
theorem numPrefix_digits {d : Nat} {a : GoString} {cs : List Ch} (hd : isDecimal d = true) (ha : DigU a)
    (h : d = 48 → a = [] → nextIs (fun r => lowerIs r ch!"x" || lowerIs r ch!"o" || lowerIs r ch!"b") cs = false) :
    ∃ base a', base ≤ 10 ∧ DigU a' ∧ numPrefix (⟨d, [d]⟩ :: (ascii a ++ cs)) = (base, ascii a' ++ cs) := by
  by_cases h0 : d = 48
  · have hn : nextIs (fun r => lowerIs r ch!"x" || lowerIs r ch!"o" || lowerIs r ch!"b") (ascii a ++ cs) = false := by
      cases a with
      | nil => exact h h0 rfl
      | cons b a =>
        have := ha b (by simp)
        simp only [isDecimal, Bool.and_eq_true, decide_eq_true_eq] at this
        simp only [ascii, List.map_cons, List.cons_append, nextIs, lowerIs, Bool.or_eq_false_iff, beq_eq_false_iff_ne]
        omega
    have hx : ∀ c, (c = ch!"x" ∨ c = ch!"o" ∨ c = ch!"b") → nextIs (lowerIs · c) (ascii a ++ cs) = false := by
      intro c hc
      cases hcs : ascii a ++ cs with
      | nil => rfl
      | cons e r =>
        rw [hcs] at hn
        simp only [nextIs, Bool.or_eq_false_iff] at hn ⊢
        rcases hc with rfl | rfl | rfl
        · exact hn.1.1
        · exact hn.1.2
        · exact hn.2
    refine ⟨8, a, by omega, ha, ?_⟩
    simp [numPrefix, h0, hx ch!"x" (by simp), hx ch!"o" (by simp), hx ch!"b" (by simp)]
  · exact ⟨10, d :: a, by omega, digits_cons hd ha,
      by simp [numPrefix, h0, ascii]⟩

theorem ascii_cons (b : Nat) (s : List Nat) : ascii (b :: s) = ⟨b, [b]⟩ :: ascii s := rfl
theorem ascii_append (a b : List Nat) : ascii (a ++ b) = ascii a ++ ascii b := by simp [ascii]

theorem digits_lt {a : GoString} (h : Digits a) : ∀ b ∈ a, b < 128 := by
  intro b hb
  have := h b hb
  simp only [isDecimal, Bool.and_eq_true, decide_eq_true_eq] at this
  omega

theorem scanNumber_int {d : Nat} {a : GoString} {cs : List Ch} (hd : isDecimal d = true) (ha : DigU a)
    (h1 : d = 48 → a = [] → nextIs (fun r => lowerIs r ch!"x" || lowerIs r ch!"o" || lowerIs r ch!"b") cs = false)
    (h2 : nextIs (fun r => isDecimal r || r == ch!"_") cs = false)
    (h3 : nextIs (fun r => lowerIs r ch!"e" || lowerIs r ch!"p") cs = false)
    (h4 : nextIs (· == ch!".") cs = false) :
    scanNumber (⟨d, [d]⟩ :: (ascii a ++ cs)) false = (.int, cs) := by
  obtain ⟨base, a', hb, ha', he⟩ := numPrefix_digits hd ha h1
  simp only [scanNumber, Bool.false_eq_true, if_false, he, digits_run hb ha' h2, h4, numExponent_none h3, Bool.or_self]

theorem scanNumber_frac {d : Nat} {a b : GoString} {cs : List Ch} (hd : isDecimal d = true) (ha : Digits a)
    (hb : Digits b) (h2 : nextIs (fun r => isDecimal r || r == ch!"_") cs = false)
    (h3 : nextIs (fun r => lowerIs r ch!"e" || lowerIs r ch!"p") cs = false) :
    scanNumber (⟨d, [d]⟩ :: (ascii (a ++ ch!"." :: b) ++ cs)) false = (.float, cs) := by
  obtain ⟨base, a', hbase, ha', he⟩ := numPrefix_digits (cs := ⟨46, [46]⟩ :: (ascii b ++ cs)) hd ha.digU
    (fun _ _ => rfl)
  have e : ascii (a ++ ch!"." :: b) ++ cs = ascii a ++ (⟨46, [46]⟩ :: (ascii b ++ cs)) := by
    simp [ascii]
  rw [e]
  have hrun := digits_run (cs := ⟨46, [46]⟩ :: (ascii b ++ cs)) hbase ha' rfl
  have hn : nextIs (· == ch!".") (⟨46, [46]⟩ :: (ascii b ++ cs)) = true := rfl
  simp only [scanNumber, Bool.false_eq_true, if_false, he, hrun, hn, if_true, List.tail_cons,
    digits_run hbase hb.digU h2, numExponent_none h3, Bool.true_or]

theorem scanNumber_dot' {b : GoString} {cs : List Ch}
    (hb : Digits b) (h2 : nextIs (fun r => isDecimal r || r == ch!"_") cs = false)
    (h3 : nextIs (fun r => lowerIs r ch!"e" || lowerIs r ch!"p") cs = false) :
    scanNumber (ascii b ++ cs) true = (.float, cs) := by
  simp only [scanNumber, if_true, digits_run (Nat.le_refl 10) hb.digU h2, numExponent_none h3, Bool.true_or]

theorem digit_facts {d : Nat} (h : isDecimal d = true) : isLetter U d = false ∧ isWs d = false := by
  simp only [isDecimal, Bool.and_eq_true, decide_eq_true_eq] at h
  have : d < 128 := by omega
  constructor
  · simp [isLetter, this]; omega
  · simp [isWs]; omega

theorem fuses_sub {a : GoString} {y : GoString} (h : Next y (· ∉ fusesInt a)) : Next y (· ∉ fusesFloat) := by
  intro b hb hm
  refine h b hb ?_
  have : ∀ b ∈ fusesFloat, b ∈ bs!"0123456789_eEpP." := by decide
  exact List.mem_append_left _ (this b hm)

theorem nextIs_fuses {y : GoString} (h : Next y (· ∉ fusesFloat)) :
    nextIs (fun r => isDecimal r || r == ch!"_") (decode y) = false ∧
    nextIs (fun r => lowerIs r ch!"e" || lowerIs r ch!"p") (decode y) = false := by
  have key : ∀ p : Nat → Bool, (∀ b < 128, p b = true → b ∈ fusesFloat) → (∀ r, 128 ≤ r → p r = false) →
      nextIs p (decode y) = false := by
    intro p h1 h2
    refine nextIs_decode (h.mono fun b hb hlt => ?_) h2
    cases hp : p b with
    | false => rfl
    | true => exact absurd (h1 b hlt hp) hb
  constructor
  · exact key _ (by decide) (by intro r hr; simp [isDecimal]; omega)
  · exact key _ (by decide) (by intro r hr; simp [lowerIs]; omega)

theorem nextIs_fusesInt {a : GoString} {y : GoString} (h : Next y (· ∉ fusesInt a)) :
    nextIs (· == ch!".") (decode y) = false ∧ (a = bs!"0" →
    nextIs (fun r => lowerIs r ch!"x" || lowerIs r ch!"o" || lowerIs r ch!"b") (decode y) = false) := by
  have key : ∀ p : Nat → Bool, (∀ b < 128, p b = true → b ∈ fusesInt a) → (∀ r, 128 ≤ r → p r = false) →
      nextIs p (decode y) = false := by
    intro p h1 h2
    refine nextIs_decode (h.mono fun b hb hlt => ?_) h2
    cases hp : p b with
    | false => rfl
    | true => exact absurd (h1 b hlt hp) hb
  constructor
  · refine key _ ?_ (by intro r hr; simp; omega)
    intro b _ hb
    exact List.mem_append_left _ (by simp at hb; simp [hb])
  · intro h0
    refine key _ ?_ (by intro r hr; simp [lowerIs]; omega)
    intro b hb hp
    have : ∀ b < 128, (lowerIs b ch!"x" || lowerIs b ch!"o" || lowerIs b ch!"b") = true → b ∈ bs!"xXoObB" := by decide
    exact List.mem_append_right _ (by rw [if_pos h0]; exact this b hb hp)

theorem scan_num {d : Nat} {mid : GoString} {y : GoString} {cls : RTok} {o : Nat} (hc : cls = .int ∨ cls = .float)
    (hlt : ∀ b ∈ d :: mid, b < 128) (hws : isWs d = false)
    (h : scanRest U ⟨d, [d]⟩ (ascii mid ++ decode y) = (cls, decode y)) :
    scan U ⟨decode ((d :: mid) ++ y), o⟩ = .ok (⟨.number, o, d :: mid⟩, ⟨decode y, o + (mid.length + 1)⟩) := by
  rw [decode_ascii_append hlt, ascii_cons, List.cons_append, scan, rawScan_tok (mid := ascii mid) hws h]
  have hb : bytesOf (⟨d, [d]⟩ :: ascii mid) = d :: mid := by rw [← ascii_cons, bytesOf_ascii]
  rw [hb]
  rcases hc with rfl | rfl <;> rfl

theorem scan_int {a y : GoString} {o : Nat} (h1 : a ≠ []) (h2 : Digits a) (h3 : Next y (· ∉ fusesInt a)) :
    scan U ⟨decode (a ++ y), o⟩ = .ok (⟨.number, o, a⟩, ⟨decode y, o + a.length⟩) := by
  cases a with
  | nil => exact absurd rfl h1
  | cons d a =>
    have hd := h2 d (by simp)
    have ha : Digits a := fun e he => h2 e (by simp [he])
    obtain ⟨e1, e2⟩ := nextIs_fuses (fuses_sub h3)
    obtain ⟨e3, e4⟩ := nextIs_fusesInt h3
    obtain ⟨f1, f2⟩ := digit_facts (U := U) hd
    have := scanNumber_int (cs := decode y) hd ha.digU (fun h48 hnil => e4 (by rw [h48, hnil])) e1 e2 e3
    exact scan_num (.inl rfl) (digits_lt h2) f2 (by simp [scanRest, f1, hd, this])

theorem scan_frac {a b y : GoString} {o : Nat} (h1 : a ≠ [] ∨ b ≠ []) (h2 : Digits a) (hb : Digits b)
    (h3 : Next y (· ∉ fusesFloat)) :
    scan U ⟨decode ((a ++ (ch!"." :: b)) ++ y), o⟩ =
      .ok (⟨.number, o, a ++ (ch!"." :: b)⟩, ⟨decode y, o + (a ++ (ch!"." :: b)).length⟩) := by
  obtain ⟨e1, e2⟩ := nextIs_fuses h3
  cases a with
  | nil =>
    have hb' := digits_lt hb
    rw [List.nil_append]
    refine scan_num (.inr rfl) (List.forall_mem_cons.2 ⟨by decide, hb'⟩) rfl ?_
    have hn : nextIs isDecimal (ascii b ++ decode y) = true := by
      cases b with
      | nil => simp at h1
      | cons d b => exact hb d (by simp)
    have := scanNumber_dot' (cs := decode y) hb e1 e2
    have hl : isLetter U 46 = false := rfl
    have hd : isDecimal 46 = false := rfl
    simp [scanRest, hl, hd, hn, this]
  | cons d a =>
    have hd := h2 d (by simp)
    have ha : Digits a := fun e he => h2 e (by simp [he])
    obtain ⟨f1, f2⟩ := digit_facts (U := U) hd
    have := scanNumber_frac (cs := decode y) hd ha hb e1 e2
    refine scan_num (mid := a ++ ch!"." :: b) (.inr rfl) ?_ f2 (by simp [scanRest, f1, hd, this])
    intro c hc
    simp only [List.mem_cons, List.mem_append] at hc
    rcases hc with rfl | hc | rfl | hc
    · exact digits_lt h2 _ (by simp)
    · exact digits_lt ha _ hc
    · decide
    · exact digits_lt hb _ hc

theorem digU_lt {a : GoString} (h : DigU a) : ∀ b ∈ a, b < 128 := by
  intro b hb
  rcases h b hb with h | h
  · simp only [isDecimal, Bool.and_eq_true, decide_eq_true_eq] at h; omega
  · omega

/-- An underscore after a number is part of it. -/
theorem scan_intU {a y : GoString} {o : Nat} (h1 : a ≠ []) (h2 : Digits a) (h3 : Next y (· ∉ bs!"0123456789_eEpP.")) :
    scan U ⟨decode ((a ++ bs!"_") ++ y), o⟩ = .ok (⟨.number, o, a ++ bs!"_"⟩, ⟨decode y, o + (a ++ bs!"_").length⟩) := by
  cases a with
  | nil => exact absurd rfl h1
  | cons d a =>
    have hd := h2 d (by simp)
    have hu : DigU (a ++ bs!"_") := by
      intro e he
      rcases List.mem_append.1 he with he | he
      · exact .inl (h2 e (by simp [he]))
      · exact .inr (by simpa using he)
    have h3' : Next y (· ∉ fusesInt bs!"1") := by simpa [fusesInt] using h3
    obtain ⟨e1, e2⟩ := nextIs_fuses (fuses_sub h3')
    obtain ⟨e3, -⟩ := nextIs_fusesInt h3'
    obtain ⟨f1, f2⟩ := digit_facts (U := U) hd
    have := scanNumber_int (cs := decode y) hd hu (fun _ hnil => by simp at hnil) e1 e2 e3
    exact scan_num (mid := a ++ bs!"_") (.inl rfl) (digU_lt (digits_cons hd hu)) f2 (by simp [scanRest, f1, hd, this])

/-- A letter `e` or `p` after a number is part of it. -/
theorem scan_intE {a y : GoString} {o c : Nat} (h1 : a ≠ []) (h2 : Digits a) (hc : c ∈ bs!"eEpP")
    (h3 : Next y (· ∉ bs!"0123456789_+-")) :
    scan U ⟨decode ((a ++ [c]) ++ y), o⟩ = .ok (⟨.number, o, a ++ [c]⟩, ⟨decode y, o + (a ++ [c]).length⟩) := by
  cases a with
  | nil => exact absurd rfl h1
  | cons d a =>
    have hd := h2 d (by simp)
    have ha : Digits a := fun e he => h2 e (by simp [he])
    have key : ∀ p : Nat → Bool, (∀ b < 128, p b = true → b ∈ bs!"0123456789_+-") → (∀ r, 128 ≤ r → p r = false) →
        nextIs p (decode y) = false := by
      intro p h1 h2
      refine nextIs_decode (h3.mono fun b hb hlt => ?_) h2
      cases hp : p b with
      | false => rfl
      | true => exact absurd (h1 b hlt hp) hb
    have k1 : nextIs (fun r => r == ch!"+" || r == ch!"-") (decode y) = false :=
      key _ (by decide) (by intro r hr; simp; omega)
    have k2 : nextIs (fun r => isDecimal r || r == ch!"_") (decode y) = false :=
      key _ (by decide) (by intro r hr; simp [isDecimal]; omega)
    have hc1 : ∀ c ∈ bs!"eEpP", (lowerIs c ch!"e" || lowerIs c ch!"p") = true ∧ (isDecimal c || c == 95) = false ∧
      (c == ch!".") = false ∧ c < 128 ∧
      (lowerIs c ch!"x" || lowerIs c ch!"o" || lowerIs c ch!"b") = false := by decide
    obtain ⟨c1, c2, c3, c4, c5⟩ := hc1 c hc
    obtain ⟨f1, f2⟩ := digit_facts (U := U) hd
    obtain ⟨base, a', hb, ha', he⟩ := numPrefix_digits (cs := ⟨c, [c]⟩ :: decode y) hd ha.digU (fun _ _ => c5)
    have hrun := digits_run (cs := ⟨c, [c]⟩ :: decode y) hb ha' c2
    have hdot : nextIs (· == ch!".") (⟨c, [c]⟩ :: decode y) = false := c3
    have hex : numExponent (⟨c, [c]⟩ :: decode y) = (true, decode y) := by
      have : nextIs (fun r => lowerIs r ch!"e" || lowerIs r ch!"p") (⟨c, [c]⟩ :: decode y) = true := c1
      have hr := digits_run (base := 10) (a := []) (cs := decode y) (Nat.le_refl _) (by intro e he; simp at he) k2
      simp only [ascii, List.map_nil, List.nil_append] at hr
      simp only [numExponent, this, if_true, List.tail_cons, k1, Bool.false_eq_true, if_false, hr]
    have hn : scanNumber (⟨d, [d]⟩ :: (ascii (a ++ [c]) ++ decode y)) false = (.float, decode y) := by
      have e : ascii (a ++ [c]) ++ decode y = ascii a ++ (⟨c, [c]⟩ :: decode y) := by simp [ascii]
      rw [e]
      simp only [scanNumber, Bool.false_eq_true, if_false, he, hrun, hdot, hex, Bool.or_true, if_true]
    refine scan_num (mid := a ++ [c]) (.inr rfl) ?_ f2 (by simp [scanRest, f1, hd, hn])
    intro b hb
    simp only [List.mem_cons, List.mem_append, List.not_mem_nil, or_false] at hb
    rcases hb with rfl | hb | rfl
    · exact digits_lt h2 _ (by simp)
    · exact digits_lt ha _ hb
    · exact c4

/-! ## Comments -/

theorem decode_rune_mem {t : GoString} {c : Ch} (h : c ∈ decode t) (hr : c.r < 128) : c.r ∈ t := by
  have hw := (decode_wf t c h).2 hr
  have : c.r ∈ bytesOf (decode t) := by
    simp only [bytesOf, List.mem_flatMap]
    exact ⟨c, h, by rw [hw]; simp⟩
  rwa [bytesOf_decode] at this

theorem scan_commentLine {body y : GoString} {o : Nat} (h : ch!"\n" ∉ body ∧ ch!"\"" ∉ body) :
    ∃ line, bs!"%" <+: line ∧ scan U ⟨decode ((bs!"%" ++ body ++ bs!"\n") ++ y), o⟩ =
      .ok (⟨.comment, o, line⟩, ⟨decode y, o + (bs!"%" ++ body ++ bs!"\n").length⟩) := by
  have e : decode ((bs!"%" ++ body ++ bs!"\n") ++ y) = ⟨37, [37]⟩ :: (decode body ++ ⟨10, [10]⟩ :: decode y) := by
    rw [← decode_ascii_cons y (by decide), ← decode_append body y (by decide),
      ← decode_ascii_cons _ (by decide)]
    simp
  have hfree : ∀ c ∈ decode body, c.r ≠ 10 ∧ c.r ≠ 34 := by
    intro c hc
    constructor
    · intro hr; exact h.1 (hr ▸ decode_rune_mem hc (by omega))
    · intro hr; exact h.2 (hr ▸ decode_rune_mem hc (by omega))
  obtain ⟨k, acc', hk, hrun⟩ := comment_run (U := U) (q := ⟨10, [10]⟩) (rest := decode y) rfl rfl
    (decode body).length (decode body) (o + 1) bs!"%" (Nat.le_refl _) hfree
  obtain ⟨n, hn⟩ : ∃ n, (decode body ++ (⟨10, [10]⟩ : Ch) :: decode y).length + 1 = (n + 1) + k :=
    ⟨(decode body ++ (⟨10, [10]⟩ : Ch) :: decode y).length - k, by
      simp only [List.length_append, List.length_cons]; omega⟩
  have hc : scanCommentN U ((decode body ++ (⟨10, [10]⟩ : Ch) :: decode y).length + 1)
      ⟨decode body ++ ⟨10, [10]⟩ :: decode y, o + 1⟩ bs!"%" =
      .ok (acc', ⟨decode y, o + 1 + (bytesOf (decode body)).length + 1⟩) := by
    rw [hn, hrun, comment_end]
  obtain ⟨line, s', mid, h1, _, _, h4⟩ := scanComment_ok U _ ⟨decode body ++ ⟨10, [10]⟩ :: decode y, o + 1⟩
    bs!"%" (Nat.lt_succ_self _)
  rw [hc] at h1
  simp only [Res.ok.injEq, Prod.mk.injEq] at h1
  refine ⟨acc', by rw [h1.1]; exact h4, ?_⟩
  rw [e, scan_comment hc, bytesOf_decode]
  simp only [Res.ok.injEq, Prod.mk.injEq, SS.mk.injEq, true_and, List.length_append, List.length_cons, List.length_nil]
  omega

end Verif
