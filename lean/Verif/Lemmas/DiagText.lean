import Verif.Lemmas.DiagNum
/-! # Sources about which nothing is printed -/

namespace Verif
open Spec
variable {U : Nat → Bool}

theorem digitLt_8 {r : Nat} : digitLt 8 r = true ↔ r ∈ bs!"01234567" := by
  simp [digitLt, isDecimal]; omega
theorem digitLt_16 {r : Nat} : digitLt 16 r = true ↔ r ∈ bs!"0123456789abcdefABCDEF" := by
  simp [digitLt, isDecimal, isHex]; omega

theorem scanDigits_quiet {base : Nat} : ∀ (n : Nat) (cs : List Ch), scanDigitsDiags base n cs = [] →
    ∃ a, cs = a ++ scanDigits base n cs ∧ a.length = n ∧ ∀ c ∈ a, digitLt base c.r = true
  | 0, cs, _ => ⟨[], rfl, rfl, by simp⟩
  | n + 1, cs, h => by
    unfold scanDigitsDiags at h
    split at h
    · next hn =>
      obtain ⟨d, r, rfl, hd⟩ := nextIs_iff.1 hn
      obtain ⟨a, h1, h2, h3⟩ := scanDigits_quiet n r h
      refine ⟨d :: a, ?_, by simp [h2], ?_⟩
      · rw [scanDigits, if_pos hn, List.cons_append]
        exact congrArg _ h1
      · intro c hc
        rcases List.mem_cons.1 hc with rfl | hc
        · exact hd
        · exact h3 c hc
    · cases h

theorem scanDigits_go {base : Nat} {rest : List Ch} : ∀ (a : List Ch), (∀ c ∈ a, digitLt base c.r = true) →
    scanDigitsDiags base a.length (a ++ rest) = [] ∧ scanDigits base a.length (a ++ rest) = rest
  | [], _ => ⟨rfl, rfl⟩
  | c :: a, h => by
    have hn : nextIs (digitLt base) (c :: a ++ rest) = true := h c List.mem_cons_self
    rw [List.length_cons, scanDigitsDiags, scanDigits, if_pos hn, if_pos hn]
    exact scanDigits_go a fun d hd => h d (List.mem_cons_of_mem _ hd)

/-- An escape sequence of Go, behind the backslash. -/
def GoEscape (n : List Ch) : Prop :=
  (∃ c, n = [c] ∧ c.r ∈ bs!"abfnrtv\\\"") ∨ (n.length = 3 ∧ ∀ c ∈ n, c.r ∈ bs!"01234567") ∨
  ∃ x m, n = x :: m ∧ (x.r = ch!"x" ∧ m.length = 2 ∨ x.r = ch!"u" ∧ m.length = 4 ∨ x.r = ch!"U" ∧ m.length = 8) ∧ ∀ c ∈ m, c.r ∈ bs!"0123456789abcdefABCDEF"

theorem go_escape {b : Ch} {n a : List Ch} (hb : b.r = ch!"\\") (h : GoEscape n) (ha : GoQuoted a) : GoQuoted (b :: n ++ a) := by
  rcases h with ⟨c, rfl, hc⟩ | ⟨h1, h2⟩ | ⟨x, m, rfl, h1, h2⟩
  · exact .simple hb hc ha
  · exact .octal hb h1 h2 ha
  · exact .hex hb h1 h2 ha

theorem scanEscape_quiet {cs : List Ch} (h : scanEscapeDiags cs = []) : ∃ n, cs = n ++ scanEscape cs ∧ GoEscape n := by
  cases cs with
  | nil => cases h
  | cons c cs =>
    unfold scanEscapeDiags at h
    unfold scanEscape
    dsimp only at h ⊢
    split at h
    · next h1 =>
      rw [if_pos h1]
      exact ⟨[c], rfl, .inl ⟨c, rfl, by simpa using h1⟩⟩
    next h1 =>
    rw [if_neg h1]
    split at h
    · next h2 =>
      rw [if_pos h2]
      obtain ⟨a, e, hl, hd⟩ := scanDigits_quiet _ _ h
      exact ⟨a, e, .inr (.inl ⟨hl, fun c hc => digitLt_8.1 (hd c hc)⟩)⟩
    next h2 =>
    rw [if_neg h2]
    split at h
    · next h3 =>
      rw [if_pos h3]
      obtain ⟨a, e, hl, hd⟩ := scanDigits_quiet _ _ h
      exact ⟨c :: a, congrArg _ e, .inr (.inr ⟨c, a, rfl, .inl ⟨h3, hl⟩, fun c hc => digitLt_16.1 (hd c hc)⟩)⟩
    next h3 =>
    rw [if_neg h3]
    split at h
    · next h4 =>
      rw [if_pos h4]
      obtain ⟨a, e, hl, hd⟩ := scanDigits_quiet _ _ h
      exact ⟨c :: a, congrArg _ e, .inr (.inr ⟨c, a, rfl, .inr (.inl ⟨h4, hl⟩), fun c hc => digitLt_16.1 (hd c hc)⟩)⟩
    next h4 =>
    rw [if_neg h4]
    split at h
    · next h5 =>
      rw [if_pos h5]
      obtain ⟨a, e, hl, hd⟩ := scanDigits_quiet _ _ h
      exact ⟨c :: a, congrArg _ e, .inr (.inr ⟨c, a, rfl, .inr (.inr ⟨h5, hl⟩), fun c hc => digitLt_16.1 (hd c hc)⟩)⟩
    · cases h

theorem scanEscape_go {n rest : List Ch} (h : GoEscape n) : scanEscapeDiags (n ++ rest) = [] ∧ scanEscape (n ++ rest) = rest := by
  rcases h with ⟨c, rfl, hc⟩ | ⟨h1, h2⟩ | ⟨x, m, rfl, h1, h2⟩
  · have : (bs!"abfnrtv\\\"").contains c.r = true := by simpa using hc
    simp only [List.cons_append, List.nil_append, scanEscapeDiags, scanEscape, this, if_true, and_self]
  · cases n with
    | nil => cases h1
    | cons c n =>
      have h3 := scanDigits_go (rest := rest) (c :: n) fun d hd => digitLt_8.2 (h2 d hd)
      rw [h1] at h3
      have h4 := h2 c List.mem_cons_self
      have h5 : (bs!"abfnrtv\\\"").contains c.r = false := by
        rw [← Bool.not_eq_true, List.contains_iff_mem]; intro h; simp at h h4; omega
      have h6 : (decide (48 ≤ c.r) && decide (c.r ≤ 55)) = true := by simp at h4 ⊢; omega
      rw [List.cons_append] at h3 ⊢
      simp only [scanEscapeDiags, scanEscape, h5, h6, Bool.false_eq_true, if_false, if_true]
      exact h3
  · have h3 := scanDigits_go (rest := rest) m fun d hd => digitLt_16.2 (h2 d hd)
    have h5 : (bs!"abfnrtv\\\"").contains x.r = false := by
      rw [← Bool.not_eq_true, List.contains_iff_mem]; intro h; simp at h; omega
    have h6 : ¬ (decide (48 ≤ x.r) && decide (x.r ≤ 55)) = true := by simp; omega
    rw [List.cons_append]
    simp only [scanEscapeDiags, scanEscape, h5, h6, Bool.false_eq_true, if_false]
    rcases h1 with ⟨h, hl⟩ | ⟨h, hl⟩ | ⟨h, hl⟩ <;> rw [hl] at h3 <;> simp only [h, if_true] <;> simpa using h3

theorem string_quiet : ∀ (n : Nat) (cs : List Ch), cs.length ≤ n → scanStringDiags n cs = [] → ∃ a, GoQuoted a ∧ cs = a ++ (scanStringN n cs).tail
  | _, [], _, h => by simp [scanStringDiags] at h
  | 0, c :: cs, hn, _ => by simp at hn
  | n + 1, c :: cs, hn, h => by
    rw [List.length_cons] at hn
    unfold scanStringDiags at h
    unfold scanStringN
    split at h
    · next h1 => simp only [h1]; exact ⟨[c], .close h1, by simp⟩
    next h1 =>
    split at h
    · cases h
    next h2 =>
    have h3 : ¬ (decide (c.r = ch!"\"") || decide (c.r = ch!"\n")) = true := by simp [h1, h2]
    rw [if_neg h3]
    split at h
    · next h4 =>
      rw [if_pos h4]
      obtain ⟨he, h⟩ := List.append_eq_nil_iff.1 h
      obtain ⟨m, e, hm⟩ := scanEscape_quiet he
      have hlen : (scanEscape cs).length ≤ n := by
        have := congrArg List.length e
        simp at this; omega
      obtain ⟨a, ha, e2⟩ := string_quiet n _ hlen h
      refine ⟨c :: m ++ a, go_escape h4 hm ha, ?_⟩
      rw [List.append_assoc, ← e2, List.cons_append, ← e]
    · next h4 =>
      rw [if_neg h4]
      obtain ⟨a, ha, e2⟩ := string_quiet n _ (by omega) h
      refine ⟨c :: a, .plain ?_ ha, by rw [List.cons_append, ← e2]⟩
      simp; omega

theorem string_go {a : List Ch} (h : GoQuoted a) : ∀ (rest : List Ch) (n : Nat), (a ++ rest).length ≤ n →
    scanStringDiags n (a ++ rest) = [] ∧ (scanStringN n (a ++ rest)).tail = rest := by
  have esc : ∀ {b : Ch} {m a : List Ch}, b.r = ch!"\\" → GoEscape m → (∀ (rest : List Ch) (n : Nat), (a ++ rest).length ≤ n →
      scanStringDiags n (a ++ rest) = [] ∧ (scanStringN n (a ++ rest)).tail = rest) → ∀ (rest : List Ch) (n : Nat), (b :: m ++ a ++ rest).length ≤ n →
      scanStringDiags n (b :: m ++ a ++ rest) = [] ∧ (scanStringN n (b :: m ++ a ++ rest)).tail = rest := by
    intro b m a hb hm ih rest n hn
    cases n with
    | zero => simp at hn
    | succ n =>
      have e : b :: m ++ a ++ rest = b :: (m ++ (a ++ rest)) := by simp
      rw [e] at hn ⊢
      obtain ⟨g1, g2⟩ := scanEscape_go (rest := a ++ rest) hm
      have := ih rest n (by simp at hn ⊢; omega)
      simp only [scanStringDiags, scanStringN, hb, g1, g2]
      simpa using this
  induction h with
  | close hc =>
    intro rest n hn
    cases n with
    | zero => simp at hn
    | succ n => simp [scanStringDiags, scanStringN, hc]
  | @plain c a hc _ ih =>
    intro rest n hn
    cases n with
    | zero => simp at hn
    | succ n =>
      have := ih rest n (by simp at hn ⊢; omega)
      have h3 : c.r ≠ 34 ∧ c.r ≠ 10 ∧ c.r ≠ 92 := by simpa using hc
      simp only [List.cons_append, scanStringDiags, scanStringN, h3.1, h3.2.1, h3.2.2, if_false]
      simpa using this
  | simple hb hc _ ih => exact esc hb (.inl ⟨_, rfl, hc⟩) ih
  | octal hb hn hc _ ih => exact esc hb (.inr (.inl ⟨hn, hc⟩)) ih
  | hex hb hx hc _ ih => exact esc hb (.inr (.inr ⟨_, _, rfl, hx, hc⟩)) ih

/-- Nothing is printed about what begins with a quote exactly if it is a string of Go. -/
theorem quoted_quiet {c : Ch} {mid rest : List Ch} (hq : c.r = ch!"\"") (hl : isLetter U c.r = false) (hr : (scanRest U c (mid ++ rest)).2 = rest) :
    restDiags U c (mid ++ rest) = [] ↔ GoQuoted mid := by
  have h1 : ¬ isDecimal c.r = true := by rw [hq]; decide
  have e1 : restDiags U c (mid ++ rest) = scanStringDiags (mid ++ rest).length (mid ++ rest) := by
    rw [restDiags, if_neg (by simp [hl]), if_neg h1, if_pos hq]
  have e2 : (scanRest U c (mid ++ rest)).2 = (scanStringN (mid ++ rest).length (mid ++ rest)).tail := by
    rw [scanRest, if_neg (by simp [hl]), if_neg h1, if_pos hq]
  rw [e1]
  rw [e2] at hr
  constructor
  · intro h
    obtain ⟨a, ha, e⟩ := string_quiet _ _ (Nat.le_refl _) h
    rw [hr] at e
    rw [List.append_cancel_right e]
    exact ha
  · intro h
    exact (string_go h rest _ (Nat.le_refl _)).1

theorem quote_letter {r : Nat} (h : r = ch!"\"") : isLetter U r = false := by subst h; simp [isLetter]
theorem digit_letter {r : Nat} (h : isDecimal r = true) : isLetter U r = false := by
  simp [isDecimal] at h
  rw [← Bool.not_eq_true]
  intro hl
  have := letter_range hl (by omega)
  omega
theorem dot_letter {r : Nat} (h : r = ch!".") : isLetter U r = false := by subst h; simp [isLetter]

theorem number_letter {c : Ch} {a rest : List Ch} (h : Number (c :: a) rest) : isLetter U c.r = false := by
  rcases number_head h with h | ⟨h, -⟩
  · exact digit_letter h
  · exact dot_letter h

theorem char_quiet {c : Ch} {cs : List Ch} (h1 : isLetter U c.r = false) (h2 : c.r ∉ bs!"0123456789\"")
    (h3 : c.r = ch!"." → ∀ d, cs.head? = some d → d.r ∉ bs!"0123456789") : restDiags U c cs = [] := by
  have e1 : ¬ isDecimal c.r = true := by rw [digit_iff]; intro h; apply h2; revert h; simp; omega
  have e2 : ¬ c.r = ch!"\"" := by intro h; rw [h] at h2; exact h2 (by decide)
  rw [restDiags, if_neg (by simp [h1]), if_neg e1, if_neg e2]
  split
  · next h =>
    rw [if_neg]
    rw [nextIs_not]
    intro d hd
    have := h3 h d hd
    rw [← digit_iff] at this
    simpa using this
  · rfl

/-- No messages: all the pieces are literals of Go. -/
theorem cut_pieces {cs : List Ch} {D : List Diag} (h : Cut U cs D) : D = [] ↔ ∃ P, Pieces U cs P ∧ ∀ p ∈ P, p.Fine := by
  induction h with
  | done => exact ⟨fun _ => ⟨[], .done, by simp⟩, fun _ => rfl⟩
  | @more c cs P _ ih =>
    obtain ⟨mid, hmid, hcls⟩ := scanRest_lex U c cs
    generalize hrest : (scanRest U c cs).2 = rest at *
    generalize (scanRest U c cs).1 = cls at hcls
    subst hmid
    rw [List.append_eq_nil_iff, ih]
    constructor
    · rintro ⟨hq, Q, hQ, hf⟩
      have num : Number (c :: mid) rest → ∃ P, Pieces U (c :: (mid ++ rest)) P ∧ ∀ p ∈ P, p.Fine := by
        intro h
        refine ⟨.number (c :: mid) rest :: Q, .number h hQ, ?_⟩
        intro p hp
        rcases List.mem_cons.1 hp with rfl | hp
        · exact (number_quiet h (number_letter h)).1 hq
        · exact hf p hp
      cases cls with
      | ident =>
        obtain ⟨x, b, e, h1, h2⟩ := hcls
        cases e
        exact ⟨Q, .word h1 h2 hQ, hf⟩
      | int => exact num hcls
      | float => exact num hcls
      | string =>
        obtain ⟨x, b, e, h1, h2⟩ := hcls
        cases e
        refine ⟨.quoted mid :: Q, .quoted h1 h2 hQ, ?_⟩
        intro p hp
        rcases List.mem_cons.1 hp with rfl | hp
        · exact (quoted_quiet h1 (quote_letter h1) hrest).1 hq
        · exact hf p hp
      | rune r =>
        obtain ⟨x, e, h1, h2, h3, h4⟩ := hcls
        cases e
        subst h1
        exact ⟨Q, .char h2 h3 h4 hQ, hf⟩
      | eof => cases hcls.1
    · rintro ⟨P', hP', hf⟩
      generalize hA : c :: (mid ++ rest) = A at hP'
      cases hP' with
      | done => cases hA
      | @word c' a r' _ h1 h2 hQ =>
        have hc : ClsOf U .ident (c' :: a) r' := ⟨_, _, rfl, h1, h2⟩
        obtain ⟨-, e1, e2⟩ := cls_unique hcls hc hA (by simp) (by simp)
        cases e1; subst e2
        exact ⟨by rw [restDiags, if_pos h1], _, hQ, hf⟩
      | @number a r' _ h1 hQ =>
        have hc : ClsOf U .int a r' := h1
        obtain ⟨-, e1, e2⟩ := cls_unique hcls hc hA (by simp) (number_ne h1)
        subst e1; subst e2
        exact ⟨(number_quiet h1 (number_letter h1)).2 (hf _ List.mem_cons_self), _, hQ, fun p hp => hf p (List.mem_cons_of_mem _ hp)⟩
      | @quoted q a r' _ h1 h2 hQ =>
        have hc : ClsOf U .string (q :: a) r' := ⟨_, _, rfl, h1, h2⟩
        obtain ⟨-, e1, e2⟩ := cls_unique hcls hc hA (by simp) (by simp)
        cases e1; subst e2
        exact ⟨(quoted_quiet h1 (quote_letter h1) hrest).2 (hf _ List.mem_cons_self), _, hQ, fun p hp => hf p (List.mem_cons_of_mem _ hp)⟩
      | @char c' r' _ h1 h2 h3 hQ =>
        have hc : ClsOf U (.rune c'.r) [c'] r' := ⟨_, rfl, rfl, h1, h2, h3⟩
        obtain ⟨-, e1, e2⟩ := cls_unique hcls hc hA (by simp) (by simp)
        cases e1; subst e2
        exact ⟨char_quiet h1 h2 h3, _, hQ, hf⟩

/-- The messages, piece by piece. -/
theorem cut_each {cs : List Ch} {D : List Diag} (h : Cut U cs D) :
    ∃ l : List (Piece × List Diag), Pieces U cs (l.map (·.1)) ∧ D = l.flatMap (·.2) ∧ ∀ p ∈ l, (p.2 = [] ↔ p.1.Fine) := by
  induction h with
  | done => exact ⟨[], .done, rfl, by simp⟩
  | @more c cs P _ ih =>
    obtain ⟨mid, hmid, hcls⟩ := scanRest_lex U c cs
    generalize hrest : (scanRest U c cs).2 = rest at *
    generalize (scanRest U c cs).1 = cls at hcls
    subst hmid
    obtain ⟨l, hl, rfl, hf⟩ := ih
    have num : Number (c :: mid) rest → ∃ l' : List (Piece × List Diag), Pieces U (c :: (mid ++ rest)) (l'.map (·.1)) ∧
        restDiags U c (mid ++ rest) ++ l.flatMap (·.2) = l'.flatMap (·.2) ∧ ∀ p ∈ l', (p.2 = [] ↔ p.1.Fine) := by
      intro h
      refine ⟨(.number (c :: mid) rest, restDiags U c (mid ++ rest)) :: l, .number h hl, rfl, ?_⟩
      intro p hp
      rcases List.mem_cons.1 hp with rfl | hp
      · exact number_quiet h (number_letter h)
      · exact hf p hp
    cases cls with
    | ident =>
      obtain ⟨x, b, e, h1, h2⟩ := hcls
      cases e
      exact ⟨l, .word h1 h2 hl, by rw [restDiags, if_pos h1]; rfl, hf⟩
    | int => exact num hcls
    | float => exact num hcls
    | string =>
      obtain ⟨x, b, e, h1, h2⟩ := hcls
      cases e
      refine ⟨(.quoted mid, restDiags U c (mid ++ rest)) :: l, .quoted h1 h2 hl, rfl, ?_⟩
      intro p hp
      rcases List.mem_cons.1 hp with rfl | hp
      · exact quoted_quiet h1 (quote_letter h1) hrest
      · exact hf p hp
    | rune r =>
      obtain ⟨x, e, h1, h2, h3, h4⟩ := hcls
      cases e
      subst h1
      exact ⟨l, .char h2 h3 h4 hl, by rw [List.nil_append, char_quiet h2 h3 h4]; rfl, hf⟩
    | eof => cases hcls.1

def headPieces : RTok → List Ch → List Ch → List Piece
  | .int, a, rest => [.number a rest]
  | .float, a, rest => [.number a rest]
  | .string, a, _ => [.quoted a.tail]
  | _, _, _ => []

theorem pieces_step {cs : List Ch} {P : List Piece} (h : Pieces U cs P) (hne : cs ≠ []) : ∃ cls a rest Q, cs = a ++ rest ∧ a ≠ [] ∧ ClsOf U cls a rest ∧
    Pieces U rest Q ∧ P = headPieces cls a rest ++ Q := by
  cases h with
  | done => exact absurd rfl hne
  | word h1 h2 hQ => exact ⟨.ident, _, _, _, rfl, by simp, ⟨_, _, rfl, h1, h2⟩, hQ, rfl⟩
  | number h1 hQ => exact ⟨.int, _, _, _, rfl, number_ne h1, h1, hQ, rfl⟩
  | quoted h1 h2 hQ => exact ⟨.string, _, _, _, rfl, by simp, ⟨_, _, rfl, h1, h2⟩, hQ, rfl⟩
  | @char c rest _ h1 h2 h3 hQ => exact ⟨.rune c.r, [c], rest, _, rfl, by simp, ⟨_, rfl, rfl, h1, h2, h3⟩, hQ, rfl⟩

theorem pieces_unique : ∀ (n : Nat) {cs : List Ch} {P P' : List Piece}, cs.length ≤ n → Pieces U cs P → Pieces U cs P' → P = P' := by
  intro n
  induction n with
  | zero =>
    intro cs P P' hn h h'
    cases cs with
    | cons => simp at hn
    | nil =>
      have nil : ∀ {cs P}, Pieces U cs P → cs = [] → P = [] := by
        intro cs P h he
        cases h with
        | done => rfl
        | word => cases he
        | number h1 => exact absurd (List.append_eq_nil_iff.1 he).1 (number_ne h1)
        | quoted => cases he
        | char => cases he
      rw [nil h rfl, nil h' rfl]
  | succ n ih =>
    intro cs P P' hn h h'
    by_cases hne : cs = []
    · subst hne; exact ih (by simp) h h'
    · obtain ⟨cls, a, rest, Q, rfl, ha, hc, hQ, rfl⟩ := pieces_step h hne
      obtain ⟨cls', a', rest', Q', e, ha', hc', hQ', rfl⟩ := pieces_step h' hne
      obtain ⟨hs, rfl, rfl⟩ := cls_unique hc hc' e ha ha'
      have hl : rest.length ≤ n := by
        have : 0 < a.length := List.length_pos_iff.2 ha
        simp at hn; omega
      rw [ih hl hQ hQ']
      congr 1
      rcases hs with rfl | ⟨h1, h2⟩
      · rfl
      · rcases h1 with rfl | rfl <;> rcases h2 with rfl | rfl <;> rfl

theorem cut_exists : ∀ (n : Nat) (cs : List Ch), cs.length ≤ n → ∃ D, Cut U cs D
  | _, [], _ => ⟨[], .done⟩
  | 0, c :: cs, h => by simp at h
  | n + 1, c :: cs, h => by
    obtain ⟨mid, hmid, -⟩ := scanRest_lex U c cs
    have hl : (scanRest U c cs).2.length ≤ n := by
      have := congrArg List.length hmid
      simp at this h
      omega
    obtain ⟨D, hD⟩ := cut_exists n _ hl
    exact ⟨_, .more hD⟩

theorem charDiag_clean {c : Ch} : charDiag c = [] ↔ CleanCh c := by
  unfold charDiag CleanCh
  split
  · next h => simp [h]
  · next h =>
    split
    · next h' => simp [h']
    · next h' => simp [h, h']

theorem chars_clean {cs : List Ch} : cs.flatMap charDiag = [] ↔ ∀ c ∈ cs, CleanCh c := by
  rw [List.flatMap_eq_nil_iff]
  exact forall_congr' fun c => forall_congr' fun _ => charDiag_clean

end Verif
