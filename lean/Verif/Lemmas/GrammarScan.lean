import Verif.Lemmas.GrammarLex
/-! # Lexemes: the scanner reads the lexemes of `Spec/Grammar`, and no others -/

namespace Verif
open Spec
variable {U : Nat → Bool}

theorem isWs_isBreak (r : Nat) : isWs r = isBreak r := rfl

/-- The same class, but integers and other numbers are not told apart. -/
def SameCls (a b : RTok) : Prop := a = b ∨ (a = .int ∨ a = .float) ∧ (b = .int ∨ b = .float)

theorem letter_range {r : Nat} (h : isLetter U r = true) (h' : r < 128) : (65 ≤ r ∧ r ≤ 90) ∨ (97 ≤ r ∧ r ≤ 122) := by
  unfold isLetter at h
  rw [if_pos h'] at h
  simpa using h

/-- What the first character says about a token. -/
theorem cls_head {cls : RTok} {c : Ch} {b rest : List Ch} (h : ClsOf U cls (c :: b) rest) :
    (cls = .ident ∧ isLetter U c.r = true) ∨
    ((cls = .int ∨ cls = .float) ∧ (isDecimal c.r = true ∨ c.r = ch!"." ∧ ∃ d r, b ++ rest = d :: r ∧ isDecimal d.r = true)) ∨
    (cls = .string ∧ c.r = ch!"\"") ∨
    (cls = .rune c.r ∧ isLetter U c.r = false ∧ isDecimal c.r = false ∧ c.r ≠ ch!"\"" ∧
      ∀ d r, c.r = ch!"." → b ++ rest = d :: r → isDecimal d.r = false) := by
  have num : Number (c :: b) rest → (isDecimal c.r = true ∨ c.r = ch!"." ∧ ∃ d r, b ++ rest = d :: r ∧ isDecimal d.r = true) := by
    intro h
    rcases number_head h with h1 | ⟨h1, d, r, rfl, hd⟩
    · exact .inl h1
    · exact .inr ⟨h1, d, r ++ rest, rfl, hd⟩
  cases cls with
  | eof => cases h.1
  | ident => obtain ⟨c', b', he, hl, -⟩ := h; cases he; exact .inl ⟨rfl, hl⟩
  | int => exact .inr (.inl ⟨.inl rfl, num h⟩)
  | float => exact .inr (.inl ⟨.inr rfl, num h⟩)
  | string => obtain ⟨c', b', he, hl, -⟩ := h; cases he; exact .inr (.inr (.inl ⟨rfl, hl⟩))
  | rune r =>
    obtain ⟨c', he, hr, h1, h2, h3⟩ := h
    cases he
    subst hr
    refine .inr (.inr (.inr ⟨rfl, h1, ?_, ?_, ?_⟩))
    · rw [← Bool.not_eq_true, digit_iff]
      intro hm; apply h2; revert hm; simp; omega
    · intro h; rw [h] at h2; exact h2 (by decide)
    · intro d r hc he
      rw [← Bool.not_eq_true, digit_iff]
      refine h3 hc d ?_
      rw [List.nil_append] at he
      rw [he]
      rfl

theorem cls_unique {cls cls' : RTok} {a rest a' rest' : List Ch} (h : ClsOf U cls a rest) (h' : ClsOf U cls' a' rest')
    (e : a ++ rest = a' ++ rest') (ha : a ≠ []) (ha' : a' ≠ []) : SameCls cls cls' ∧ a = a' ∧ rest = rest' := by
  obtain ⟨c, b, rfl⟩ := List.exists_cons_of_ne_nil ha
  obtain ⟨c', b', rfl⟩ := List.exists_cons_of_ne_nil ha'
  obtain ⟨rfl, e1⟩ := cons_split e
  have hd : ∀ {r : Nat}, isDecimal r = true → 48 ≤ r ∧ r ≤ 57 := by intro r h; simpa [isDecimal] using h
  have hl : ∀ {r : Nat}, isLetter U r = true → r < 128 → (65 ≤ r ∧ r ≤ 90) ∨ (97 ≤ r ∧ r ≤ 122) := letter_range
  have hnum : ∀ {cls}, cls = RTok.int ∨ cls = RTok.float → ∀ {a rest}, ClsOf U cls a rest → Number a rest := by
    intro cls hc a rest h
    rcases hc with rfl | rfl <;> exact h
  rcases cls_head h with ⟨h1, h2⟩ | ⟨h1, h2⟩ | ⟨h1, h2⟩ | ⟨h1, h2, h3, h4, h5⟩ <;>
  rcases cls_head h' with ⟨h1', h2'⟩ | ⟨h1', h2'⟩ | ⟨h1', h2'⟩ | ⟨h1', h2', h3', h4', h5'⟩
  · subst h1 h1'
    obtain ⟨_, _, he, _, hr⟩ := h
    obtain ⟨_, _, he', _, hr'⟩ := h'
    cases he; cases he'
    obtain ⟨rfl, rfl⟩ := run_unique hr hr' e1
    exact ⟨.inl rfl, rfl, rfl⟩
  · rcases h2' with h2' | ⟨h2', -⟩
    · have := hd h2'; have := hl h2 (by omega); omega
    · have := hl h2 (by omega); omega
  · have := hl h2 (by omega); omega
  · rw [h2] at h2'; cases h2'
  · rcases h2 with h2 | ⟨h2, -⟩
    · have := hd h2; have := hl h2' (by omega); omega
    · have := hl h2' (by omega); omega
  · obtain ⟨h3, h4⟩ := number_unique (hnum h1 h) (hnum h1' h') e
    exact ⟨.inr ⟨h1, h1'⟩, h3, h4⟩
  · rcases h2 with h2 | ⟨h2, -⟩
    · have := hd h2; omega
    · omega
  · rcases h2 with h2 | ⟨h2, d, r, he, hd'⟩
    · rw [h2] at h3'; cases h3'
    · rw [e1] at he
      rw [h5' d r h2 he] at hd'; cases hd'
  · have := hl h2' (by omega); omega
  · rcases h2' with h2' | ⟨h2', -⟩
    · have := hd h2'; omega
    · omega
  · subst h1 h1'
    obtain ⟨_, _, he, _, hr⟩ := h
    obtain ⟨_, _, he', _, hr'⟩ := h'
    cases he; cases he'
    obtain ⟨rfl, rfl⟩ := quoted_unique hr hr' e1
    exact ⟨.inl rfl, rfl, rfl⟩
  · exact absurd h2 h4'
  · rw [h2'] at h2; cases h2
  · rcases h2' with h2' | ⟨h2', d, r, he, hd'⟩
    · rw [h2'] at h3; cases h3
    · rw [← e1] at he
      rw [h5 d r h2' he] at hd'; cases hd'
  · exact absurd h2' h4
  · subst h1 h1'
    obtain ⟨_, he, _⟩ := h
    obtain ⟨_, he', _⟩ := h'
    cases he; cases he'
    exact ⟨.inl rfl, rfl, e1⟩

/-- `rawScan` reads what there is to read. -/
theorem raw_unique {ws : Nat → Bool} {s : SS} {w a rest : List Ch} {cls : RTok} (hs : s.rest = w ++ a ++ rest) (hw : ∀ c ∈ w, ws c.r = true)
    (hn : ∀ c, a.head? = some c → ws c.r = false) (hc : ClsOf U cls a rest) :
    ∃ t s', rawScan U ws s = (t, s') ∧ SameCls t.cls cls ∧ s'.rest = rest ∧ t.pos = s.off + (bytesOf w).length ∧ t.text = bytesOf a ∧
      s'.off = s.off + (bytesOf w).length + (bytesOf a).length := by
  obtain ⟨w', a', h⟩ := rawScan_lex U ws s
  generalize rawScan U ws s = R at h
  obtain ⟨t, s'⟩ := R
  refine ⟨t, s', rfl, ?_⟩
  dsimp only at h ⊢
  have hnil : ∀ {cls : RTok} {rest : List Ch}, ClsOf U cls [] rest → cls = .eof ∧ rest = [] := by
    intro cls rest h
    cases cls with
    | eof => exact ⟨rfl, h.2⟩
    | ident => obtain ⟨_, _, he, _⟩ := h; cases he
    | int => exact absurd rfl (number_ne h)
    | float => exact absurd rfl (number_ne h)
    | string => obtain ⟨_, _, he, _⟩ := h; cases he
    | rune r => obtain ⟨_, he, _⟩ := h; cases he
  have run : ∀ {w a rest : List Ch} {cls}, (∀ c ∈ w, ws c.r = true) → (∀ c, a.head? = some c → ws c.r = false) → ClsOf U cls a rest →
      Run ws w (a ++ rest) := by
    intro w a rest cls hw hn hc
    refine ⟨hw, fun c h => ?_⟩
    cases a with
    | nil => rw [(hnil hc).2] at h; cases h
    | cons d a => exact hn c h
  have e : w ++ (a ++ rest) = w' ++ (a' ++ s'.rest) := by rw [← List.append_assoc, ← hs, h.rest, List.append_assoc]
  obtain ⟨rfl, e1⟩ := run_unique (run hw hn hc) (run h.wsw h.nows h.cls) e
  suffices SameCls t.cls cls ∧ a' = a ∧ s'.rest = rest by
    obtain ⟨h1, rfl, h2⟩ := this
    exact ⟨h1, h2, h.pos, h.text, by rw [h.off, h.pos]⟩
  by_cases ha : a = []
  · subst ha
    obtain ⟨rfl, rfl⟩ := hnil hc
    obtain ⟨h1, h2⟩ := List.append_eq_nil_iff.1 e1.symm
    subst h1
    exact ⟨.inl (hnil h.cls).1, rfl, h2⟩
  · by_cases ha' : a' = []
    · subst ha'
      rw [(hnil h.cls).2, List.append_nil] at e1
      exact absurd (List.append_eq_nil_iff.1 e1).1 ha
    · obtain ⟨h1, h2, h3⟩ := cls_unique h.cls hc e1.symm ha' ha
      exact ⟨h1, h2, h3⟩

/-- The kind of the token a character makes. -/
def markKind (c : Nat) : Kind :=
  if c = ch!"[" then .lbrack else if c = ch!"]" then .rbrack else if c = ch!"{" then .lbrace else if c = ch!"}" then .rbrace
  else if c = ch!"(" then .lparen else if c = ch!")" then .rparen else .symbol

/-- The token of a lexeme (the text of a comment does not matter, nor that of a quoted string). -/
def TokFor (t : Token) : Lex → Prop
  | .word x => t.kind = .word ∧ t.text = x
  | .number x => t.kind = .number ∧ t.text = x
  | .blank x => t.kind = .space ∧ t.text = x
  | .comment => t.kind = .comment ∧ bs!"%" <+: t.text
  | .name x => t.kind = .macro ∧ t.text = x
  | .quoted => t.kind = .other ∧ ∃ r, t.text = ch!"\"" :: r
  | .mark c => t.kind = markKind c ∧ t.text = [c]
  | .wrong _ => False

theorem letter_ws {r : Nat} (h : isLetter U r = true) : isWs r = false := by
  rw [← Bool.not_eq_true]
  intro hw
  have : r = 9 ∨ r = 10 ∨ r = 13 := by simpa [isWs, or_assoc] using hw
  have := letter_range h (by omega)
  omega

theorem number_ws {a rest : List Ch} (h : Number a rest) : ∀ c, a.head? = some c → isWs c.r = false := by
  intro c hc
  cases a with
  | nil => cases hc
  | cons d a =>
    cases hc
    rcases number_head h with h1 | ⟨h1, -⟩
    · have : 48 ≤ c.r ∧ c.r ≤ 57 := by simpa [isDecimal] using h1
      simp [isWs]; omega
    · rw [h1]; decide

theorem not_ws {r : Nat} (h : r ∉ bs!"\t\n\r") : isWs r = false := by
  revert h; simp [isWs]; intro h1 h2 h3; exact ⟨⟨h1, h2⟩, h3⟩

theorem name_cls {a rest : List Ch} (h : Name U a rest) : ∃ cls, ClsOf U cls a rest ∧ ∀ c, a.head? = some c → isWs c.r = false := by
  cases h with
  | nothing => exact ⟨.eof, ⟨rfl, rfl⟩, by simp⟩
  | word h1 h2 => exact ⟨.ident, ⟨_, _, rfl, h1, h2⟩, fun c hc => by cases hc; exact letter_ws h1⟩
  | number h => exact ⟨.int, h, number_ws h⟩
  | quoted h1 h2 => exact ⟨.string, ⟨_, _, rfl, h1, h2⟩, fun c hc => by cases hc; rw [h1]; decide⟩
  | char h1 h2 h3 =>
    refine ⟨.rune _, ⟨_, rfl, rfl, h1, ?_, h3⟩, fun c hc => ?_⟩
    · revert h2; simp; omega
    · cases hc; apply not_ws; revert h2; simp

theorem cls_name {cls : RTok} {a rest : List Ch} (h : ClsOf U cls a rest) (hw : ∀ c, a.head? = some c → isWs c.r = false) : Name U a rest := by
  cases cls with
  | eof => obtain ⟨rfl, rfl⟩ := h; exact .nothing
  | ident => obtain ⟨c, b, rfl, h1, h2⟩ := h; exact .word h1 h2
  | int => exact .number h
  | float => exact .number h
  | string => obtain ⟨c, b, rfl, h1, h2⟩ := h; exact .quoted h1 h2
  | rune r =>
    obtain ⟨c, rfl, rfl, h1, h2, h3⟩ := h
    refine .char h1 ?_ h3
    have := hw c rfl
    intro hm
    revert this h2 hm
    simp [isWs]
    omega

/-- The characters that make a symbol. -/
theorem symbolChars_iff (c : Nat) : symbolChars.contains c = true ↔ c ∈ bs!"$_=<>^/*-+!?':,;." := by
  rw [List.contains_iff_mem]; rfl

theorem scanComment_prefix : ∀ (n : Nat) (s : SS) (acc line : GoString) (s' : SS), scanCommentN U n s acc = .ok (line, s') → acc <+: line := by
  intro n
  induction n with
  | zero => intro s acc line s' h; simp [scanCommentN] at h
  | succ n ih =>
    intro s acc line s' h
    rw [scanCommentN] at h
    dsimp only at h
    split at h
    · exact ih _ _ _ _ h
    split at h
    · cases h; exact List.prefix_rfl
    · exact (List.prefix_append _ _).trans (ih _ _ _ _ h)

/-- A token the scanner reads is a lexeme. -/
theorem scan_lexeme {s : SS} {t : Token} {s' : SS} (hwf : ∀ c ∈ s.rest, c.WF) (h : scan U s = .ok (t, s')) :
    (t.kind = .eof ∧ t.text = [] ∧ s'.rest = [] ∧ ∀ c ∈ s.rest, isBreak c.r = true) ∨
    (t.kind ≠ .eof ∧ ∃ w a k, s.rest = w ++ a ++ s'.rest ∧ (∀ c ∈ w, isBreak c.r = true) ∧ t.pos = s.off + (bytesOf w).length ∧
      s'.off = s.off + (bytesOf w).length + (bytesOf a).length ∧ Lexeme U a k s'.rest ∧ TokFor t k) := by
  obtain ⟨w, a, hr⟩ := rawScan_lex U isWs s
  unfold scan at h
  generalize rawScan U isWs s = R at h hr
  obtain ⟨t1, s1⟩ := R
  dsimp only at h hr
  have hoff : s1.off = s.off + (bytesOf w).length + (bytesOf a).length := by rw [hr.off, hr.pos]
  have hcls := hr.cls
  cases hc : t1.cls with
  | eof =>
    rw [hc] at h hcls
    obtain ⟨rfl, hcs⟩ := hcls
    cases h
    refine .inl ⟨rfl, rfl, hcs, ?_⟩
    rw [hr.rest, hcs]
    intro c hc
    exact hr.wsw c (by simpa using hc)
  | ident =>
    rw [hc] at h hcls
    obtain ⟨c, b, rfl, h1, h2⟩ := hcls
    cases h
    exact .inr ⟨by simp, w, _, _, hr.rest, hr.wsw, hr.pos, hoff, .word h1 h2, rfl, hr.text⟩
  | int =>
    rw [hc] at h hcls
    cases h
    exact .inr ⟨by simp, w, _, _, hr.rest, hr.wsw, hr.pos, hoff, .number hcls, rfl, hr.text⟩
  | float =>
    rw [hc] at h hcls
    cases h
    exact .inr ⟨by simp, w, _, _, hr.rest, hr.wsw, hr.pos, hoff, .number hcls, rfl, hr.text⟩
  | string =>
    rw [hc] at h hcls
    obtain ⟨c, b, rfl, h1, h2⟩ := hcls
    cases h
    refine .inr ⟨by simp, w, _, _, hr.rest, hr.wsw, hr.pos, hoff, .quoted h1 h2, rfl, ?_⟩
    have : c.b = [ch!"\""] := by
      have := (hwf c (by rw [hr.rest]; simp)).2
      rw [h1] at this
      exact this (by omega)
    exact ⟨bytesOf b, by rw [hr.text]; simp [bytesOf, this]⟩
  | rune r =>
    rw [hc] at h hcls
    obtain ⟨c, rfl, rfl, h1, h2, h3⟩ := hcls
    have hb : c.r < 128 → c.b = [c.r] := (hwf c (by rw [hr.rest]; simp)).2
    have hlen : c.r < 128 → (bytesOf [c]).length = 1 := by intro h; simp [bytesOf, hb h]
    have htext : c.r < 128 → t1.text = [c.r] := by intro h; rw [hr.text]; simp [bytesOf, hb h]
    have one : ∀ {k : Kind}, t = ⟨k, t1.pos, t1.text⟩ → s' = s1 → c.r ∈ marks1 → c.r < 128 → k = markKind c.r → k ≠ .eof →
        t.kind ≠ .eof ∧ ∃ w a k, s.rest = w ++ a ++ s'.rest ∧ (∀ c ∈ w, isBreak c.r = true) ∧ t.pos = s.off + (bytesOf w).length ∧
          s'.off = s.off + (bytesOf w).length + (bytesOf a).length ∧ Lexeme U a k s'.rest ∧ TokFor t k := by
      intro k ht hs' hm hl hk hne
      subst ht hs'
      exact ⟨hne, w, [c], .mark c.r, hr.rest, hr.wsw, hr.pos, hoff, .mark hm h3, hk, htext hl⟩
    dsimp only at h
    split at h
    · rename_i hbs
      split at h
      · rename_i hp
        cases h
        obtain ⟨d, rest1, hd⟩ : ∃ d rest1, s1.rest = d :: rest1 := by
          cases hh : s1.rest with
          | nil => simp [SS.peek, hh] at hp
          | cons d r => exact ⟨d, r, rfl⟩
        have hdr : d.r = ch!" " := by simpa [SS.peek, hd] using hp
        obtain ⟨t2, s2, e2, -, e3, -, -, e4⟩ := raw_unique (U := U) (ws := isWs) (s := s1) (w := []) (a := [d]) (rest := rest1) (cls := .rune d.r)
          (by rw [hd]; rfl) (by simp) (by intro c hc; cases hc; rw [hdr]; decide)
          ⟨d, rfl, rfl, by rw [hdr]; rfl, by rw [hdr]; decide, by rw [hdr]; intro h; cases h⟩
        rw [e2]
        refine .inr ⟨by simp, w, [c, d], .blank bs!"\\ ", ?_, hr.wsw, hr.pos, ?_, ?_, rfl, rfl⟩
        · rw [hr.rest, hd, e3]; simp
        · rw [e4, hoff]; simp [bytesOf]; omega
        · exact .escaped hbs hdr
      · rename_i hp
        cases h
        obtain ⟨w2, a2, hr2⟩ := rawScan_lex U isWs s1
        generalize rawScan U isWs s1 = R at hr2
        obtain ⟨t2, s2⟩ := R
        dsimp only at hr2 ⊢
        have hn := cls_name hr2.cls hr2.nows
        refine .inr ⟨by simp, w, c :: w2 ++ a2, .name (bs!"\\" ++ bytesOf a2), ?_, hr.wsw, hr.pos, ?_, .name hbs ?_ hr2.wsw hn, rfl, ?_⟩
        · rw [hr.rest, hr2.rest]; simp
        · rw [hr2.off, hr2.pos, hoff]; simp [bytesOf]; omega
        · intro d hd he
          apply hp
          rw [SS.peek, hr2.rest, hd]
          simp [he]
        · rw [hr2.text]
    split at h
    · rename_i hsp
      cases h
      exact .inr ⟨by simp, w, [c], .blank bs!" ", hr.rest, hr.wsw, hr.pos, hoff, .blank hsp, rfl, rfl⟩
    split at h
    · rename_i hpc
      obtain ⟨line, s2, a2, e2, e3, e4, e5⟩ := scanComment_lex U (s1.rest.length + 1) s1 bs!"%" (by omega)
      rw [e2] at h
      cases h
      refine .inr ⟨by simp, w, c :: a2, .comment, ?_, hr.wsw, hr.pos, ?_, .comment hpc e5, rfl, ?_⟩
      · rw [hr.rest, e3]; simp
      · rw [e4, hoff]; simp [bytesOf]; omega
      · exact scanComment_prefix _ _ _ _ _ e2
    split at h
    · rename_i hsy
      rw [symbolChars_iff] at hsy
      cases h
      have : c.r ∈ marks1 ∧ c.r < 128 ∧ Kind.symbol = markKind c.r := by
        revert hsy
        generalize c.r = r
        revert r
        decide
      exact .inr (one rfl rfl this.1 this.2.1 this.2.2 (by simp))
    split at h
    · rename_i hx; cases h; exact .inr (one rfl rfl (by rw [hx]; decide) (by rw [hx]; decide) (by rw [hx]; rfl) (by simp))
    split at h
    · rename_i hx; cases h; exact .inr (one rfl rfl (by rw [hx]; decide) (by rw [hx]; decide) (by rw [hx]; rfl) (by simp))
    split at h
    · rename_i hx; cases h; exact .inr (one rfl rfl (by rw [hx]; decide) (by rw [hx]; decide) (by rw [hx]; rfl) (by simp))
    split at h
    · rename_i hx; cases h; exact .inr (one rfl rfl (by rw [hx]; decide) (by rw [hx]; decide) (by rw [hx]; rfl) (by simp))
    split at h
    · rename_i hx; cases h; exact .inr (one rfl rfl (by rw [hx]; decide) (by rw [hx]; decide) (by rw [hx]; rfl) (by simp))
    split at h
    · rename_i hx; cases h; exact .inr (one rfl rfl (by rw [hx]; decide) (by rw [hx]; decide) (by rw [hx]; rfl) (by simp))
    cases h

theorem sameCls_rune {c : RTok} {r : Nat} (h : SameCls c (.rune r)) : c = .rune r := by
  rcases h with h | ⟨-, h | h⟩
  · exact h
  · cases h
  · cases h

/-- A character that is not the beginning of something else. -/
theorem char_cls {c : Ch} {rest : List Ch} (h1 : isLetter U c.r = false) (h2 : c.r ∉ bs!"0123456789\"")
    (h3 : c.r = ch!"." → ∀ d, rest.head? = some d → d.r ∉ bs!"0123456789") : ClsOf U (.rune c.r) [c] rest := ⟨c, rfl, rfl, h1, h2, h3⟩

/-- A lexeme is a token the scanner reads. -/
theorem lexeme_scan {s : SS} {w a rest : List Ch} {k : Lex} (hwf : ∀ c ∈ s.rest, c.WF) (hs : s.rest = w ++ a ++ rest)
    (hw : ∀ c ∈ w, isBreak c.r = true) (h : Lexeme U a k rest) :
    ∃ t s', scan U s = .ok (t, s') ∧ t.kind ≠ .eof ∧ TokFor t k ∧ s'.rest = rest ∧ t.pos = s.off + (bytesOf w).length ∧
      s'.off = s.off + (bytesOf w).length + (bytesOf a).length := by
  cases h with
  | @word c a rest h1 h2 =>
    obtain ⟨t1, s1, e1, e2, e3, e4, e5, e6⟩ := raw_unique (U := U) (ws := isWs) (cls := .ident) hs hw
      (fun d hd => by cases hd; exact letter_ws h1) ⟨c, a, rfl, h1, h2⟩
    have e2' : t1.cls = .ident := by rcases e2 with e2 | ⟨-, e2 | e2⟩; exact e2; cases e2; cases e2
    exact ⟨⟨.word, t1.pos, t1.text⟩, s1, by simp [scan, e1, e2'], by simp, ⟨rfl, e5⟩, e3, e4, e6⟩
  | number h =>
    obtain ⟨t1, s1, e1, e2, e3, e4, e5, e6⟩ := raw_unique (U := U) (ws := isWs) (cls := .int) hs hw (number_ws h) h
    have e2' : t1.cls = .int ∨ t1.cls = .float := by rcases e2 with e2 | ⟨e2, -⟩; exact .inl e2; exact e2
    exact ⟨⟨.number, t1.pos, t1.text⟩, s1, by rcases e2' with e2' | e2' <;> simp [scan, e1, e2'], by simp, ⟨rfl, e5⟩, e3, e4, e6⟩
  | @quoted q a rest h1 h2 =>
    obtain ⟨t1, s1, e1, e2, e3, e4, e5, e6⟩ := raw_unique (U := U) (ws := isWs) (cls := .string) hs hw
      (fun d hd => by cases hd; rw [h1]; decide) ⟨q, a, rfl, h1, h2⟩
    have e2' : t1.cls = .string := by rcases e2 with e2 | ⟨-, e2 | e2⟩; exact e2; cases e2; cases e2
    have hq : q.b = [ch!"\""] := by
      have := (hwf q (by rw [hs]; simp)).2
      rw [h1] at this
      exact this (by omega)
    exact ⟨⟨.other, t1.pos, t1.text⟩, s1, by simp [scan, e1, e2'], by simp, ⟨rfl, bytesOf a, by rw [e5]; simp [bytesOf, hq]⟩, e3, e4, e6⟩
  | @blank c rest h1 =>
    obtain ⟨t1, s1, e1, e2, e3, e4, e5, e6⟩ := raw_unique (U := U) (ws := isWs) hs hw (fun d hd => by cases hd; rw [h1]; decide)
      (char_cls (by rw [h1]; rfl) (by rw [h1]; decide) (by rw [h1]; intro h; cases h))
    have e2' := sameCls_rune e2
    exact ⟨⟨.space, t1.pos, bs!" "⟩, s1, by simp [scan, e1, e2', h1], by simp, ⟨rfl, rfl⟩, e3, e4, e6⟩
  | @escaped b c rest h1 h2 =>
    obtain ⟨t1, s1, e1, e2, e3, e4, e5, e6⟩ := raw_unique (U := U) (ws := isWs) (w := w) (a := [b]) (rest := c :: rest) (by rw [hs]; simp) hw
      (fun d hd => by cases hd; rw [h1]; decide) (char_cls (by rw [h1]; rfl) (by rw [h1]; decide) (by rw [h1]; intro h; cases h))
    have e2' := sameCls_rune e2
    obtain ⟨t2, s2, f1, -, f3, -, -, f6⟩ := raw_unique (U := U) (ws := isWs) (s := s1) (w := []) (a := [c]) (rest := rest) (by rw [e3]; rfl) (by simp)
      (fun d hd => by cases hd; rw [h2]; decide) (char_cls (by rw [h2]; rfl) (by rw [h2]; decide) (by rw [h2]; intro h; cases h))
    have hp : s1.peek = some ch!" " := by simp [SS.peek, e3, h2]
    refine ⟨⟨.space, t1.pos, bs!"\\ "⟩, s2, by simp [scan, e1, e2', h1, hp, f1], by simp, ⟨rfl, rfl⟩, f3, e4, ?_⟩
    rw [f6, e6]; simp [bytesOf]; omega
  | @comment c a rest h1 h2 =>
    obtain ⟨t1, s1, e1, e2, e3, e4, e5, e6⟩ := raw_unique (U := U) (ws := isWs) (w := w) (a := [c]) (rest := a ++ rest) (by rw [hs]; simp) hw
      (fun d hd => by cases hd; rw [h1]; decide) (char_cls (by rw [h1]; rfl) (by rw [h1]; decide) (by rw [h1]; intro h; cases h))
    have e2' := sameCls_rune e2
    obtain ⟨line, s2, a2, g1, g2, g3, g4⟩ := scanComment_lex U (s1.rest.length + 1) s1 bs!"%" (by omega)
    obtain ⟨rfl, rfl⟩ := comment_unique h2 g4 (by rw [← e3, g2])
    refine ⟨⟨.comment, t1.pos, line⟩, s2, by simp [scan, e1, e2', h1, g1], by simp, ⟨rfl, scanComment_prefix _ _ _ _ _ g1⟩, rfl, e4, ?_⟩
    rw [g3, e6]; simp [bytesOf]; omega
  | @name b w2 a rest h1 h2 h3 h4 =>
    obtain ⟨t1, s1, e1, e2, e3, e4, e5, e6⟩ := raw_unique (U := U) (ws := isWs) (w := w) (a := [b]) (rest := w2 ++ a ++ rest) (by rw [hs]; simp) hw
      (fun d hd => by cases hd; rw [h1]; decide) (char_cls (by rw [h1]; rfl) (by rw [h1]; decide) (by rw [h1]; intro h; cases h))
    have e2' := sameCls_rune e2
    obtain ⟨cls, hc, hn⟩ := name_cls h4
    obtain ⟨t2, s2, f1, -, f3, -, f5, f6⟩ := raw_unique (U := U) (ws := isWs) (s := s1) (w := w2) (a := a) (rest := rest) e3 h3 hn hc
    have hp : s1.peek ≠ some ch!" " := by
      intro hp
      rw [SS.peek, e3] at hp
      cases hh : (w2 ++ a ++ rest).head? with
      | none => rw [hh] at hp; cases hp
      | some d => rw [hh] at hp; exact h2 d hh (by simpa using hp)
    refine ⟨⟨.macro, t1.pos, bs!"\\" ++ t2.text⟩, s2, by simp [scan, e1, e2', h1, hp, f1], by simp, ⟨rfl, by simp [f5]⟩, f3, e4, ?_⟩
    rw [f6, e6]; simp [bytesOf]; omega
  | @mark c rest h1 h2 =>
    have hm : isLetter U c.r = false ∧ c.r ∉ bs!"0123456789\"" ∧ c.r < 128 ∧ isWs c.r = false := by
      have : c.r ∉ bs!"0123456789\"" ∧ c.r < 128 ∧ isWs c.r = false ∧ isLetter (fun _ => false) c.r = false := by
        revert h1; generalize c.r = r; revert r; decide
      refine ⟨?_, this.1, this.2.1, this.2.2.1⟩
      have h5 := this.2.2.2
      unfold isLetter at h5 ⊢
      rw [if_pos this.2.1] at h5 ⊢
      exact h5
    obtain ⟨t1, s1, e1, e2, e3, e4, e5, e6⟩ := raw_unique (U := U) (ws := isWs) hs hw (fun d hd => by cases hd; exact hm.2.2.2)
      (char_cls hm.1 hm.2.1 h2)
    have e2' := sameCls_rune e2
    have htext : t1.text = [c.r] := by rw [e5]; simp [bytesOf, (hwf c (by rw [hs]; simp)).2 hm.2.2.1]
    refine ⟨⟨markKind c.r, t1.pos, [c.r]⟩, s1, ?_, ?_, ⟨rfl, rfl⟩, e3, e4, e6⟩
    · have key : ∀ r ∈ marks1, ∀ (U : Nat → Bool) (s : SS) (t1 : RawTok) (s1 : SS), rawScan U isWs s = (t1, s1) → t1.cls = .rune r → t1.text = [r] →
          scan U s = .ok (⟨markKind r, t1.pos, [r]⟩, s1) := by
        intro r hr U s t1 s1 e1 e2 e3
        have : r ≠ ch!"\\" ∧ r ≠ ch!" " ∧ r ≠ ch!"%" ∧ (if symbolChars.contains r then markKind r = .symbol else
            if r = ch!"[" then markKind r = .lbrack else if r = ch!"]" then markKind r = .rbrack else if r = ch!"{" then markKind r = .lbrace else
            if r = ch!"}" then markKind r = .rbrace else if r = ch!"(" then markKind r = .lparen else if r = ch!")" then markKind r = .rparen else False) := by
          clear e2 e3; revert r; decide
        obtain ⟨k1, k2, k3, k4⟩ := this
        simp only [scan, e1, e2, e3, k1, k2, k3, if_false]
        generalize symbolChars.contains r = sb at k4 ⊢
        repeat' split at k4
        all_goals simp_all
      exact key c.r h1 U s t1 s1 e1 e2' htext
    · show markKind c.r ≠ .eof
      revert h1; generalize c.r = r; revert r; decide

/-- With no lexeme left, the scanner reports the end of the input. -/
theorem done_scan {s : SS} (hw : ∀ c ∈ s.rest, isBreak c.r = true) :
    ∃ t s', scan U s = .ok (t, s') ∧ t.kind = .eof ∧ s'.rest = [] := by
  obtain ⟨t1, s1, e1, e2, e3, -⟩ := raw_unique (U := U) (ws := isWs) (s := s) (w := s.rest) (a := []) (rest := []) (cls := .eof) (by simp) hw
    (by simp) ⟨rfl, rfl⟩
  have e2' : t1.cls = .eof := by rcases e2 with e2 | ⟨-, e2 | e2⟩; exact e2; cases e2; cases e2
  exact ⟨⟨.eof, t1.pos, []⟩, s1, by simp [scan, e1, e2'], rfl, e3⟩

end Verif
