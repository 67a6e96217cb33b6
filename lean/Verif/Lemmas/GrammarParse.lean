import Verif.Lemmas.GrammarScan
import Verif.Lemmas.Content
import Verif.Lemmas.Sublist
/-! # The parser and the grammar of `Spec/Grammar` -/

namespace Verif
open Spec
variable {U : Nat → Bool}

/-- Decoded characters. -/
def Ch.Ok (c : Ch) : Prop := c.WF ∧ (128 ≤ c.r → ∀ b, c.b.head? = some b → 128 ≤ b)

theorem decode_ok (bs : List Nat) : ∀ c ∈ decode bs, c.Ok := by
  suffices ∀ c ∈ decode bs, 128 ≤ c.r → ∀ b, c.b.head? = some b → 128 ≤ b from fun c hc => ⟨decode_wf bs c hc, this c hc⟩
  induction h : bs.length using Nat.strongRecOn generalizing bs with
  | _ n ih =>
    cases bs with
    | nil => simp
    | cons b0 t =>
      have hw := decodeRune_width b0 t
      rw [decode_cons]
      intro c hc
      rcases List.mem_cons.1 hc with rfl | hc
      · intro hr b hb
        obtain ⟨k, hk⟩ : ∃ k, (decodeRune b0 t).2 = k + 1 := ⟨(decodeRune b0 t).2 - 1, by omega⟩
        rw [hk] at hb
        simp only [List.take_succ_cons, List.head?_cons, Option.some.injEq] at hb
        subst hb
        apply Decidable.byContradiction
        intro hlt
        have hb : b0 < 128 := by omega
        rw [decodeRune_ascii t hb] at hr
        exact hlt hr
      · refine ih _ ?_ _ rfl c hc
        subst h; simp; omega

theorem ok_first {c : Ch} {a : List Ch} {b : Nat} {t : GoString} (h : c.Ok) (hb : b < 128) (e : bytesOf (c :: a) = b :: t) : c.r = b ∧ bytesOf a = t := by
  obtain ⟨⟨h1, h2⟩, h3⟩ := h
  rw [bytesOf_cons] at e
  by_cases hr : c.r < 128
  · rw [h2 hr] at e
    obtain ⟨e1, e2⟩ := List.cons.inj e
    exact ⟨e1, e2⟩
  · cases hcb : c.b with
    | nil => exact absurd hcb h1
    | cons d r =>
      rw [hcb] at e
      obtain ⟨e1, -⟩ := List.cons.inj e
      have := h3 (by omega) d (by rw [hcb]; rfl)
      omega

theorem bytesOf_eq_nil {w : List Ch} (h : ∀ c ∈ w, c.Ok) (e : bytesOf w = []) : w = [] := by
  cases w with
  | nil => rfl
  | cons c w =>
    rw [bytesOf_cons] at e
    exact absurd (List.append_eq_nil_iff.1 e).1 (h c (by simp)).1.1

theorem mark_facts {r : Nat} (h : r ∈ marks1) : r < 128 ∧ isLetter U r = false ∧ isDecimal r = false ∧ isBreak r = false ∧
    r ≠ ch!" " ∧ r ≠ ch!"\\" ∧ r ≠ ch!"%" ∧ r ≠ ch!"\"" := by
  have : r < 128 ∧ isLetter (fun _ => false) r = false ∧ isDecimal r = false ∧ isBreak r = false ∧
    r ≠ ch!" " ∧ r ≠ ch!"\\" ∧ r ≠ ch!"%" ∧ r ≠ ch!"\"" := by revert r; decide
  refine ⟨this.1, ?_, this.2.2⟩
  have h5 := this.2.1
  unfold isLetter at h5 ⊢
  rw [if_pos this.1] at h5 ⊢
  exact h5

/-- A lexeme that begins with one of these characters is the character, unless it is a number. -/
theorem lexeme_first {c : Ch} {a rest : List Ch} {k : Lex} (h : Lexeme U (c :: a) k rest) (hm : c.r ∈ marks1) (hd : c.r ≠ ch!".") :
    a = [] ∧ k = .mark c.r := by
  obtain ⟨_, h1, h2, h3, h4, h5, h6, h7⟩ := mark_facts (U := U) hm
  cases h with
  | word h => rw [h1] at h; cases h
  | number h =>
    rcases number_head h with h | ⟨h, -⟩
    · rw [h2] at h; cases h
    · exact absurd h hd
  | blank h => exact absurd h h4
  | escaped h => exact absurd h h5
  | comment h => exact absurd h h6
  | name h => exact absurd h h5
  | quoted h => exact absurd h h7
  | mark => exact ⟨rfl, rfl⟩

/-- The lexeme of a token whose text is a single character. -/
theorem text_mark {a rest : List Ch} {k : Lex} {t : Token} {r : Nat} (hW : ∀ c ∈ a, c.Ok) (h : Lexeme U a k rest) (ht : TokFor t k)
    (hx : t.text = [r]) (hm : r ∈ marks1) : k = .mark r := by
  obtain ⟨h0, h1, h2, h3, h4, h5, h6, h7⟩ := mark_facts (U := U) hm
  cases h with
  | @word c a rest h =>
    have e := ht.2.symm.trans hx
    rw [(ok_first (hW c (by simp)) h0 e).1, h1] at h
    cases h
  | @number a rest h =>
    have e := ht.2.symm.trans hx
    cases a with
    | nil => cases e
    | cons c a =>
      obtain ⟨e1, e2⟩ := ok_first (hW c (by simp)) h0 e
      have ha := bytesOf_eq_nil (fun d hd => hW d (by simp [hd])) e2
      rcases number_head h with h | ⟨h, d, r', rfl, -⟩
      · rw [e1, h2] at h; cases h
      · cases ha
  | blank h => exact absurd (List.cons.inj (hx.symm.trans ht.2)).1 h4
  | escaped h => exact absurd (List.cons.inj (hx.symm.trans ht.2)).1 h5
  | comment h =>
    obtain ⟨-, z, hz⟩ := ht
    rw [hx] at hz
    exact absurd (List.cons.inj hz).1.symm h6
  | name h => exact absurd (List.cons.inj (hx.symm.trans ht.2)).1 h5
  | quoted h =>
    obtain ⟨-, z, hz⟩ := ht
    exact absurd (List.cons.inj (hx.symm.trans hz)).1 h7
  | mark h => rw [(List.cons.inj (hx.symm.trans ht.2)).1]

/-- What reading a token says about the lexemes. -/
theorem scan_lexes {s : SS} {t : Token} {s' : SS} (hW : ∀ c ∈ s.rest, c.Ok) (h : scan U s = .ok (t, s')) :
    (t.kind = .eof ∧ t.text = [] ∧ s'.rest = [] ∧ Lexes U s.off s.rest []) ∨
    (t.kind ≠ .eof ∧ (∀ c ∈ s'.rest, c.Ok) ∧ ∃ k, TokFor t k ∧ (∀ r ∈ marks1, t.text = [r] → k = .mark r) ∧ (∀ c, k = .mark c → c ∈ marks1) ∧
      ∀ L, Lexes U s'.off s'.rest L → Lexes U s.off s.rest (⟨k, t.pos, s'.off⟩ :: L)) := by
  rcases scan_lexeme (fun c hc => (hW c hc).1) h with ⟨h1, h2, h3, h4⟩ | ⟨h0, w, a, k, h1, h2, h3, h4, h5, h6⟩
  · exact .inl ⟨h1, h2, h3, .done h4⟩
  · refine .inr ⟨h0, fun c hc => hW c (by rw [h1]; simp [hc]), k, h6, fun r hr hx => text_mark (fun c hc => hW c (by rw [h1]; simp [hc])) h5 h6 hx hr, ?_, ?_⟩
    · intro c hk
      subst hk
      cases h5; assumption
    · intro L hL
      rw [h1, h3, h4]
      rw [h4] at hL
      exact .more h2 h5 hL

/-- What the lexemes say about reading a token. -/
theorem lexes_scan {s : SS} {x : Lexed} {L : List Lexed} (hW : ∀ c ∈ s.rest, c.Ok) (h : Lexes U s.off s.rest (x :: L)) :
    ∃ t s', scan U s = .ok (t, s') ∧ t.kind ≠ .eof ∧ TokFor t x.lex ∧ t.pos = x.start ∧ s'.off = x.stop ∧ Lexes U s'.off s'.rest L ∧ ∀ c ∈ s'.rest, c.Ok := by
  generalize hr : s.rest = cs at h
  generalize ho : s.off = o at h
  cases h with
  | more h1 h2 h3 =>
    obtain ⟨t, s', e1, e2, e3, e4, e5, e6⟩ := lexeme_scan (fun c hc => (hW c hc).1) hr h1 h2
    subst ho
    refine ⟨t, s', e1, e2, e3, e5, e6, ?_, fun c hc => hW c ?_⟩
    · rw [e6, e4]; exact h3
    · rw [hr]; rw [e4] at hc; simp [hc]

theorem lexes_done {s : SS} (h : Lexes U s.off s.rest []) : ∃ t s', scan U s = .ok (t, s') ∧ t.kind = .eof ∧ s'.rest = [] := by
  generalize hr : s.rest = cs at h
  cases h with
  | done h => subst hr; exact done_scan h

/-- The character at hand. -/
theorem lexes_peek {s : SS} {L : List Lexed} (hW : ∀ c ∈ s.rest, c.Ok) (h : Lexes U s.off s.rest L) {r : Nat} (hr : r ∈ marks1) (hd : r ≠ ch!".") :
    s.peek = some r ↔ ∃ e L', L = ⟨.mark r, s.off, e⟩ :: L' := by
  have hb := (mark_facts (U := U) hr).2.2.2.1
  generalize hs : s.rest = cs at h
  generalize ho : s.off = o at h
  have hp : s.peek = cs.head?.map Ch.r := by rw [SS.peek, hs]
  rw [hp]
  cases h with
  | done h =>
    constructor
    · intro h'
      cases cs with
      | nil => cases h'
      | cons c cs =>
        have : c.r = r := by simpa using h'
        have h2 := h c (by simp)
        rw [this, hb] at h2
        cases h2
    · rintro ⟨e, L', h⟩; cases h
  | @more o w a k rest L h1 h2 h3 =>
    constructor
    · intro h'
      cases w with
      | cons c w =>
        have : c.r = r := by simpa using h'
        have h2 := h1 c (by simp)
        rw [this, hb] at h2
        cases h2
      | nil =>
        cases a with
        | nil =>
          cases h2 with
          | number h => exact absurd rfl (number_ne h)
        | cons c a =>
          have hc : c.r = r := by simpa using h'
          obtain ⟨rfl, rfl⟩ := lexeme_first h2 (by rw [hc]; exact hr) (by rw [hc]; exact hd)
          rw [hc]
          exact ⟨_, _, rfl⟩
    · rintro ⟨e, L', h⟩
      obtain ⟨h, -⟩ := List.cons.inj h
      injection h with hk hst _
      subst hk
      have hw : w = [] := by
        apply bytesOf_eq_nil (fun c hc => hW c (by rw [hs]; simp [hc]))
        rw [← List.length_eq_zero_iff]; omega
      subst hw
      cases h2
      rfl

/-! ## From the parser to the grammar -/

/-- In math or not. -/
def Mode.inMath : Mode → Bool
  | .math => true
  | .normal => false

/-- What ends the list. -/
def Stop.until : Stop → Until
  | .never => .eof
  | .dollar => .dollar
  | .rbrace => .brace
  | .rbrack => .bracket

theorem markKind_cases (c : Nat) : (markKind c = .lbrack ∧ c = ch!"[") ∨ (markKind c = .rbrack ∧ c = ch!"]") ∨ (markKind c = .lbrace ∧ c = ch!"{") ∨
    (markKind c = .rbrace ∧ c = ch!"}") ∨ (markKind c = .lparen ∧ c = ch!"(") ∨ (markKind c = .rparen ∧ c = ch!")") ∨
    (markKind c = .symbol ∧ c ≠ ch!"[" ∧ c ≠ ch!"]" ∧ c ≠ ch!"{" ∧ c ≠ ch!"}" ∧ c ≠ ch!"(" ∧ c ≠ ch!")") := by
  unfold markKind
  by_cases h1 : c = ch!"["; · exact .inl ⟨by rw [if_pos h1], h1⟩
  rw [if_neg h1]
  by_cases h2 : c = ch!"]"; · exact .inr (.inl ⟨by rw [if_pos h2], h2⟩)
  rw [if_neg h2]
  by_cases h3 : c = ch!"{"; · exact .inr (.inr (.inl ⟨by rw [if_pos h3], h3⟩))
  rw [if_neg h3]
  by_cases h4 : c = ch!"}"; · exact .inr (.inr (.inr (.inl ⟨by rw [if_pos h4], h4⟩)))
  rw [if_neg h4]
  by_cases h5 : c = ch!"("; · exact .inr (.inr (.inr (.inr (.inl ⟨by rw [if_pos h5], h5⟩))))
  rw [if_neg h5]
  by_cases h6 : c = ch!")"; · exact .inr (.inr (.inr (.inr (.inr (.inl ⟨by rw [if_pos h6], h6⟩)))))
  rw [if_neg h6]
  exact .inr (.inr (.inr (.inr (.inr (.inr ⟨rfl, h1, h2, h3, h4, h5, h6⟩)))))

theorem tok_mark {t : Token} {k : Lex} (h : TokFor t k)
    (hk : t.kind = .symbol ∨ t.kind = .lbrack ∨ t.kind = .rbrack ∨ t.kind = .lbrace ∨ t.kind = .rbrace ∨ t.kind = .lparen ∨ t.kind = .rparen) :
    ∃ c, k = .mark c ∧ t.kind = markKind c ∧ t.text = [c] := by
  cases k with
  | mark c => exact ⟨c, rfl, h.1, h.2⟩
  | wrong => exact h.elim
  | _ => have := h.1; rw [this] at hk; simp at hk

theorem tok_kind {t : Token} {k : Lex} (h : TokFor t k) :
    (t.kind = .word → k = .word t.text) ∧ (t.kind = .number → k = .number t.text) ∧ (t.kind = .space → k = .blank t.text) ∧
    (t.kind = .comment → k = .comment) ∧ (t.kind = .macro → k = .name t.text) := by
  cases k with
  | mark c =>
    have h1 := h.1
    refine ⟨?_, ?_, ?_, ?_, ?_⟩ <;> intro h2 <;> rw [h2] at h1 <;> rcases markKind_cases c with h | h | h | h | h | h | h <;> rw [h.1] at h1 <;> cases h1
  | wrong => exact h.elim
  | quoted => obtain ⟨h, -⟩ := h; simp [h]
  | comment => obtain ⟨h, -⟩ := h; simp [h]
  | _ => obtain ⟨h1, h2⟩ := h; simp [h1, h2]

/-- When a list ends. -/
theorem stop_mark {st : Stop} {t : Token} {k : Lex} (h : TokFor t k) (hm : ∀ r ∈ marks1, t.text = [r] → k = .mark r) :
    st.test t = true ↔ st.until.mark = some k := by
  cases st with
  | never => simp [Stop.test, Stop.until, Until.mark]
  | dollar =>
    simp only [Stop.test, Stop.until, Until.mark, beq_iff_eq, Option.some.injEq]
    constructor
    · intro hx; rw [hm _ (by decide) hx]
    · intro hx; subst hx; exact h.2
  | rbrace =>
    simp only [Stop.test, Stop.until, Until.mark, beq_iff_eq, Option.some.injEq]
    constructor
    · intro hx
      obtain ⟨c, rfl, h1, h2⟩ := tok_mark h (by simp [hx])
      rw [hx] at h1
      rcases markKind_cases c with h | h | h | h | h | h | h <;> first | (rw [h.1] at h1; cases h1; done) | rw [h.2]
    · intro hx; subst hx; exact h.1
  | rbrack =>
    simp only [Stop.test, Stop.until, Until.mark, beq_iff_eq, Option.some.injEq]
    constructor
    · intro hx
      obtain ⟨c, rfl, h1, h2⟩ := tok_mark h (by simp [hx])
      rw [hx] at h1
      rcases markKind_cases c with h | h | h | h | h | h | h <;> first | (rw [h.1] at h1; cases h1; done) | rw [h.2]
    · intro hx; subst hx; exact h.1

theorem tokFor_unique {t : Token} {k k' : Lex} (h : TokFor t k) (h' : TokFor t k') : k = k' := by
  have key : ∀ {k}, TokFor t k → k = (match t.kind with
      | .word => .word t.text | .number => .number t.text | .space => .blank t.text | .comment => .comment | .macro => .name t.text
      | .other => .quoted | _ => .mark (t.text.headD 0)) := by
    intro k h
    cases k with
    | mark c =>
      obtain ⟨h1, h2⟩ := h
      rw [h1, h2]
      rcases markKind_cases c with h | h | h | h | h | h | h <;> rw [h.1] <;> rfl
    | wrong => exact h.elim
    | quoted => obtain ⟨h1, -⟩ := h; rw [h1]
    | comment => obtain ⟨h1, -⟩ := h; rw [h1]
    | _ => obtain ⟨h1, h2⟩ := h; rw [h1, h2]
  rw [key h, key h']

theorem stop_of {st : Stop} {t : Token} {k : Lex} (h : TokFor t k) (hm : st.until.mark = some k) : st.test t = true := by
  cases st with
  | never => cases hm
  | dollar => cases hm; simp [Stop.test, h.2]
  | rbrace => cases hm; have := h.1; simp [Stop.test, this, markKind]
  | rbrack => cases hm; have := h.1; simp [Stop.test, this, markKind]

theorem keep_eq (n : Node) (l : List Node) : (if n.isNil then l else n :: l) = keep n l := by
  cases n <;> rfl

/-- The arguments of a macro: in braces, or one in brackets and then in braces. -/
def ArgsSig (m : Bool) (sig : GoString) (s : SS) (L : List Lexed) (l : List Node) (L' : List Lexed) : Prop :=
  (∀ n, sig = List.replicate n ch!"A" → Args m n L l L') ∧
  ∀ n, sig = ch!"O" :: List.replicate n ch!"A" → (s.peek ≠ some ch!"[" ∧ Args m n L l L') ∨
    ∃ e L0 l0 p L1 args, L = ⟨.mark ch!"[", s.off, e⟩ :: L0 ∧ Items m .bracket L0 l0 p L1 ∧ Args m n L1 args L' ∧ l = .optArg s.off l0 p :: args

theorem knownOf {name sig : GoString} (h : macroLookup name = some (some sig)) : Known name ∧ sig = sigOf name := by
  obtain ⟨h1, h2, h3⟩ := macroLookup_sig h
  refine ⟨⟨h2, ?_⟩, h1⟩
  rcases h3 with h3 | ⟨k, h3, h4⟩
  · obtain ⟨v, hv⟩ := Option.isSome_iff_exists.1 h3
    exact .inl (List.mem_map_of_mem (f := Prod.fst) (lookup_mem hv))
  · obtain ⟨v, hv⟩ := Option.isSome_iff_exists.1 h4
    exact .inr ⟨k, h3, List.mem_map_of_mem (f := Prod.fst) (lookup_mem hv)⟩

theorem lookup_of_mem {α β} [BEq α] [LawfulBEq α] {a : α} : ∀ {l : List (α × β)}, a ∈ l.map Prod.fst → ∃ b, l.lookup a = some b
  | (k, v) :: l, h => by
    rw [List.lookup_cons]
    by_cases he : a == k
    · exact ⟨v, by simp [he]⟩
    · simp only [he]
      refine lookup_of_mem ?_
      rcases List.mem_map.1 h with ⟨⟨k', v'⟩, h1, h2⟩
      rcases List.mem_cons.1 h1 with h1 | h1
      · cases h1; subst h2; simp at he
      · exact List.mem_map.2 ⟨_, h1, h2⟩

theorem lookupOf {name : GoString} (h : Known name) : macroLookup name = some (some (sigOf name)) := by
  obtain ⟨h1, h2⟩ := h
  have key : ∀ v, latexMacros.lookup name = some v → v = some (sigOf name) := by
    intro v hv
    have h3 := List.all_eq_true.1 table_sigs _ (lookup_mem hv)
    simp only [beq_iff_eq] at h3
    rw [if_neg h1] at h3
    exact h3
  unfold macroLookup
  cases hl : latexMacros.lookup name with
  | some v => rw [key v hl]
  | none =>
    rcases h2 with h2 | ⟨k, rfl, h2⟩
    · obtain ⟨v, hv⟩ := lookup_of_mem h2
      rw [hl] at hv; cases hv
    · obtain ⟨v, hv⟩ := lookup_of_mem h2
      show (if ch!"\\" = ch!"\\" ∧ (tex2uni.lookup k).isSome = true then some (some []) else none) = _
      rw [if_pos ⟨rfl, by rw [hv]; rfl⟩]
      have h4 : ∀ n ∈ bs!"\\sqrt" :: bs!"\\genfrac" :: (twoArg ++ oneArg), bs!"\\" ++ k ≠ n := by
        intro n hn he
        have := List.all_eq_true.1 table_has n hn
        rw [← he, hl] at this
        cases this
      unfold sigOf
      rw [if_neg (h4 _ (by simp)), if_neg, if_neg]
      · intro hm; exact h4 _ (List.mem_cons_of_mem _ (List.mem_cons_of_mem _ (List.mem_append_right _ hm))) rfl
      · intro hm; exact h4 _ (List.mem_cons_of_mem _ (List.mem_cons_of_mem _ (List.mem_append_left _ hm))) rfl

theorem sigOf_arity (name : GoString) : (name = bs!"\\sqrt" ∧ sigOf name = ch!"O" :: List.replicate 1 ch!"A" ∧ arity name = 1) ∨
    (name ≠ bs!"\\sqrt" ∧ sigOf name = List.replicate (arity name) ch!"A") := by
  unfold sigOf arity
  by_cases h1 : name = bs!"\\sqrt"
  · subst h1
    exact .inl ⟨rfl, rfl, rfl⟩
  · refine .inr ⟨h1, ?_⟩
    rw [if_neg h1]
    by_cases h2 : name ∈ twoArg
    · rw [if_pos h2, if_pos h2]; rfl
    · rw [if_neg h2, if_neg h2]
      by_cases h3 : name ∈ oneArg
      · rw [if_pos h3, if_pos (.inr h3)]; rfl
      · rw [if_neg h3, if_neg (by rintro (h | h); exact h1 h; exact h3 h)]; rfl

/-- The end of the input is not an item. -/
theorem P_one_eof {t : Token} {m s l cl s'} (h : t.kind = .eof) : ¬ P U (.one t) m s l cl s' := by
  intro h'
  cases h' <;> simp_all

theorem P.grammar {c m s l cl s'} (h : P U c m s l cl s') :
    match (generalizing := false) c with
    | .one t => (∀ c ∈ s.rest, c.Ok) → ∀ k, TokFor t k → (∀ c, k = .mark c → c ∈ marks1) → (∀ c ∈ s'.rest, c.Ok) ∧
        ∀ L', Lexes U s'.off s'.rest L' → ∃ L n, l = [n] ∧ Lexes U s.off s.rest L ∧ Item1 m.inMath (⟨k, t.pos, s.off⟩ :: L) n L'
    | .loop st => (∀ c ∈ s.rest, c.Ok) → (∀ c ∈ s'.rest, c.Ok) ∧
        ∀ L', Lexes U s'.off s'.rest L' → (s'.rest = [] → L' = []) → ∃ L, Lexes U s.off s.rest L ∧ Items m.inMath st.until L l cl L'
    | .args sig => (∀ c ∈ s.rest, c.Ok) → (∀ c ∈ s'.rest, c.Ok) ∧
        ∀ L', Lexes U s'.off s'.rest L' → ∃ L, Lexes U s.off s.rest L ∧ ArgsSig m.inMath sig s L l L' := by
  have nil : ∀ {o L}, Lexes U o [] L → L = [] := by
    intro o L h
    generalize hc : ([] : List Ch) = cs at h
    cases h with
    | done => rfl
    | @more o w a k rest L h1 h2 h3 =>
      have := (List.append_eq_nil_iff.1 (List.append_eq_nil_iff.1 hc.symm).1).2
      subst this
      cases h2 with
      | number h => exact absurd rfl (number_ne h)
  induction h with
  | comment hk =>
    intro hW k ht hm
    obtain rfl := (tok_kind ht).2.2.2.1 hk
    exact ⟨hW, fun L' hL => ⟨L', _, rfl, hL, .comment⟩⟩
  | word hk =>
    intro hW k ht hm
    obtain rfl := (tok_kind ht).1 hk
    exact ⟨hW, fun L' hL => ⟨L', _, rfl, hL, .word⟩⟩
  | number hk =>
    intro hW k ht hm
    obtain rfl := (tok_kind ht).2.1 hk
    exact ⟨hW, fun L' hL => ⟨L', _, rfl, hL, .number⟩⟩
  | spaceMath hk =>
    intro hW k ht hm
    obtain rfl := (tok_kind ht).2.2.1 hk
    exact ⟨hW, fun L' hL => ⟨L', _, rfl, hL, .mathBlank⟩⟩
  | spaceText hk =>
    intro hW k ht hm
    obtain rfl := (tok_kind ht).2.2.1 hk
    exact ⟨hW, fun L' hL => ⟨L', _, rfl, hL, .blank⟩⟩
  | «macro» hk hl ha ih =>
    intro hW k ht hm
    obtain rfl := (tok_kind ht).2.2.2.2 hk
    obtain ⟨hkn, rfl⟩ := knownOf hl
    obtain ⟨h1, h2⟩ := ih hW
    refine ⟨h1, fun L' hL => ?_⟩
    obtain ⟨L, h3, h4, h5⟩ := h2 L' hL
    refine ⟨L, _, rfl, h3, ?_⟩
    rcases sigOf_arity _ with ⟨e1, e2, e3⟩ | ⟨e1, e2⟩
    · rcases h5 1 e2 with ⟨h6, h7⟩ | ⟨e, L0, l0, p, L1, args, rfl, h8, h9, rfl⟩
      · refine .macro hkn (by rw [e3]; exact h7) fun _ e' he => h6 ?_
        rw [lexes_peek hW h3 (by decide) (by decide)]
        cases L with
        | nil => cases he
        | cons x L => cases he; exact ⟨_, _, rfl⟩
      · rw [e1]
        exact .root h8 h9
    · exact .macro hkn (h4 _ e2) fun h => absurd h e1
  | math hk hx _ ih =>
    intro hW k ht hm
    obtain ⟨c, rfl, h1, h2⟩ := tok_mark ht (by simp [hk])
    obtain ⟨h3, h4⟩ := ih hW
    refine ⟨h3, fun L' hL => ?_⟩
    obtain ⟨L, h5, h6⟩ := h4 L' hL (fun h => nil (by rw [← h]; exact hL))
    refine ⟨L, _, rfl, h5, ?_⟩
    obtain ⟨rfl, -⟩ := List.cons.inj (h2.symm.trans hx)
    rw [hx]
    exact .math h6
  | supGroup hk hx hp hsc hx1 _ ih =>
    intro hW k ht hm
    obtain ⟨c, rfl, h1, h2⟩ := tok_mark ht (by simp [hk])
    rcases scan_lexes hW hsc with ⟨-, h0, -⟩ | ⟨-, hW1, k1, g1, g2, g3, g4⟩
    · rw [h0] at hx1; cases hx1
    obtain rfl := g2 _ (by decide) hx1
    obtain ⟨h3, h4⟩ := ih hW1
    refine ⟨h3, fun L' hL => ?_⟩
    obtain ⟨L, h5, h6⟩ := h4 L' hL (fun h => nil (by rw [← h]; exact hL))
    have h7 := g4 _ h5
    refine ⟨_, _, rfl, h7, ?_⟩
    obtain ⟨rfl, -⟩ := List.cons.inj (h2.symm.trans hx)
    obtain ⟨e, L2, he⟩ := (lexes_peek hW h7 (by decide) (by decide)).1 hp
    obtain ⟨he, -⟩ := List.cons.inj he
    injection he with _ he _
    rw [he]
    exact .supGroup h6
  | subGroup hk hx hp hsc hx1 _ ih =>
    intro hW k ht hm
    obtain ⟨c, rfl, h1, h2⟩ := tok_mark ht (by simp [hk])
    rcases scan_lexes hW hsc with ⟨-, h0, -⟩ | ⟨-, hW1, k1, g1, g2, g3, g4⟩
    · rw [h0] at hx1; cases hx1
    obtain rfl := g2 _ (by decide) hx1
    obtain ⟨h3, h4⟩ := ih hW1
    refine ⟨h3, fun L' hL => ?_⟩
    obtain ⟨L, h5, h6⟩ := h4 L' hL (fun h => nil (by rw [← h]; exact hL))
    have h7 := g4 _ h5
    refine ⟨_, _, rfl, h7, ?_⟩
    obtain ⟨rfl, -⟩ := List.cons.inj (h2.symm.trans hx)
    obtain ⟨e, L2, he⟩ := (lexes_peek hW h7 (by decide) (by decide)).1 hp
    obtain ⟨he, -⟩ := List.cons.inj he
    injection he with _ he _
    rw [he]
    exact .subGroup h6
  | supOne hk hx hp hsc hone ih =>
    intro hW k ht hm
    obtain ⟨c, rfl, h1, h2⟩ := tok_mark ht (by simp [hk])
    rcases scan_lexes hW hsc with ⟨h0, -⟩ | ⟨-, hW1, k1, g1, g2, g3, g4⟩
    · exact absurd hone (P_one_eof h0)
    obtain ⟨h3, h4⟩ := ih hW1 k1 g1 g3
    refine ⟨h3, fun L' hL => ?_⟩
    obtain ⟨L, n', hn, h5, h6⟩ := h4 L' hL
    cases hn
    refine ⟨_, _, rfl, g4 _ h5, ?_⟩
    obtain ⟨rfl, -⟩ := List.cons.inj (h2.symm.trans hx)
    exact .sup h6
  | subOne hk hx hp hsc hone ih =>
    intro hW k ht hm
    obtain ⟨c, rfl, h1, h2⟩ := tok_mark ht (by simp [hk])
    rcases scan_lexes hW hsc with ⟨h0, -⟩ | ⟨-, hW1, k1, g1, g2, g3, g4⟩
    · exact absurd hone (P_one_eof h0)
    obtain ⟨h3, h4⟩ := ih hW1 k1 g1 g3
    refine ⟨h3, fun L' hL => ?_⟩
    obtain ⟨L, n', hn, h5, h6⟩ := h4 L' hL
    cases hn
    refine ⟨_, _, rfl, g4 _ h5, ?_⟩
    obtain ⟨rfl, -⟩ := List.cons.inj (h2.symm.trans hx)
    exact .sub h6
  | symbol hk n1 n2 n3 =>
    intro hW k ht hm
    obtain ⟨c, rfl, h1, h2⟩ := tok_mark ht (by simp [hk])
    refine ⟨hW, fun L' hL => ⟨L', _, rfl, hL, ?_⟩⟩
    rw [h2] at n1 n2 n3 ⊢
    rw [hk] at h1
    refine .symbol ?_
    have h3 := hm c rfl
    have key : ∀ c ∈ marks1, [c] ≠ bs!"$" → [c] ≠ bs!"^" → [c] ≠ bs!"_" → Kind.symbol = markKind c → c ∈ bs!"=<>/*-+!?':,;.[]()" := by decide
    exact key c h3 n1 n2 n3 h1
  | delim hk =>
    intro hW k ht hm
    obtain ⟨c, rfl, h1, h2⟩ := tok_mark ht (by rcases hk with hk | hk | hk | hk <;> simp [hk])
    refine ⟨hW, fun L' hL => ⟨L', _, rfl, hL, ?_⟩⟩
    rw [h2]
    rw [h1] at hk
    refine .symbol ?_
    have key : ∀ c ∈ marks1, (markKind c = .lparen ∨ markKind c = .rparen ∨ markKind c = .lbrack ∨ markKind c = .rbrack) → c ∈ bs!"=<>/*-+!?':,;.[]()" := by decide
    exact key c (hm c rfl) hk
  | group hk _ ih =>
    intro hW k ht hm
    obtain ⟨c, rfl, h1, h2⟩ := tok_mark ht (by simp [hk])
    obtain ⟨h3, h4⟩ := ih hW
    refine ⟨h3, fun L' hL => ?_⟩
    obtain ⟨L, h5, h6⟩ := h4 L' hL (fun h => nil (by rw [← h]; exact hL))
    refine ⟨L, _, rfl, h5, ?_⟩
    have hc : c = ch!"{" := by
      have key : ∀ c ∈ marks1, markKind c = .lbrace → c = ch!"{" := by decide
      exact key c (hm c rfl) (h1.symm.trans hk)
    subst hc
    exact .group h6
  | @loopEof st m s t s' hsc hk =>
    intro hW
    rcases scan_lexes hW hsc with ⟨_, _, h3, h4⟩ | ⟨h, _⟩
    · refine ⟨by rw [h3]; simp, fun L' hL _ => ⟨[], h4, ?_⟩⟩
      rw [h3] at hL
      rw [nil hL]
      exact .eof
    · exact absurd hk h
  | @loopStop st m s t s' hsc hk hst =>
    intro hW
    rcases scan_lexes hW hsc with ⟨h, _⟩ | ⟨-, hW1, k1, g1, g2, g3, g4⟩
    · exact absurd h hk
    · exact ⟨hW1, fun L' hL _ => ⟨_, g4 _ hL, .close ((stop_mark g1 g2).1 hst)⟩⟩
  | @loopCons st m s t s1 n s2 l c s' hsc hk hst _ _ ih1 ih2 =>
    intro hW
    rcases scan_lexes hW hsc with ⟨h, _⟩ | ⟨-, hW1, k1, g1, g2, g3, g4⟩
    · exact absurd h hk
    obtain ⟨h3, h4⟩ := ih1 hW1 k1 g1 g3
    obtain ⟨h5, h6⟩ := ih2 h3
    refine ⟨h5, fun L' hL he => ?_⟩
    obtain ⟨L1, h7, h8⟩ := h6 L' hL he
    obtain ⟨L, n', hn, h9, h10⟩ := h4 L1 h7
    cases hn
    refine ⟨_, g4 _ h9, ?_⟩
    rw [keep_eq]
    refine .item ?_ h10 h8
    intro he
    have := (stop_mark g1 g2).2 he
    rw [hst] at this
    cases this
  | argsNil =>
    intro hW
    refine ⟨hW, fun L' hL => ⟨L', hL, fun n hn => ?_, fun n hn => by cases hn⟩⟩
    cases n with
    | zero => exact .done
    | succ n => rw [List.replicate_succ] at hn; cases hn
  | argsArg hc hsc hx _ _ ih1 ih2 =>
    intro hW
    rcases scan_lexes hW hsc with ⟨-, h0, -⟩ | ⟨-, hW1, k1, g1, g2, g3, g4⟩
    · rw [h0] at hx; cases hx
    obtain rfl := g2 _ (by decide) hx
    obtain ⟨h3, h4⟩ := ih1 hW1
    obtain ⟨h5, h6⟩ := ih2 h3
    refine ⟨h5, fun L' hL => ?_⟩
    obtain ⟨L1, h7, h8, -⟩ := h6 L' hL
    obtain ⟨L, h9, h10⟩ := h4 L1 h7 (fun h => nil (by rw [← h]; exact h7))
    refine ⟨_, g4 _ h9, fun n hn => ?_, fun n hn => ?_⟩
    · cases n with
      | zero => cases hn
      | succ n =>
        rw [List.replicate_succ] at hn
        exact .more h10 (h8 n (List.cons.inj hn).2)
    · obtain ⟨hn, -⟩ := List.cons.inj hn
      subst hn
      rcases hc with h | h <;> cases h
  | argsNoOpt hc hp _ ih =>
    intro hW
    obtain ⟨h3, h4⟩ := ih hW
    refine ⟨h3, fun L' hL => ?_⟩
    obtain ⟨L, h5, h6, -⟩ := h4 L' hL
    refine ⟨L, h5, fun n hn => ?_, fun n hn => .inl ⟨hp, h6 n (List.cons.inj hn).2⟩⟩
    cases n with
    | zero => cases hn
    | succ n =>
      rw [List.replicate_succ] at hn
      obtain ⟨hn, -⟩ := List.cons.inj hn
      subst hn
      rcases hc with h | h <;> cases h
  | argsOpt hc hp hsc hx _ _ ih1 ih2 =>
    intro hW
    rcases scan_lexes hW hsc with ⟨-, h0, -⟩ | ⟨-, hW1, k1, g1, g2, g3, g4⟩
    · rw [h0] at hx; cases hx
    obtain rfl := g2 _ (by decide) hx
    obtain ⟨h3, h4⟩ := ih1 hW1
    obtain ⟨h5, h6⟩ := ih2 h3
    refine ⟨h5, fun L' hL => ?_⟩
    obtain ⟨L1, h7, h8, -⟩ := h6 L' hL
    obtain ⟨L, h9, h10⟩ := h4 L1 h7 (fun h => nil (by rw [← h]; exact h7))
    have h11 := g4 _ h9
    refine ⟨_, h11, fun n hn => ?_, fun n hn => .inr ?_⟩
    · cases n with
      | zero => cases hn
      | succ n =>
        rw [List.replicate_succ] at hn
        obtain ⟨hn, -⟩ := List.cons.inj hn
        subst hn
        rcases hc with h | h <;> cases h
    · obtain ⟨e, L2, he⟩ := (lexes_peek hW h11 (by decide) (by decide)).1 hp
      obtain ⟨he, -⟩ := List.cons.inj he
      injection he with _ he _
      rw [he]
      exact ⟨_, _, _, _, _, _, rfl, h10, h8 n (List.cons.inj hn).2, rfl⟩
  | argsOther n1 n2 _ ih =>
    intro hW
    obtain ⟨h3, h4⟩ := ih hW
    refine ⟨h3, fun L' hL => ?_⟩
    obtain ⟨L, h5, -⟩ := h4 L' hL
    refine ⟨L, h5, fun n hn => ?_, fun n hn => ?_⟩
    · cases n with
      | zero => cases hn
      | succ n => rw [List.replicate_succ] at hn; exact absurd (.inl (List.cons.inj hn).1) n1
    · exact absurd (.inl (List.cons.inj hn).1) n2

/-! ## From the grammar to the parser -/

/-- Lexemes up to the end. -/
theorem Spec.Lexes.reads {o : Nat} {cs : List Ch} {L : List Lexed} (h : Lexes U o cs L) : Reads U o cs L := by
  induction h with
  | done h => exact .done h
  | more h1 h2 _ ih => exact .more h1 h2 ih

theorem reads_scan {s : SS} {x : Lexed} {L : List Lexed} (hW : ∀ c ∈ s.rest, c.Ok) (hx : ∀ r, x.lex ≠ .wrong r) (h : Reads U s.off s.rest (x :: L)) :
    ∃ t s', scan U s = .ok (t, s') ∧ t.kind ≠ .eof ∧ TokFor t x.lex ∧ t.pos = x.start ∧ s'.off = x.stop ∧ Reads U s'.off s'.rest L ∧ ∀ c ∈ s'.rest, c.Ok := by
  generalize hr : s.rest = cs at h
  generalize ho : s.off = o at h
  cases h with
  | stuck => exact absurd rfl (hx _)
  | more h1 h2 h3 =>
    obtain ⟨t, s', e1, e2, e3, e4, e5, e6⟩ := lexeme_scan (fun c hc => (hW c hc).1) hr h1 h2
    subst ho
    refine ⟨t, s', e1, e2, e3, e5, e6, ?_, fun c hc => hW c ?_⟩
    · rw [e6, e4]; exact h3
    · rw [hr]; rw [e4] at hc; simp [hc]

theorem reads_done {s : SS} (h : Reads U s.off s.rest []) : ∃ t s', scan U s = .ok (t, s') ∧ t.kind = .eof ∧ s'.rest = [] := by
  generalize hr : s.rest = cs at h
  cases h with
  | done h => subst hr; exact done_scan h

/-- The character at hand. -/
theorem reads_peek {s : SS} {L : List Lexed} (hW : ∀ c ∈ s.rest, c.Ok) (h : Reads U s.off s.rest L) {r : Nat} (hr : r ∈ marks1) (hd : r ≠ ch!".") :
    s.peek = some r ↔ ∃ e L', L = ⟨.mark r, s.off, e⟩ :: L' := by
  have hb := (mark_facts (U := U) hr).2.2.2.1
  generalize hs : s.rest = cs at h
  generalize ho : s.off = o at h
  have hp : s.peek = cs.head?.map Ch.r := by rw [SS.peek, hs]
  rw [hp]
  cases h with
  | done h =>
    constructor
    · intro h'
      cases cs with
      | nil => cases h'
      | cons c cs =>
        have : c.r = r := by simpa using h'
        have h2 := h c (by simp)
        rw [this, hb] at h2
        cases h2
    · rintro ⟨e, L', h⟩; cases h
  | @stuck _ w c rest h1 h2 =>
    constructor
    · intro h'
      cases w with
      | cons d w =>
        have : d.r = r := by simpa using h'
        have h2 := h1 d (by simp)
        rw [this, hb] at h2
        cases h2
      | nil =>
        have : c.r = r := by simpa using h'
        rw [this] at h2
        exact absurd hr h2.2.2
    · rintro ⟨e, L', h⟩; cases h
  | @more o w a k rest L h1 h2 h3 =>
    constructor
    · intro h'
      cases w with
      | cons c w =>
        have : c.r = r := by simpa using h'
        have h2 := h1 c (by simp)
        rw [this, hb] at h2
        cases h2
      | nil =>
        cases a with
        | nil =>
          cases h2 with
          | number h => exact absurd rfl (number_ne h)
        | cons c a =>
          have hc : c.r = r := by simpa using h'
          obtain ⟨rfl, rfl⟩ := lexeme_first h2 (by rw [hc]; exact hr) (by rw [hc]; exact hd)
          rw [hc]
          exact ⟨_, _, rfl⟩
    · rintro ⟨e, L', h⟩
      obtain ⟨h, -⟩ := List.cons.inj h
      injection h with hk hst _
      subst hk
      have hw : w = [] := by
        apply bytesOf_eq_nil (fun c hc => hW c (by rw [hs]; simp [hc]))
        rw [← List.length_eq_zero_iff]; omega
      subst hw
      cases h2
      rfl

theorem item1_not_wrong {m : Bool} {x : Lexed} {L : List Lexed} {n : Node} {L' : List Lexed} (h : Item1 m (x :: L) n L') : ∀ r, x.lex ≠ .wrong r := by
  intro r hr
  cases h <;> cases hr

theorem until_not_wrong {u : Until} {k : Lex} (h : u.mark = some k) : ∀ r, k ≠ .wrong r := by
  intro r hr
  subst hr
  cases u <;> cases h

/-- The mode. -/
def modeFor : Bool → Mode
  | true => .math
  | false => .normal

theorem tok_group {t : Token} {r : Nat} (h : TokFor t (.mark r)) : t.text = [r] := h.2

mutual
theorem item1_P : ∀ {m L n L'}, Item1 m L n L' → ∀ {x L0} {s : SS} {t : Token}, L = x :: L0 → (∀ c ∈ s.rest, c.Ok) → Reads U s.off s.rest L0 →
    TokFor t x.lex → t.pos = x.start → s.off = x.stop →
    ∃ s', P U (.one t) (modeFor m) s [n] 0 s' ∧ Reads U s'.off s'.rest L' ∧ ∀ c ∈ s'.rest, c.Ok
  | _, _, _, _, .word, _, _, s, t, e, hW, hL, ht, hp, ho => by
    obtain ⟨rfl, rfl⟩ := List.cons.inj e
    obtain ⟨h1, rfl⟩ := ht
    subst hp
    exact ⟨s, .word h1, hL, hW⟩
  | _, _, _, _, .number, _, _, s, t, e, hW, hL, ht, hp, ho => by
    obtain ⟨rfl, rfl⟩ := List.cons.inj e
    obtain ⟨h1, rfl⟩ := ht
    subst hp
    exact ⟨s, .number h1, hL, hW⟩
  | _, _, _, _, .comment, _, _, s, t, e, hW, hL, ht, hp, ho => by
    obtain ⟨rfl, rfl⟩ := List.cons.inj e
    exact ⟨s, .comment ht.1, hL, hW⟩
  | _, _, _, _, .blank, _, _, s, t, e, hW, hL, ht, hp, ho => by
    obtain ⟨rfl, rfl⟩ := List.cons.inj e
    obtain ⟨h1, rfl⟩ := ht
    subst hp
    exact ⟨s, .spaceText h1, hL, hW⟩
  | _, _, _, _, .mathBlank, _, _, s, t, e, hW, hL, ht, hp, ho => by
    obtain ⟨rfl, rfl⟩ := List.cons.inj e
    exact ⟨s, .spaceMath ht.1, hL, hW⟩
  | _, _, _, _, .symbol (c := c) hc, _, _, s, t, e, hW, hL, ht, hp, ho => by
    obtain ⟨rfl, rfl⟩ := List.cons.inj e
    obtain ⟨h1, h2⟩ := ht
    subst hp
    refine ⟨s, ?_, hL, hW⟩
    have key : ∀ c ∈ bs!"=<>/*-+!?':,;.[]()", (markKind c = .symbol ∧ [c] ≠ bs!"$" ∧ [c] ≠ bs!"^" ∧ [c] ≠ bs!"_") ∨
        (markKind c = .lparen ∨ markKind c = .rparen ∨ markKind c = .lbrack ∨ markKind c = .rbrack) := by decide
    rw [← h2]
    rcases key c hc with ⟨k1, k2, k3, k4⟩ | k
    · exact .symbol (h1.trans k1) (by rw [h2]; exact k2) (by rw [h2]; exact k3) (by rw [h2]; exact k4)
    · rw [← h1] at k; exact .delim k
  | m, _, _, _, .math h, _, _, s, t, e, hW, hL, ht, hp, ho => by
    obtain ⟨rfl, rfl⟩ := List.cons.inj e
    obtain ⟨h1, h2⟩ := ht
    subst hp
    obtain ⟨s', h3, h4, h5⟩ := items_P h (st := .dollar) rfl hW hL
    refine ⟨s', ?_, h4, h5⟩
    have := P.math (m := modeFor m) h1 h2 h3
    rw [h2] at this
    exact this
  | _, _, _, _, .group h, _, _, s, t, e, hW, hL, ht, hp, ho => by
    obtain ⟨rfl, rfl⟩ := List.cons.inj e
    obtain ⟨s', h3, h4, h5⟩ := items_P h (st := .rbrace) rfl hW hL
    exact ⟨s', .group ht.1 h3, h4, h5⟩
  | _, _, _, _, .supGroup h, _, _, s, t, e, hW, hL, ht, hp, ho => by
    obtain ⟨rfl, rfl⟩ := List.cons.inj e
    obtain ⟨h1, h2⟩ := ht
    subst hp
    obtain ⟨t1, s1, g1, g2, g3, g4, g5, g6, g7⟩ := reads_scan hW (by simp) hL
    obtain ⟨s', h3, h4, h5⟩ := items_P h (st := .rbrace) rfl g7 g6
    exact ⟨s', .supGroup h1 h2 ((reads_peek hW hL (by decide) (by decide)).2 ⟨_, _, by rw [ho]⟩) g1 g3.2 h3, h4, h5⟩
  | _, _, _, _, .subGroup h, _, _, s, t, e, hW, hL, ht, hp, ho => by
    obtain ⟨rfl, rfl⟩ := List.cons.inj e
    obtain ⟨h1, h2⟩ := ht
    subst hp
    obtain ⟨t1, s1, g1, g2, g3, g4, g5, g6, g7⟩ := reads_scan hW (by simp) hL
    obtain ⟨s', h3, h4, h5⟩ := items_P h (st := .rbrace) rfl g7 g6
    exact ⟨s', .subGroup h1 h2 ((reads_peek hW hL (by decide) (by decide)).2 ⟨_, _, by rw [ho]⟩) g1 g3.2 h3, h4, h5⟩
  | m, _, _, _, .sup (L := L) h, _, _, s, t, e, hW, hL, ht, hp, ho => by
    obtain ⟨rfl, rfl⟩ := List.cons.inj e
    obtain ⟨h1, h2⟩ := ht
    subst hp
    have hcons : ∃ y L1, L = y :: L1 := by cases h <;> exact ⟨_, _, rfl⟩
    obtain ⟨y, L1, hy⟩ := hcons
    rw [hy] at hL
    obtain ⟨t1, s1, g1, g2, g3, g4, g5, g6, g7⟩ := reads_scan hW (item1_not_wrong (by rw [← hy]; exact h)) hL
    obtain ⟨s', h3, h4, h5⟩ := item1_P h hy g7 g6 g3 g4 g5
    refine ⟨s', ?_, h4, h5⟩
    by_cases hb : s.peek = some ch!"{"
    · obtain ⟨e1, L2, he⟩ := (reads_peek hW hL (by decide) (by decide)).1 hb
      obtain ⟨rfl, rfl⟩ := List.cons.inj he
      cases m with
      | true =>
        cases h3 with
        | group h6 h7 => exact .supGroup h1 h2 hb g1 g3.2 h7
        | delim h6 => rw [g3.1] at h6; simp [markKind] at h6
        | _ => simp_all [TokFor, markKind]
      | false =>
        cases h3 with
        | delim h6 => rw [g3.1] at h6; simp [markKind] at h6
        | _ => simp_all [TokFor, markKind]
    · exact .supOne h1 h2 hb g1 h3
  | m, _, _, _, .sub (L := L) h, _, _, s, t, e, hW, hL, ht, hp, ho => by
    obtain ⟨rfl, rfl⟩ := List.cons.inj e
    obtain ⟨h1, h2⟩ := ht
    subst hp
    have hcons : ∃ y L1, L = y :: L1 := by cases h <;> exact ⟨_, _, rfl⟩
    obtain ⟨y, L1, hy⟩ := hcons
    rw [hy] at hL
    obtain ⟨t1, s1, g1, g2, g3, g4, g5, g6, g7⟩ := reads_scan hW (item1_not_wrong (by rw [← hy]; exact h)) hL
    obtain ⟨s', h3, h4, h5⟩ := item1_P h hy g7 g6 g3 g4 g5
    refine ⟨s', ?_, h4, h5⟩
    by_cases hb : s.peek = some ch!"{"
    · obtain ⟨e1, L2, he⟩ := (reads_peek hW hL (by decide) (by decide)).1 hb
      obtain ⟨rfl, rfl⟩ := List.cons.inj he
      cases m with
      | true =>
        cases h3 with
        | group h6 h7 => exact .subGroup h1 h2 hb g1 g3.2 h7
        | delim h6 => rw [g3.1] at h6; simp [markKind] at h6
        | _ => simp_all [TokFor, markKind]
      | false =>
        cases h3 with
        | delim h6 => rw [g3.1] at h6; simp [markKind] at h6
        | _ => simp_all [TokFor, markKind]
    · exact .subOne h1 h2 hb g1 h3
  | _, _, _, _, .root h ha, _, _, s, t, e, hW, hL, ht, hp, ho => by
    obtain ⟨rfl, rfl⟩ := List.cons.inj e
    obtain ⟨h1, h2⟩ := ht
    subst hp
    dsimp only at ho
    subst ho
    obtain ⟨t1, s1, g1, g2, g3, g4, g5, g6, g7⟩ := reads_scan hW (by simp) hL
    obtain ⟨s2, h3, h4, h5⟩ := items_P h (st := .rbrack) rfl g7 g6
    obtain ⟨s', h6, h7, h8⟩ := args_P ha h5 h4
    refine ⟨s', ?_, h7, h8⟩
    have hk : macroLookup t.text = some (some bs!"OA") := by rw [h2]; krfl
    have := P.macro (U := U) (m := modeFor _) h1 hk (.argsOpt (.inl rfl) ((reads_peek hW hL (by decide) (by decide)).2 ⟨_, _, rfl⟩) g1 g3.2 h3 h6)
    rw [h2, g4] at this
    exact this
  | _, _, _, _, .macro (t := nm) (L := L) hk ha hs, _, _, s, t, e, hW, hL, ht, hp, ho => by
    obtain ⟨rfl, rfl⟩ := List.cons.inj e
    obtain ⟨h1, h2⟩ := ht
    subst hp
    dsimp only at ho
    obtain ⟨s', h6, h7, h8⟩ := args_P ha hW hL
    refine ⟨s', ?_, h7, h8⟩
    have hlk := lookupOf hk
    rw [← h2] at hlk ⊢
    refine .macro h1 hlk ?_
    rcases sigOf_arity nm with ⟨e1, e2, e3⟩ | ⟨e1, e2⟩
    · rw [h2, e2]
      rw [e3] at h6
      refine .argsNoOpt (.inl rfl) ?_ h6
      intro hb
      obtain ⟨e', L2, he⟩ := (reads_peek hW hL (by decide) (by decide)).1 hb
      refine hs e1 e' ?_
      rw [he, ho]; rfl
    · rw [h2, e2]; exact h6
theorem items_P : ∀ {m u L l p L'}, Items m u L l p L' → ∀ {st : Stop} {s : SS}, st.until = u → (∀ c ∈ s.rest, c.Ok) → Reads U s.off s.rest L →
    ∃ s', P U (.loop st) (modeFor m) s l p s' ∧ Reads U s'.off s'.rest L' ∧ ∀ c ∈ s'.rest, c.Ok
  | _, _, _, _, _, _, .eof, st, s, hu, hW, hL => by
    obtain ⟨t, s', h1, h2, h3⟩ := reads_done hL
    exact ⟨s', .loopEof h1 h2, by rw [h3]; exact .done (by simp), by rw [h3]; simp⟩
  | m, _, _, _, _, _, .close hm, st, s, hu, hW, hL => by
    obtain ⟨t1, s1, g1, g2, g3, g4, g5, g6, g7⟩ := reads_scan hW (until_not_wrong hm) hL
    refine ⟨s1, ?_, g6, g7⟩
    have := P.loopStop (U := U) (st := st) (m := modeFor m) g1 g2 (stop_of g3 (by rw [hu]; exact hm))
    rw [g4] at this
    exact this
  | _, _, _, _, _, _, .item hm h1 h2, st, s, hu, hW, hL => by
    obtain ⟨t1, s1, g1, g2, g3, g4, g5, g6, g7⟩ := reads_scan hW (item1_not_wrong h1) hL
    obtain ⟨s2, h3, h4, h5⟩ := item1_P h1 rfl g7 g6 g3 g4 g5
    obtain ⟨s', h6, h7, h8⟩ := items_P h2 hu h5 h4
    refine ⟨s', ?_, h7, h8⟩
    rw [← keep_eq]
    refine .loopCons g1 g2 ?_ h3 h6
    rw [← Bool.not_eq_true]
    intro ht
    rcases scan_lexes hW g1 with ⟨h, -⟩ | ⟨-, -, k, f1, f2, -⟩
    · exact g2 h
    · have hk := tokFor_unique f1 g3
      subst hk
      rw [stop_mark f1 f2, hu] at ht
      exact hm ht
theorem args_P : ∀ {m n L l L'}, Args m n L l L' → ∀ {s : SS}, (∀ c ∈ s.rest, c.Ok) → Reads U s.off s.rest L →
    ∃ s', P U (.args (List.replicate n ch!"A")) (modeFor m) s l 0 s' ∧ Reads U s'.off s'.rest L' ∧ ∀ c ∈ s'.rest, c.Ok
  | _, _, _, _, _, .done, s, hW, hL => ⟨s, .argsNil, hL, hW⟩
  | _, _, _, _, _, .more h1 h2, s, hW, hL => by
    obtain ⟨t1, s1, g1, g2, g3, g4, g5, g6, g7⟩ := reads_scan hW (by simp) hL
    obtain ⟨s2, h3, h4, h5⟩ := items_P h1 (st := .rbrace) rfl g7 g6
    obtain ⟨s', h6, h7, h8⟩ := args_P h2 h5 h4
    refine ⟨s', ?_, h7, h8⟩
    rw [List.replicate_succ]
    have := P.argsArg (U := U) (m := modeFor _) (.inl rfl) g1 g3.2 h3 h6
    rw [g4] at this
    exact this
end

theorem init_strip (x : GoString) : SS.init x = ⟨decode (stripBom x), x.length - (stripBom x).length⟩ := by
  by_cases h : [0xEF, 0xBB, 0xBF] <+: x
  · obtain ⟨y, rfl⟩ := h
    have hs : stripBom ([0xEF, 0xBB, 0xBF] ++ y) = y := rfl
    rw [hs]
    show SS.init (0xEF :: 0xBB :: 0xBF :: y) = _
    rw [SS.init_bom]
    simp only [List.length_append, List.length_cons, List.length_nil, SS.mk.injEq, true_and]
    omega
  · have hs : stripBom x = x := by
      unfold stripBom
      split
      · rename_i y; exact absurd ⟨y, rfl⟩ h
      · rfl
    rw [hs, SS.init_of_not_bom h]
    simp

theorem lexes_unique {o : Nat} {cs : List Ch} {L L' : List Lexed} (hW : ∀ c ∈ cs, c.Ok) (h : Lexes U o cs L) (h' : Lexes U o cs L') : L = L' := by
  induction L generalizing o cs L' with
  | nil =>
    cases L' with
    | nil => rfl
    | cons x L' =>
      obtain ⟨t, s1, e1, e2, -⟩ := lexes_done (s := ⟨cs, o⟩) h
      obtain ⟨t', s1', f1, f2, -⟩ := lexes_scan (s := ⟨cs, o⟩) hW h'
      rw [e1] at f1
      cases f1
      exact absurd e2 f2
  | cons x L ih =>
    obtain ⟨t, s1, e1, e2, e3, e4, e5, e6, e7⟩ := lexes_scan (s := ⟨cs, o⟩) hW h
    cases L' with
    | nil =>
      obtain ⟨t', s1', f1, f2, -⟩ := lexes_done (s := ⟨cs, o⟩) h'
      rw [e1] at f1
      cases f1
      exact absurd f2 e2
    | cons x' L' =>
      obtain ⟨t', s1', f1, f2, f3, f4, f5, f6, f7⟩ := lexes_scan (s := ⟨cs, o⟩) hW h'
      rw [e1] at f1
      cases f1
      have hk := tokFor_unique e3 f3
      have hx : x = x' := by
        cases x; cases x'
        dsimp only at hk e4 e5 f4 f5
        rw [hk, ← e4, ← f4, ← e5, ← f5]
      rw [hx, ih e7 e6 f6]

end Verif
