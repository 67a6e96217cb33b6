import Verif.Lemmas.Lex
import Verif.Lemmas.Content
/-! # Parsing the source text of a document -/

namespace Verif
open Spec

variable {U : Nat → Bool}

/-- The parser mode inside or outside math. -/
def modeOf (math : Bool) : Mode := if math then .math else .normal

/-- The stopping condition for each kind of list. -/
def Spec.Ctx.stop : Ctx → Stop
  | .top => .never
  | .dollar => .dollar
  | .brace => .rbrace
  | .bracket => .rbrack

/-- A loop only looks at its input through the scanner. -/
theorem P.loop_scan {st m s l c s' s0} (h : P U (.loop st) m s l c s') (he : scan U s0 = scan U s) :
    P U (.loop st) m s0 l c s' := by
  cases h with
  | loopEof h1 h2 => exact .loopEof (he.trans h1) h2
  | loopStop h1 h2 h3 => exact .loopStop (he.trans h1) h2 h3
  | loopCons h1 h2 h3 h4 h5 => exact .loopCons (he.trans h1) h2 h3 h4 h5

theorem scan_brace_kind {s : SS} {t : Token} {s' : SS} (h : s.peek = some ch!"{") (hs : scan U s = .ok (t, s')) :
    t.kind = .lbrace := by
  obtain ⟨rest, off⟩ := s
  cases rest with
  | nil => simp [SS.peek] at h
  | cons c cs =>
    simp only [SS.peek, List.head?_cons, Option.map_some, Option.some.injEq] at h
    obtain ⟨r, b⟩ := c
    subst h
    rw [scan, rawScan_char rfl rfl rfl (by simp) (by simp)] at hs
    simp [symbolChars] at hs
    rw [← hs.1]

/-- Braces. -/
theorem scan_lbrace {y : GoString} {o : Nat} :
    scan U ⟨decode (ch!"{" :: y), o⟩ = .ok (⟨.lbrace, o, bs!"{"⟩, ⟨decode y, o + 1⟩) :=
  scan_char (by decide) (by simp)

theorem scan_rbrace {y : GoString} {o : Nat} :
    scan U ⟨decode (ch!"}" :: y), o⟩ = .ok (⟨.rbrace, o, bs!"}"⟩, ⟨decode y, o + 1⟩) :=
  scan_char (by decide) (by simp)

theorem scan_lbrack {y : GoString} {o : Nat} :
    scan U ⟨decode (ch!"[" :: y), o⟩ = .ok (⟨.lbrack, o, bs!"["⟩, ⟨decode y, o + 1⟩) :=
  scan_char (by decide) (by simp)

theorem scan_rbrack {y : GoString} {o : Nat} :
    scan U ⟨decode (ch!"]" :: y), o⟩ = .ok (⟨.rbrack, o, bs!"]"⟩, ⟨decode y, o + 1⟩) :=
  scan_char (by decide) (by simp)

theorem scan_dollar {y : GoString} {o : Nat} :
    scan U ⟨decode (ch!"$" :: y), o⟩ = .ok (⟨.symbol, o, bs!"$"⟩, ⟨decode y, o + 1⟩) :=
  scan_char (by decide) (by simp)

theorem peek_cons {b : Nat} {y : GoString} {o : Nat} (h : b < 128) :
    (⟨decode (b :: y), o⟩ : SS).peek = some b := by
  rw [decode_ascii_cons _ h]; rfl

theorem loop_close {st : Stop} {m : Mode} {b : Nat} {k : Kind} {y : GoString} {o : Nat}
    (h : scan U ⟨decode (b :: y), o⟩ = .ok (⟨k, o, [b]⟩, ⟨decode y, o + 1⟩)) (hk : k ≠ .eof)
    (ht : st.test ⟨k, o, [b]⟩ = true) : P U (.loop st) m ⟨decode (b :: y), o⟩ [] o ⟨decode y, o + 1⟩ :=
  P.loopStop h hk ht

theorem word_ne {t : GoString} (h : WordText U t) (b : Nat) (hb : isLetter U b = false) (hlt : b < 128) : t ≠ [b] := by
  rintro rfl
  have := h.2 ⟨b, [b]⟩ (by rw [decode_ascii_cons _ hlt]; simp)
  simp [hb] at this

theorem next_srcL_args {args : List Item} (sig : GoString) (h : FitsSig sig args) (y : GoString)
    (hy : args = [] → Next y notLetter) : Next (srcL args ++ y) notLetter := by
  have lb : notLetter ch!"{" := by unfold notLetter; decide
  have lk : notLetter ch!"[" := by unfold notLetter; decide
  cases args with
  | nil => simpa [srcL] using hy rfl
  | cons a as =>
    cases h with
    | arg _ => intro b hb; simp [srcL, src] at hb; exact hb ▸ lb
    | opt _ => intro b hb; simp [srcL, src] at hb; exact hb ▸ lk
    | noOpt _ => intro b hb; simp [srcL, src] at hb; exact hb ▸ lb

/-- An item yields its node. -/
def ItemP (U : Nat → Bool) (ctx : Ctx) (math : Bool) (i : Item) (y : GoString) : Prop :=
  ∀ o, ∃ t s1, scan U ⟨decode (src i ++ y), o⟩ = .ok (t, s1) ∧ t.kind ≠ .eof ∧
    (single math i = true → t.kind ≠ .lbrace) ∧ ctx.stop.test t = false ∧
    P U (.one t) (modeOf math) s1 [node math o i] 0 ⟨decode y, o + (src i).length⟩

/-- A list of items yields its nodes. -/
def ListP (U : Nat → Bool) (ctx : Ctx) (math : Bool) (l : List Item) (y : GoString) : Prop :=
  ∀ o l2 cl s', P U (.loop ctx.stop) (modeOf math) ⟨decode y, o + (srcL l).length⟩ l2 cl s' →
    P U (.loop ctx.stop) (modeOf math) ⟨decode (srcL l ++ y), o⟩ (nodesL math o l ++ l2) cl s'

theorem ListP.closed {ctx : Ctx} {math : Bool} {l : List Item} {y : GoString} {b : Nat} {k : Kind}
    (h : ListP U ctx math l (b :: y)) (hs : ∀ o, scan U ⟨decode (b :: y), o⟩ = .ok (⟨k, o, [b]⟩, ⟨decode y, o + 1⟩))
    (hk : k ≠ .eof) (ht : ∀ o, ctx.stop.test ⟨k, o, [b]⟩ = true) (o : Nat) :
    P U (.loop ctx.stop) (modeOf math) ⟨decode (srcL l ++ b :: y), o⟩ (nodesL math o l) (o + (srcL l).length)
      ⟨decode y, o + (srcL l).length + 1⟩ := by
  have := h o [] _ _ (loop_close (hs _) hk (ht _))
  simpa using this

theorem isNil_node {math : Bool} {o : Nat} {i : Item} {l2 : List Node} {l : List Item} :
    nodesL math o (i :: l) ++ l2 =
      if (node math o i).isNil then nodesL math (o + (src i).length) l ++ l2
      else node math o i :: (nodesL math (o + (src i).length) l ++ l2) := by
  rw [nodesL]; split <;> rfl

theorem script_test (ctx : Ctx) (b : Nat) (o : Nat) (hb : b = ch!"_" ∨ b = ch!"^") :
    ctx.stop.test ⟨.symbol, o, [b]⟩ = false := by
  cases ctx <;> rcases hb with rfl | rfl <;> rfl

mutual
theorem item_ok (ctx : Ctx) (math : Bool) : ∀ (i : Item) (y : GoString), (∀ w, i ≠ .breaks w) →
    Ok U ctx math i y → ItemP U ctx math i y
  | .word t, y, _, h => by
    intro o
    simp only [Ok] at h
    refine ⟨_, _, scan_word h.1 h.2, by simp, by simp, ?_, P.word rfl⟩
    cases ctx <;> try rfl
    simpa [Spec.Ctx.stop, Stop.test, src] using word_ne h.1 ch!"$" rfl (by decide)
  | .num a none, y, _, h => by
    intro o
    simp only [Ok] at h
    refine ⟨_, _, scan_int h.1 h.2.1 h.2.2, by simp, by simp, ?_, P.number rfl⟩
    cases ctx <;> try rfl
    simp only [Spec.Ctx.stop, Stop.test, beq_eq_false_iff_ne, ne_eq]
    rintro rfl
    have := h.2.1 36 (by simp)
    simp [isDecimal] at this
  | .num a (some b), y, _, h => by
    intro o
    simp only [Ok] at h
    have e : src (.num a (some b)) = a ++ (ch!"." :: b) := by simp [src, numText]
    refine ⟨_, _, by rw [e]; exact scan_frac h.1 h.2.1 h.2.2.1 h.2.2.2, by simp, by simp, ?_, ?_⟩
    · cases ctx <;> try rfl
      simp only [Spec.Ctx.stop, Stop.test, beq_eq_false_iff_ne, ne_eq]
      intro hc
      have : (46 : Nat) ∈ bs!"$" := by rw [← hc]; simp
      simp at this
    · rw [e]
      have : node math o (.num a (some b)) = .lit o (a ++ (ch!"." :: b)) := by simp [node, numText]
      rw [this]
      exact P.number rfl
  | .sym c, y, _, h => by
    intro o
    simp only [Ok] at h
    have hm : ∀ c ∈ bs!"=<>/*-+!?':,;.()[]", c ∈ bs!" $_=<>^/*-+!?':,;.[]{}()" := by decide
    have hk : ∀ c ∈ bs!"=<>/*-+!?':,;.()[]", charKind c ≠ .eof ∧ charKind c ≠ .lbrace ∧ charKind c ≠ .rbrace ∧
      c ≠ 36 ∧ (c ≠ 93 → charKind c ≠ .rbrack) ∧ ((charKind c = .symbol ∧ c ≠ 94 ∧ c ≠ 95) ∨
       charKind c = .lparen ∨ charKind c = .rparen ∨ charKind c = .lbrack ∨ charKind c = .rbrack) := by decide
    obtain ⟨k1, k2, k3, k4, k5, k6⟩ := hk c h.1
    refine ⟨_, _, scan_char (hm c h.1) h.2.1, k1, fun _ => k2, ?_, ?_⟩
    · cases ctx with
      | top => rfl
      | dollar => simpa [Spec.Ctx.stop, Stop.test] using k4
      | brace => simpa [Spec.Ctx.stop, Stop.test] using k3
      | bracket => simpa [Spec.Ctx.stop, Stop.test] using k5 (h.2.2 rfl)
    · rcases k6 with ⟨k6, k7, k8⟩ | k6
      · exact P.symbol k6 (by simpa using k4) (by simpa using k7) (by simpa using k8)
      · exact P.delim k6
  | .blank, y, _, _ => by
    intro o
    refine ⟨_, _, scan_char (c := ch!" ") (by decide) (by simp), by simp [charKind], fun _ => by simp [charKind], ?_, ?_⟩
    · cases ctx <;> rfl
    · cases math
      · exact P.spaceText rfl
      · exact P.spaceMath rfl
  | .escBlank, y, _, _ => by
    intro o
    refine ⟨_, _, scan_escBlank, by simp, fun _ => by simp, ?_, ?_⟩
    · cases ctx <;> rfl
    · cases math
      · exact P.spaceText rfl
      · exact P.spaceMath rfl
  | .breaks w, y, hb, _ => absurd rfl (hb w)
  | .comment body, y, _, h => by
    intro o
    simp only [Ok] at h
    obtain ⟨line, hl, hs⟩ := scan_commentLine (U := U) (y := y) (o := o) h
    refine ⟨_, _, hs, by simp, by simp, ?_, P.comment rfl⟩
    cases ctx <;> try rfl
    simp only [Spec.Ctx.stop, Stop.test, beq_eq_false_iff_ne, ne_eq]
    rintro rfl
    simp at hl
  | .macro name args, y, _, h => by
    intro o
    simp only [Ok] at h
    obtain ⟨sig, h1, h2, h3, h4⟩ := h
    have ih := args_ok math args y sig h2 h3 (o + name.length)
    obtain ⟨t, ht, hscan⟩ : ∃ t, t = (⟨.macro, o, name⟩ : Token) ∧
        scan U ⟨decode (name ++ (srcL args ++ y)), o⟩ = .ok (t, ⟨decode (srcL args ++ y), o + name.length⟩) := by
      rcases h4 with ⟨w, rfl, hw, hy⟩ | ⟨c, rfl, hc⟩
      · exact ⟨_, rfl, scan_macroWord hw (next_srcL_args sig h2 y hy)⟩
      · exact ⟨_, rfl, scan_macroChar hc⟩
    subst ht
    have hne : name ≠ bs!"$" := by
      rcases h4 with ⟨w, rfl, _⟩ | ⟨c, rfl, _⟩ <;> simp
    refine ⟨_, _, by rw [src, List.append_assoc]; exact hscan, by simp, by simp, ?_, ?_⟩
    · cases ctx <;> try rfl
      simpa [Spec.Ctx.stop, Stop.test] using hne
    · rw [src, node, List.length_append, ← Nat.add_assoc]
      exact P.macro rfl h1 ih
  | .arg _, _, _, h => by simp [Ok] at h
  | .optArg _, _, _, h => by simp [Ok] at h
  | .math l, y, _, h => by
    intro o
    simp only [Ok] at h
    have ih := (list_ok .dollar true l (bs!"$" ++ y) h.2).closed (fun _ => scan_dollar) (by decide) (fun _ => rfl) (o + 1)
    have e : src (.math l) ++ y = ch!"$" :: (srcL l ++ ch!"$" :: y) := by simp [src]
    have e2 : o + (src (.math l)).length = o + 1 + (srcL l).length + 1 := by simp [src]; omega
    refine ⟨_, _, by rw [e]; exact scan_dollar, by simp, by simp, ?_, ?_⟩
    · cases ctx <;> first | rfl | exact absurd rfl h.1
    · rw [e2, node]
      exact P.math rfl rfl ih
  | .group l, y, _, h => by
    intro o
    simp only [Ok] at h
    obtain ⟨rfl, h⟩ := h
    have ih := (list_ok .brace true l (bs!"}" ++ y) h).closed (fun _ => scan_rbrace) (by decide) (fun _ => rfl) (o + 1)
    have e : src (.group l) ++ y = ch!"{" :: (srcL l ++ ch!"}" :: y) := by simp [src]
    have e2 : o + (src (.group l)).length = o + 1 + (srcL l).length + 1 := by simp [src]; omega
    refine ⟨_, _, by rw [e]; exact scan_lbrace, by simp, by simp [single], ?_, ?_⟩
    · cases ctx <;> rfl
    · rw [e2, node]
      exact P.group rfl ih
  | .subGroup l, y, _, h => by
    intro o
    simp only [Ok] at h
    have ih := (list_ok .brace math l (bs!"}" ++ y) h).closed (fun _ => scan_rbrace) (by decide) (fun _ => rfl) (o + 1 + 1)
    have e : src (.subGroup l) ++ y = ch!"_" :: ch!"{" :: (srcL l ++ ch!"}" :: y) := by simp [src]
    have e2 : o + (src (.subGroup l)).length = o + 1 + 1 + (srcL l).length + 1 := by simp [src]; omega
    refine ⟨_, _, by rw [e]; exact scan_char (by decide) (by simp), by simp [charKind, symbolChars],
      by simp [charKind, symbolChars], script_test _ _ _ (.inl rfl), ?_⟩
    rw [e2, node]
    exact P.subGroup rfl rfl (peek_cons (by decide)) scan_lbrace rfl ih
  | .sub i, y, _, h => by
    intro o
    simp only [Ok] at h
    have hb : ∀ w, i ≠ .breaks w := by rintro w rfl; simp [single] at h
    obtain ⟨t, s1, h1, h2, h3, _, h5⟩ := item_ok .top math i y hb h.2 (o + 1)
    have e : src (.sub i) ++ y = ch!"_" :: (src i ++ y) := by simp [src]
    have e2 : o + (src (.sub i)).length = o + 1 + (src i).length := by simp [src]; omega
    refine ⟨_, _, by rw [e]; exact scan_char (by decide) (by simp), by simp [charKind, symbolChars],
      by simp [charKind, symbolChars], script_test _ _ _ (.inl rfl), ?_⟩
    rw [e2, node]
    exact P.subOne rfl rfl (fun hp => h3 h.1 (scan_brace_kind hp h1)) h1 h5
  | .supGroup l, y, _, h => by
    intro o
    simp only [Ok] at h
    have ih := (list_ok .brace math l (bs!"}" ++ y) h).closed (fun _ => scan_rbrace) (by decide) (fun _ => rfl) (o + 1 + 1)
    have e : src (.supGroup l) ++ y = ch!"^" :: ch!"{" :: (srcL l ++ ch!"}" :: y) := by simp [src]
    have e2 : o + (src (.supGroup l)).length = o + 1 + 1 + (srcL l).length + 1 := by simp [src]; omega
    refine ⟨_, _, by rw [e]; exact scan_char (by decide) (by simp), by simp [charKind, symbolChars],
      by simp [charKind, symbolChars], script_test _ _ _ (.inr rfl), ?_⟩
    rw [e2, node]
    exact P.supGroup rfl rfl (peek_cons (by decide)) scan_lbrace rfl ih
  | .sup i, y, _, h => by
    intro o
    simp only [Ok] at h
    have hb : ∀ w, i ≠ .breaks w := by rintro w rfl; simp [single] at h
    obtain ⟨t, s1, h1, h2, h3, _, h5⟩ := item_ok .top math i y hb h.2 (o + 1)
    have e : src (.sup i) ++ y = ch!"^" :: (src i ++ y) := by simp [src]
    have e2 : o + (src (.sup i)).length = o + 1 + (src i).length := by simp [src]; omega
    refine ⟨_, _, by rw [e]; exact scan_char (by decide) (by simp), by simp [charKind, symbolChars],
      by simp [charKind, symbolChars], script_test _ _ _ (.inr rfl), ?_⟩
    rw [e2, node]
    exact P.supOne rfl rfl (fun hp => h3 h.1 (scan_brace_kind hp h1)) h1 h5
theorem list_ok (ctx : Ctx) (math : Bool) : ∀ (l : List Item) (y : GoString),
    OkL U ctx math l y → ListP U ctx math l y
  | [], y, _ => by
    intro o l2 cl s' h
    simpa [srcL, nodesL] using h
  | i :: l, y, h => by
    intro o l2 cl s' hp
    simp only [OkL] at h
    have ihl := list_ok ctx math l y h.2 (o + (src i).length) l2 cl s'
      (by simpa [srcL, Nat.add_assoc] using hp)
    rw [srcL, List.append_assoc]
    by_cases hb : ∃ w, i = .breaks w
    · obtain ⟨w, rfl⟩ := hb
      have hw : ∀ b ∈ w, isBreak b = true := by simpa [Ok] using h.1
      have hlt : ∀ b ∈ w, b < 128 := by
        intro b hb
        have := hw b hb
        simp only [isBreak, Bool.or_eq_true, beq_iff_eq] at this
        omega
      have e : nodesL math o (.breaks w :: l) ++ l2 = nodesL math (o + w.length) l ++ l2 := by
        simp [nodesL, node, Node.isNil, src]
      rw [e, src]
      refine P.loop_scan ihl ?_
      rw [decode_ascii_append hlt, scan_ws, bytesOf_ascii, src]
      intro c hc
      simp only [ascii, List.mem_map] at hc
      obtain ⟨d, hd, rfl⟩ := hc
      exact hw d hd
    · obtain ⟨t, s1, h1, h2, _, h4, h5⟩ := item_ok ctx math i (srcL l ++ y) (fun w hw => hb ⟨w, hw⟩) h.1 o
      rw [isNil_node]
      exact P.loopCons h1 h2 h4 h5 ihl
theorem args_ok (math : Bool) : ∀ (l : List Item) (y : GoString) (sig : GoString), FitsSig sig l →
    OkArgs U math l y → ∀ o, P U (.args sig) (modeOf math) ⟨decode (srcL l ++ y), o⟩ (nodesL math o l) 0
      ⟨decode y, o + (srcL l).length⟩
  | [], y, sig, hs, _ => by
    intro o
    cases hs
    simpa [srcL, nodesL] using P.argsNil
  | .arg l :: as, y, sig, hs, h => by
    intro o
    simp only [OkArgs] at h
    have ih := (list_ok .brace math l (bs!"}" ++ (srcL as ++ y)) h.1).closed (fun _ => scan_rbrace) (by decide)
      (fun _ => rfl) (o + 1)
    have e : srcL (.arg l :: as) ++ y = ch!"{" :: (srcL l ++ ch!"}" :: (srcL as ++ y)) := by simp [srcL, src]
    have e2 : o + (srcL (.arg l :: as)).length = o + 1 + (srcL l).length + 1 + (srcL as).length := by
      simp [srcL, src]; omega
    have e3 : nodesL math o (.arg l :: as) = .arg o (nodesL math (o + 1) l) (o + 1 + (srcL l).length) ::
        nodesL math (o + 1 + (srcL l).length + 1) as := by
      have : o + ((srcL l).length + 1 + 1) = o + 1 + (srcL l).length + 1 := by omega
      simp [nodesL, node, Node.isNil, src, this]
    rw [e, e2, e3]
    cases hs with
    | arg hs =>
      exact P.argsArg (.inl rfl) scan_lbrace rfl ih (args_ok math as y _ hs h.2 _)
    | noOpt hs =>
      cases hs with
      | arg hs =>
        refine P.argsNoOpt (.inl rfl) (by rw [peek_cons (by decide)]; simp) ?_
        exact P.argsArg (.inl rfl) scan_lbrace rfl ih (args_ok math as y _ hs h.2 _)
  | .optArg l :: as, y, sig, hs, h => by
    intro o
    simp only [OkArgs] at h
    have ih := (list_ok .bracket math l (bs!"]" ++ (srcL as ++ y)) h.1).closed (fun _ => scan_rbrack) (by decide)
      (fun _ => rfl) (o + 1)
    have e : srcL (.optArg l :: as) ++ y = ch!"[" :: (srcL l ++ ch!"]" :: (srcL as ++ y)) := by simp [srcL, src]
    have e2 : o + (srcL (.optArg l :: as)).length = o + 1 + (srcL l).length + 1 + (srcL as).length := by
      simp [srcL, src]; omega
    have e3 : nodesL math o (.optArg l :: as) = .optArg o (nodesL math (o + 1) l) (o + 1 + (srcL l).length) ::
        nodesL math (o + 1 + (srcL l).length + 1) as := by
      have : o + ((srcL l).length + 1 + 1) = o + 1 + (srcL l).length + 1 := by omega
      simp [nodesL, node, Node.isNil, src, this]
    rw [e, e2, e3]
    cases hs with
    | opt hs =>
      exact P.argsOpt (.inl rfl) (peek_cons (by decide)) scan_lbrack rfl ih (args_ok math as y _ hs h.2 _)
  | .word _ :: _, _, _, _, h => by simp [OkArgs] at h
  | .num _ _ :: _, _, _, _, h => by simp [OkArgs] at h
  | .sym _ :: _, _, _, _, h => by simp [OkArgs] at h
  | .blank :: _, _, _, _, h => by simp [OkArgs] at h
  | .escBlank :: _, _, _, _, h => by simp [OkArgs] at h
  | .breaks _ :: _, _, _, _, h => by simp [OkArgs] at h
  | .comment _ :: _, _, _, _, h => by simp [OkArgs] at h
  | .macro _ _ :: _, _, _, _, h => by simp [OkArgs] at h
  | .math _ :: _, _, _, _, h => by simp [OkArgs] at h
  | .group _ :: _, _, _, _, h => by simp [OkArgs] at h
  | .subGroup _ :: _, _, _, _, h => by simp [OkArgs] at h
  | .sub _ :: _, _, _, _, h => by simp [OkArgs] at h
  | .supGroup _ :: _, _, _, _, h => by simp [OkArgs] at h
  | .sup _ :: _, _, _, _, h => by simp [OkArgs] at h
end

end Verif
