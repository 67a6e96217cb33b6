import Verif.Lemmas.Utf8
import Verif.Model.Scanner
/-! # What scanning a token consumes -/

namespace Verif

/-- `cs'` is what remains of `cs` after dropping characters satisfying `p`. -/
def Drops (p : Ch → Prop) (cs cs' : List Ch) : Prop :=
  ∃ mid, cs = mid ++ cs' ∧ ∀ c ∈ mid, p c

namespace Drops
variable {p q : Ch → Prop} {a b c : List Ch}

theorem refl : Drops p a a := ⟨[], by simp⟩

theorem trans (h : Drops p a b) (h' : Drops p b c) : Drops p a c := by
  obtain ⟨m, rfl, hm⟩ := h
  obtain ⟨m', rfl, hm'⟩ := h'
  refine ⟨m ++ m', by simp, fun x hx => ?_⟩
  rcases List.mem_append.1 hx with h | h
  · exact hm x h
  · exact hm' x h

theorem cons {x : Ch} (hx : p x) (h : Drops p a b) : Drops p (x :: a) b := by
  obtain ⟨m, rfl, hm⟩ := h
  refine ⟨x :: m, by simp, fun y hy => ?_⟩
  rcases List.mem_cons.1 hy with rfl | h
  · exact hx
  · exact hm y h

theorem mono (h : Drops p a b) (hpq : ∀ c, p c → q c) : Drops q a b := by
  obtain ⟨m, rfl, hm⟩ := h
  exact ⟨m, rfl, fun c hc => hpq c (hm c hc)⟩

theorem dropWhile (f : Ch → Bool) (hp : ∀ c, f c = true → p c) : Drops p a (a.dropWhile f) := by
  induction a with
  | nil => exact refl
  | cons x a ih =>
    rw [List.dropWhile_cons]
    split
    · rename_i h; exact cons (hp x h) ih
    · exact refl

theorem tail_of_next (f : Nat → Bool) (h : nextIs f a = true) (hp : ∀ c : Ch, f c.r = true → p c) :
    Drops p a a.tail := by
  cases a with
  | nil => exact refl
  | cons x a => exact cons (hp x h) refl

theorem tail : Drops (fun _ => True) a a.tail := by
  cases a with
  | nil => exact refl
  | cons x a => exact cons trivial refl

end Drops

/-- Characters that can occur in a number token. -/
def numChar (r : Nat) : Bool :=
  isHex r || (bs!"_xXoObBeEpP+-.").contains r

theorem numChar_of_digit {base r : Nat}
    (h : ((if base ≤ 10 then isDecimal r else isHex r) || r == ch!"_") = true) :
    numChar r = true := by
  simp only [Bool.or_eq_true, beq_iff_eq] at h
  rcases h with h | h
  · split at h
    · simp [numChar, isHex, h]
    · simp [numChar, h]
  · subst h; rfl

theorem digits_drops (base : Nat) (cs : List Ch) :
    Drops (fun c => numChar c.r = true) cs (digits base cs) :=
  Drops.dropWhile _ fun _ h => numChar_of_digit h

theorem numChar_lower {r c : Nat} (h : lowerIs r c = true)
    (hc : c = ch!"x" ∨ c = ch!"o" ∨ c = ch!"b" ∨ c = ch!"e" ∨ c = ch!"p") : numChar r = true := by
  simp only [lowerIs, Bool.or_eq_true, beq_iff_eq] at h
  have hr : r = c ∨ r = c - 32 := by omega
  rcases hc with rfl | rfl | rfl | rfl | rfl <;> rcases hr with rfl | rfl <;> rfl

theorem numPrefix_drops (cs : List Ch) (hd : nextIs isDecimal cs = true) :
    Drops (fun c => numChar c.r = true) cs (numPrefix cs).2 := by
  cases cs with
  | nil => exact Drops.refl
  | cons c cs =>
    have hc : numChar c.r = true := by
      simp only [nextIs] at hd; simp [numChar, isHex, hd]
    unfold numPrefix
    simp only
    split
    · split
      · rename_i h
        exact Drops.cons hc (Drops.tail_of_next _ h fun _ h => numChar_lower h (by simp))
      split
      · rename_i h
        exact Drops.cons hc (Drops.tail_of_next _ h fun _ h => numChar_lower h (by simp))
      split
      · rename_i h
        exact Drops.cons hc (Drops.tail_of_next _ h fun _ h => numChar_lower h (by simp))
      · exact Drops.cons hc Drops.refl
    · exact Drops.refl

theorem numExponent_drops (cs : List Ch) :
    Drops (fun c => numChar c.r = true) cs (numExponent cs).2 := by
  unfold numExponent
  split
  · rename_i h
    refine Drops.trans (Drops.tail_of_next _ h fun c h => ?_) ?_
    · simp only [Bool.or_eq_true] at h
      rcases h with h | h <;> exact numChar_lower h (by simp)
    · simp only
      refine Drops.trans (b := if nextIs (fun r => r == ch!"+" || r == ch!"-") cs.tail = true
        then cs.tail.tail else cs.tail) ?_ (digits_drops _ _)
      split
      · rename_i h
        refine Drops.tail_of_next _ h fun c h => ?_
        simp only [Bool.or_eq_true, beq_iff_eq] at h
        rcases h with h | h <;> rw [h] <;> rfl
      · exact Drops.refl
  · exact Drops.refl

theorem scanNumber_drops (cs : List Ch) (dot : Bool) (hd : nextIs isDecimal cs = true) :
    Drops (fun c => numChar c.r = true) cs (scanNumber cs dot).2 := by
  unfold scanNumber
  cases dot with
  | true =>
    simp only [if_true]
    exact Drops.trans (digits_drops _ _) (numExponent_drops _)
  | false =>
    simp only [Bool.false_eq_true, if_false]
    have h1 : Drops (fun c => numChar c.r = true) cs (digits (numPrefix cs).1 (numPrefix cs).2) :=
      Drops.trans (numPrefix_drops cs hd) (digits_drops _ _)
    split
    · rename_i h
      refine Drops.trans h1 (Drops.trans (Drops.tail_of_next _ h fun c h => ?_)
        (Drops.trans (digits_drops _ _) (numExponent_drops _)))
      simp only [beq_iff_eq] at h
      simp only [h]; rfl
    · exact Drops.trans h1 (numExponent_drops _)

theorem scanNumber_cls (cs : List Ch) (dot : Bool) :
    (scanNumber cs dot).1 = .int ∨ (scanNumber cs dot).1 = .float := by
  have key : ∀ b : Bool, (if b then RTok.float else RTok.int) = .int ∨
      (if b then RTok.float else RTok.int) = .float := by decide
  exact key _

theorem scanDigits_drops (base n : Nat) : ∀ cs, Drops (fun _ => True) cs (scanDigits base n cs) := by
  induction n with
  | zero => intro cs; exact Drops.refl
  | succ n ih =>
    intro cs
    unfold scanDigits
    split
    · exact Drops.trans Drops.tail (ih _)
    · exact Drops.refl

theorem scanEscape_drops (cs : List Ch) : Drops (fun _ => True) cs (scanEscape cs) := by
  unfold scanEscape
  split
  · exact Drops.refl
  · split
    · exact Drops.cons trivial Drops.refl
    split
    · exact scanDigits_drops _ _ _
    split
    · exact Drops.cons trivial (scanDigits_drops _ _ _)
    split
    · exact Drops.cons trivial (scanDigits_drops _ _ _)
    split
    · exact Drops.cons trivial (scanDigits_drops _ _ _)
    · exact Drops.refl

theorem scanStringN_drops (n : Nat) : ∀ cs, Drops (fun _ => True) cs (scanStringN n cs) := by
  induction n with
  | zero => intro cs; cases cs <;> exact Drops.refl
  | succ n ih =>
    intro cs
    cases cs with
    | nil => exact Drops.refl
    | cons c cs =>
      unfold scanStringN
      split
      · exact Drops.refl
      split
      · exact Drops.cons trivial (Drops.trans (scanEscape_drops _) (ih _))
      · exact Drops.cons trivial (ih _)

/-- The characters `c :: mid` form a token of class `cls`. -/
def TokBody (U : Nat → Bool) : RTok → Ch → List Ch → Prop
  | .ident, c, mid => isLetter U c.r = true ∧ ∀ d ∈ mid, isLetter U d.r = true
  | .int, c, mid => (isDecimal c.r = true ∨ c.r = ch!"." ∧ nextIs isDecimal mid = true) ∧
      ∀ d ∈ mid, numChar d.r = true
  | .float, c, mid => (isDecimal c.r = true ∨ c.r = ch!"." ∧ nextIs isDecimal mid = true) ∧
      ∀ d ∈ mid, numChar d.r = true
  | .string, c, _ => c.r = ch!"\""
  | .rune r, c, mid => r = c.r ∧ mid = [] ∧ isLetter U c.r = false ∧ isDecimal c.r = false ∧
      c.r ≠ ch!"\""
  | .eof, _, _ => False

theorem tokBody_num {U : Nat → Bool} {cls : RTok} {c : Ch} {mid : List Ch}
    (hcls : cls = .int ∨ cls = .float)
    (h1 : isDecimal c.r = true ∨ c.r = ch!"." ∧ nextIs isDecimal mid = true)
    (h2 : ∀ d ∈ mid, numChar d.r = true) : TokBody U cls c mid := by
  rcases hcls with rfl | rfl <;> exact ⟨h1, h2⟩

/-- A number token that starts with a digit consumes that digit. -/
theorem scanNumber_head (c : Ch) (cs : List Ch) (hd : isDecimal c.r = true) :
    ∃ mid, cs = mid ++ (scanNumber (c :: cs) false).2 ∧ ∀ d ∈ mid, numChar d.r = true := by
  have key : ∃ a, numPrefix (c :: cs) = a ∧ Drops (fun d => numChar d.r = true) cs (digits a.1 a.2) := by
    refine ⟨_, rfl, ?_⟩
    by_cases h0 : c.r = ch!"0"
    · have : ∃ b d, numPrefix (c :: cs) = (b, d) ∧ Drops (fun d => numChar d.r = true) cs d := by
        unfold numPrefix
        simp only [h0, if_true]
        split
        · rename_i h
          exact ⟨_, _, rfl, Drops.tail_of_next _ h fun _ h => numChar_lower h (by simp)⟩
        split
        · rename_i h
          exact ⟨_, _, rfl, Drops.tail_of_next _ h fun _ h => numChar_lower h (by simp)⟩
        split
        · rename_i h
          exact ⟨_, _, rfl, Drops.tail_of_next _ h fun _ h => numChar_lower h (by simp)⟩
        · exact ⟨_, _, rfl, Drops.refl⟩
      obtain ⟨b, d, h, hd⟩ := this
      rw [h]
      exact hd.trans (digits_drops _ _)
    · have : numPrefix (c :: cs) = (10, c :: cs) := by
        unfold numPrefix
        simp [h0]
      rw [this]
      have : digits 10 (c :: cs) = digits 10 cs := by
        simp [digits, hd]
      simp only [this]
      exact digits_drops _ _
  obtain ⟨a, ha, hdr⟩ := key
  unfold scanNumber
  simp only [Bool.false_eq_true, if_false, ha]
  split
  · rename_i h
    refine Drops.trans hdr (Drops.trans (Drops.tail_of_next _ h fun c h => ?_)
      (Drops.trans (digits_drops _ _) (numExponent_drops _)))
    simp only [beq_iff_eq] at h
    simp only [h]; rfl
  · exact Drops.trans hdr (numExponent_drops _)

/-- A fraction part consumes its first digit. -/
theorem scanNumber_dot (c : Ch) (cs : List Ch) (hd : isDecimal c.r = true) :
    ∃ mid, cs = mid ++ (scanNumber (c :: cs) true).2 ∧ ∀ d ∈ mid, numChar d.r = true := by
  unfold scanNumber
  simp only [if_true]
  have : digits 10 (c :: cs) = digits 10 cs := by simp [digits, hd]
  rw [this]
  exact Drops.trans (digits_drops _ _) (numExponent_drops _)

theorem scanRest_spec (U : Nat → Bool) (c : Ch) (cs : List Ch) :
    ∃ mid, cs = mid ++ (scanRest U c cs).2 ∧ TokBody U (scanRest U c cs).1 c mid := by
  unfold scanRest
  split
  · rename_i h
    obtain ⟨mid, h1, h2⟩ := Drops.dropWhile (p := fun d => isLetter U d.r = true) (a := cs)
      (fun d => isLetter U d.r) (fun _ h => h)
    exact ⟨mid, h1, h, h2⟩
  rename_i hl
  split
  · rename_i h
    obtain ⟨mid, h1, h2⟩ := scanNumber_head c cs h
    exact ⟨mid, h1, tokBody_num (scanNumber_cls _ _) (.inl h) h2⟩
  rename_i hdc
  split
  · rename_i h
    obtain ⟨mid, h1, h2⟩ := Drops.trans (scanStringN_drops cs.length cs) Drops.tail
    exact ⟨mid, h1, h⟩
  rename_i hq
  split
  · rename_i h
    split
    · rename_i h'
      cases cs with
      | nil => simp [nextIs] at h'
      | cons d cs =>
        obtain ⟨mid, h1, h2⟩ := scanNumber_dot d cs h'
        refine ⟨d :: mid, by simp [← h1], tokBody_num (scanNumber_cls _ _) (.inr ⟨h, h'⟩) ?_⟩
        intro x hx
        rcases List.mem_cons.1 hx with rfl | hx
        · simp only [nextIs] at h'; simp [numChar, isHex, h']
        · exact h2 x hx
    · exact ⟨[], rfl, rfl, rfl, by simpa using hl, by simpa using hdc, hq⟩
  · exact ⟨[], rfl, rfl, rfl, by simpa using hl, by simpa using hdc, hq⟩

theorem consumed_append (a b : List Ch) : consumed (a ++ b) b = a := by
  simp [consumed]

/-- What `rawScan` does: skip white space `w`, then read the token body `body`. -/
structure RawSpec (U : Nat → Bool) (ws : Nat → Bool) (s : SS) (t : RawTok) (s' : SS)
    (w body : List Ch) : Prop where
  rest : s.rest = w ++ body ++ s'.rest
  wsw : ∀ c ∈ w, ws c.r = true
  pos : t.pos = s.off + (bytesOf w).length
  text : t.text = bytesOf body
  off : s'.off = t.pos + t.text.length
  eof : body = [] → t.cls = .eof ∧ s'.rest = []
  tok : ∀ c mid, body = c :: mid → ws c.r = false ∧ TokBody U t.cls c mid

theorem rawScan_spec (U : Nat → Bool) (ws : Nat → Bool) (s : SS) :
    ∃ w body, RawSpec U ws s (rawScan U ws s).1 (rawScan U ws s).2 w body := by
  obtain ⟨w, hw, hws⟩ := Drops.dropWhile (p := fun c => ws c.r = true) (a := s.rest)
    (fun c => ws c.r) (fun _ h => h)
  have hcons : consumed s.rest (s.rest.dropWhile fun c => ws c.r) = w := by
    conv => lhs; rw [hw]; arg 2; rw [← hw]
    rw [consumed_append]
  unfold rawScan
  simp only [hcons]
  split
  · rename_i h
    rw [h] at hw
    exact ⟨w, [], by simpa using hw, hws, rfl, rfl, rfl, fun _ => ⟨rfl, rfl⟩, by simp⟩
  · rename_i c cs h
    obtain ⟨mid, hmid, htok⟩ := scanRest_spec U c cs
    have hc : consumed (c :: cs) (scanRest U c cs).2 = c :: mid := by
      conv => lhs; arg 1; rw [hmid]
      rw [← List.cons_append, consumed_append]
    refine ⟨w, c :: mid, ?_, hws, rfl, by simp [hc], rfl, by simp, ?_⟩
    · rw [hw, h, List.append_assoc, List.cons_append, ← hmid]
    · intro c' mid' he
      obtain ⟨rfl, rfl⟩ := List.cons.inj he
      refine ⟨?_, htok⟩
      have := List.head?_dropWhile_not (fun c : Ch => ws c.r) s.rest
      rw [h] at this
      simpa using this

end Verif
namespace Verif

theorem RawSpec.off' {U ws s t s' w body} (h : RawSpec U ws s t s' w body) :
    s'.off = s.off + (bytesOf (w ++ body)).length := by
  rw [h.off, h.pos, h.text]; simp; omega

/-- Comments always end, having consumed a prefix of the input. -/
theorem scanComment_ok (U : Nat → Bool) : ∀ (n : Nat) (s : SS) (acc : GoString),
    s.rest.length < n → ∃ line s' mid, scanCommentN U n s acc = .ok (line, s') ∧
      s.rest = mid ++ s'.rest ∧ s'.off = s.off + (bytesOf mid).length ∧ acc <+: line := by
  intro n
  induction n with
  | zero => intro s acc h; omega
  | succ n ih =>
    intro s acc hn
    obtain ⟨w, body, h⟩ := rawScan_spec U (fun _ => false) s
    have hoff := h.off'
    unfold scanCommentN
    simp only
    have hr := h.rest
    have hrec : ∀ acc', acc <+: acc' → (body ≠ []) → ∃ line s' mid,
        scanCommentN U n (rawScan U (fun _ => false) s).2 acc' = .ok (line, s') ∧
        s.rest = mid ++ s'.rest ∧ s'.off = s.off + (bytesOf mid).length ∧ acc <+: line := by
      intro acc' hpre hb
      have hlen : (rawScan U (fun _ => false) s).2.rest.length < n := by
        have h1 := congrArg List.length hr
        simp only [List.length_append] at h1
        have : body.length ≠ 0 := by simpa using hb
        omega
      obtain ⟨line, s', mid, h1, h2, h3, h4⟩ := ih _ acc' hlen
      refine ⟨line, s', w ++ body ++ mid, h1, by rw [hr, h2]; simp, ?_, hpre.trans h4⟩
      rw [h3, hoff]; simp; omega
    have hne : (rawScan U (fun _ => false) s).1.cls ≠ .eof → body ≠ [] :=
      fun hc hb => hc (h.eof hb).1
    split
    · rename_i hc
      exact hrec _ (List.prefix_refl _) (hne (by rw [hc]; simp))
    split
    · exact ⟨_, _, w ++ body, rfl, hr, hoff, List.prefix_refl _⟩
    · rename_i hc
      exact hrec _ (List.prefix_append _ _) (hne (fun he => hc (.inr he)))

/-- How a token relates to the characters it was read from. -/
def KindBody (U : Nat → Bool) : Kind → GoString → List Ch → Prop
  | .word, text, body => text = bytesOf body ∧ body ≠ [] ∧ ∀ d ∈ body, isLetter U d.r = true
  | .number, text, body => text = bytesOf body ∧ ∃ c mid, body = c :: mid ∧
      (isDecimal c.r = true ∨ c.r = ch!"." ∧ nextIs isDecimal mid = true) ∧
      ∀ d ∈ mid, numChar d.r = true
  | .symbol, text, body => ∃ c, body = [c] ∧ text = c.b ∧ c.r ∈ symbolChars
  | .lbrack, text, body => ∃ c, body = [c] ∧ text = c.b ∧ c.r = ch!"["
  | .rbrack, text, body => ∃ c, body = [c] ∧ text = c.b ∧ c.r = ch!"]"
  | .lbrace, text, body => ∃ c, body = [c] ∧ text = c.b ∧ c.r = ch!"{"
  | .rbrace, text, body => ∃ c, body = [c] ∧ text = c.b ∧ c.r = ch!"}"
  | .lparen, text, body => ∃ c, body = [c] ∧ text = c.b ∧ c.r = ch!"("
  | .rparen, text, body => ∃ c, body = [c] ∧ text = c.b ∧ c.r = ch!")"
  | .space, text, body =>
      (text = bs!" " ∧ ∃ c, body = [c] ∧ c.r = ch!" ") ∨
      (text = bs!"\\ " ∧ ∃ c d, body = [c, d] ∧ c.r = ch!"\\" ∧ d.r = ch!" ")
  | .macro, text, body => ∃ c w nm, body = c :: (w ++ nm) ∧ c.r = ch!"\\" ∧
      (∀ d ∈ w, isWs d.r = true) ∧ text = ch!"\\" :: bytesOf nm ∧
      ∀ d, (w ++ nm).head? = some d → d.r ≠ ch!" "
  | .comment, text, body => ∃ c mid, body = c :: mid ∧ c.r = ch!"%" ∧ bs!"%" <+: text
  | .other, text, body => text = bytesOf body ∧ ∃ c mid, body = c :: mid ∧ c.r = ch!"\""
  | .eof, text, body => body = [] ∧ text = []
  | _, _, _ => False

/-- What a successful `scan` does. -/
structure ScanSpec (U : Nat → Bool) (s : SS) (t : Token) (s' : SS) (w body : List Ch) : Prop where
  rest : s.rest = w ++ body ++ s'.rest
  wsw : ∀ c ∈ w, isWs c.r = true
  pos : t.pos = s.off + (bytesOf w).length
  off : s'.off = t.pos + (bytesOf body).length
  shape : KindBody U t.kind t.text body
  eof : t.kind = .eof → s'.rest = []

theorem kindBody_rune {U : Nat → Bool} {s : SS} {t : RawTok} {s' : SS} {w body : List Ch} {r : Nat}
    (h : RawSpec U isWs s t s' w body) (hr : t.cls = .rune r) :
    ∃ c, body = [c] ∧ c.r = r ∧ t.text = c.b := by
  cases body with
  | nil => have := (h.eof rfl).1; rw [hr] at this; simp at this
  | cons c mid =>
    have := (h.tok c mid rfl).2
    rw [hr] at this
    obtain ⟨h1, rfl, _⟩ := this
    exact ⟨c, rfl, h1.symm, by rw [h.text]; simp⟩

theorem scan_spec {U : Nat → Bool} {s : SS} {t : Token} {s' : SS} (h : scan U s = .ok (t, s')) :
    ∃ w body, ScanSpec U s t s' w body := by
  obtain ⟨w, body, hs⟩ := rawScan_spec U isWs s
  have hoff := hs.off'
  unfold scan at h
  simp only at h
  generalize hrs : rawScan U isWs s = R at h hs hoff
  obtain ⟨rt, s1⟩ := R
  simp only at h hs hoff
  have hpos := hs.pos
  have hoff1 : s1.off = rt.pos + (bytesOf body).length := by rw [hs.off, hs.text]
  have simple : ∀ r, rt.cls = .rune r → ∃ c, body = [c] ∧ rt.text = c.b ∧ c.r = r := by
    intro r hr
    obtain ⟨c, h1, h2, h3⟩ := kindBody_rune hs hr
    exact ⟨c, h1, h3, h2⟩
  split at h
  · -- ident
    rename_i hc
    simp only [Res.ok.injEq, Prod.mk.injEq] at h
    obtain ⟨rfl, rfl⟩ := h
    refine ⟨w, body, hs.rest, hs.wsw, hpos, hoff1, ?_, by simp⟩
    cases body with
    | nil => have := (hs.eof rfl).1; rw [hc] at this; simp at this
    | cons c mid =>
      have := (hs.tok c mid rfl).2
      rw [hc] at this
      refine ⟨hs.text, by simp, fun d hd => ?_⟩
      rcases List.mem_cons.1 hd with rfl | hd
      · exact this.1
      · exact this.2 d hd
  · -- rune
    rename_i r hc
    obtain ⟨c, hb, htext, hcr⟩ := simple r hc
    subst hb
    split at h
    · rename_i hr
      obtain ⟨w2, body2, hs2⟩ := rawScan_spec U isWs s1
      generalize rawScan U isWs s1 = R2 at h hs2
      obtain ⟨rt2, s2⟩ := R2
      simp only at h hs2
      have hoff2 := hs2.off'
      split at h
      · rename_i hpk
        simp only [Res.ok.injEq, Prod.mk.injEq] at h
        obtain ⟨rfl, rfl⟩ := h
        -- the next character is a blank, read as a one-character token
        have hr2 := hs2.rest
        unfold SS.peek at hpk
        have hw2 : w2 = [] := by
          cases w2 with
          | nil => rfl
          | cons d w2 =>
            rw [hr2] at hpk
            simp at hpk
            have := hs2.wsw d (by simp)
            rw [hpk] at this; simp [isWs] at this
        subst hw2
        cases body2 with
        | nil =>
          have := (hs2.eof rfl).2
          rw [hr2, this] at hpk
          simp at hpk
        | cons d mid2 =>
          rw [hr2] at hpk
          simp at hpk
          have htok := (hs2.tok d mid2 rfl).2
          have hm2 : mid2 = [] := by
            unfold TokBody at htok
            have hl : isLetter U d.r = false := by rw [hpk]; rfl
            have hd : isDecimal d.r = false := by rw [hpk]; rfl
            split at htok <;> simp_all
          subst hm2
          refine ⟨w, [c, d], ?_, hs.wsw, hpos, ?_, ?_, by simp⟩
          · rw [hs.rest, hr2]; simp
          · rw [hoff2, hoff1]; simp; omega
          · exact .inr ⟨rfl, c, d, rfl, by rw [hcr, hr], hpk⟩
      · rename_i hpk
        simp only [Res.ok.injEq, Prod.mk.injEq] at h
        obtain ⟨rfl, rfl⟩ := h
        refine ⟨w, c :: (w2 ++ body2), ?_, hs.wsw, hpos, ?_, ?_, by simp⟩
        · rw [hs.rest, hs2.rest]; simp
        · rw [hoff2, hoff1]; simp; omega
        · refine ⟨c, w2, body2, rfl, by rw [hcr, hr], hs2.wsw, by rw [hs2.text]; rfl, ?_⟩
          intro d hd hdr
          apply hpk
          unfold SS.peek
          rw [hs2.rest, List.head?_append, hd]
          simp [hdr]
    rename_i hr1
    split at h
    · rename_i hr
      simp only [Res.ok.injEq, Prod.mk.injEq] at h
      obtain ⟨rfl, rfl⟩ := h
      exact ⟨w, [c], hs.rest, hs.wsw, hpos, hoff1, .inl ⟨rfl, c, rfl, by rw [hcr, hr]⟩, by simp⟩
    split at h
    · rename_i hr
      obtain ⟨line, s2, mid, h1, h2, h3, h4⟩ :=
        scanComment_ok U (s1.rest.length + 1) s1 bs!"%" (by omega)
      rw [h1] at h
      simp only [Res.ok.injEq, Prod.mk.injEq] at h
      obtain ⟨rfl, rfl⟩ := h
      refine ⟨w, c :: mid, ?_, hs.wsw, hpos, ?_, ⟨c, mid, rfl, by rw [hcr, hr], h4⟩, by simp⟩
      · rw [hs.rest, h2]; simp
      · rw [h3, hoff1]; simp; omega
    split at h
    · rename_i hr
      simp only [Res.ok.injEq, Prod.mk.injEq] at h
      obtain ⟨rfl, rfl⟩ := h
      exact ⟨w, [c], hs.rest, hs.wsw, hpos, hoff1, ⟨c, rfl, htext, by rw [hcr]; simpa using hr⟩,
        by simp⟩
    iterate 6
      split at h
      · rename_i hr
        simp only [Res.ok.injEq, Prod.mk.injEq] at h
        obtain ⟨rfl, rfl⟩ := h
        exact ⟨w, [c], hs.rest, hs.wsw, hpos, hoff1, ⟨c, rfl, htext, by rw [hcr, hr]⟩, by simp⟩
    simp at h
  · -- int
    rename_i hc
    simp only [Res.ok.injEq, Prod.mk.injEq] at h
    obtain ⟨rfl, rfl⟩ := h
    refine ⟨w, body, hs.rest, hs.wsw, hpos, hoff1, ?_, by simp⟩
    cases body with
    | nil => have := (hs.eof rfl).1; rw [hc] at this; simp at this
    | cons c mid =>
      have := (hs.tok c mid rfl).2
      rw [hc] at this
      exact ⟨hs.text, c, mid, rfl, this.1, this.2⟩
  · -- float
    rename_i hc
    simp only [Res.ok.injEq, Prod.mk.injEq] at h
    obtain ⟨rfl, rfl⟩ := h
    refine ⟨w, body, hs.rest, hs.wsw, hpos, hoff1, ?_, by simp⟩
    cases body with
    | nil => have := (hs.eof rfl).1; rw [hc] at this; simp at this
    | cons c mid =>
      have := (hs.tok c mid rfl).2
      rw [hc] at this
      exact ⟨hs.text, c, mid, rfl, this.1, this.2⟩
  · -- string
    rename_i hc
    simp only [Res.ok.injEq, Prod.mk.injEq] at h
    obtain ⟨rfl, rfl⟩ := h
    refine ⟨w, body, hs.rest, hs.wsw, hpos, hoff1, ?_, by simp⟩
    cases body with
    | nil => have := (hs.eof rfl).1; rw [hc] at this; simp at this
    | cons c mid =>
      have := (hs.tok c mid rfl).2
      rw [hc] at this
      exact ⟨hs.text, c, mid, rfl, this⟩
  · -- eof
    rename_i hc
    simp only [Res.ok.injEq, Prod.mk.injEq] at h
    obtain ⟨rfl, rfl⟩ := h
    have hb : body = [] := by
      cases body with
      | nil => rfl
      | cons c mid =>
        have := (hs.tok c mid rfl).2
        rw [hc] at this
        exact this.elim
    exact ⟨w, body, hs.rest, hs.wsw, hpos, hoff1, ⟨hb, rfl⟩, fun _ => (hs.eof hb).2⟩

/-- `scan` never runs out of fuel. -/
theorem scan_ne_fuel (U : Nat → Bool) (s : SS) : scan U s ≠ .fuel := by
  unfold scan
  simp only
  split
  · simp
  · split
    · split <;> simp
    split
    · simp
    split
    · obtain ⟨line, s2, mid, h1, h2, h3, h4⟩ :=
        scanComment_ok U ((rawScan U isWs s).2.rest.length + 1) (rawScan U isWs s).2 bs!"%" (by omega)
      rw [h1]
      simp
    iterate 7
      split
      · simp
    simp
  all_goals simp

/-- Reading a token that is not EOF consumes at least one character. -/
theorem ScanSpec.body_ne {U s t s' w body} (h : ScanSpec U s t s' w body) (ht : t.kind ≠ .eof) :
    body ≠ [] := by
  intro hb
  have := h.shape
  subst hb
  unfold KindBody at this
  split at this <;> simp_all

theorem scan_lt {U : Nat → Bool} {s : SS} {t : Token} {s' : SS} (h : scan U s = .ok (t, s'))
    (ht : t.kind ≠ .eof) : s'.rest.length < s.rest.length := by
  obtain ⟨w, body, hs⟩ := scan_spec h
  have h1 := congrArg List.length hs.rest
  have : body.length ≠ 0 := by simpa using hs.body_ne ht
  simp only [List.length_append] at h1
  omega

theorem scan_le {U : Nat → Bool} {s : SS} {t : Token} {s' : SS} (h : scan U s = .ok (t, s')) :
    s'.rest.length ≤ s.rest.length := by
  obtain ⟨w, body, hs⟩ := scan_spec h
  have h1 := congrArg List.length hs.rest
  simp only [List.length_append] at h1
  omega

/-- At the end of the input `scan` reports EOF. -/
theorem scan_nil (U : Nat → Bool) (off : Nat) :
    scan U ⟨[], off⟩ = .ok (⟨.eof, off, []⟩, ⟨[], off⟩) := by
  simp [scan, rawScan, consumed]

end Verif
