import Verif.Lemmas.Shift
/-! # Skipping line breaks and comments -/

namespace Verif
open Spec

variable {U : Nat → Bool}

theorem consumed_ws (w cs r : List Ch) (h : r.length ≤ cs.length) :
    consumed (w ++ cs) r = w ++ consumed cs r := by
  unfold consumed
  rw [List.length_append, Nat.add_sub_assoc h, List.take_length_add_append]

theorem rawScan_ws {w cs : List Ch} {o : Nat} (hw : ∀ c ∈ w, isWs c.r = true) :
    rawScan U isWs ⟨w ++ cs, o⟩ = rawScan U isWs ⟨cs, o + (bytesOf w).length⟩ := by
  unfold rawScan
  have h1 : (w ++ cs).dropWhile (fun c => isWs c.r) = cs.dropWhile (fun c => isWs c.r) := by
    rw [List.dropWhile_append]
    have : w.dropWhile (fun c => isWs c.r) = [] := by
      induction w with
      | nil => rfl
      | cons c w ih =>
        rw [List.dropWhile_cons, if_pos (hw c (by simp))]
        exact ih fun d hd => hw d (by simp [hd])
    rw [this]; rfl
  have h2 : (cs.dropWhile (fun c => isWs c.r)).length ≤ cs.length := (List.dropWhile_sublist _).length_le
  simp only [h1]
  rw [consumed_ws w cs _ h2, bytesOf_append, List.length_append, ← Nat.add_assoc]

theorem scan_ws {w cs : List Ch} {o : Nat} (hw : ∀ c ∈ w, isWs c.r = true) :
    scan U ⟨w ++ cs, o⟩ = scan U ⟨cs, o + (bytesOf w).length⟩ := by
  unfold scan
  rw [rawScan_ws hw]

/-- Comment text up to a character that cannot be part of a word or number. -/
theorem comment_run {q : Ch} {rest : List Ch} (hq1 : isLetter U q.r = false) (hq2 : numChar q.r = false) :
    ∀ (N : Nat) (bc : List Ch) (o : Nat) (acc : GoString), bc.length ≤ N →
      (∀ c ∈ bc, c.r ≠ 10 ∧ c.r ≠ 34) →
      ∃ k acc', k ≤ bc.length ∧ ∀ n, scanCommentN U (n + k) ⟨bc ++ q :: rest, o⟩ acc =
        scanCommentN U n ⟨q :: rest, o + (bytesOf bc).length⟩ acc' := by
  intro N
  induction N with
  | zero =>
    intro bc o acc hN _
    have : bc = [] := by simpa using hN
    subst this
    exact ⟨0, acc, by simp, by simp⟩
  | succ N ih =>
    intro bc o acc hN hbc
    cases bc with
    | nil => exact ⟨0, acc, by simp, by simp⟩
    | cons c bc =>
      obtain ⟨w, body, h⟩ := rawScan_spec U (fun _ => false) ⟨c :: bc ++ q :: rest, o⟩
      have hw : w = [] := by
        cases w with
        | nil => rfl
        | cons d w => have := h.wsw d (by simp); simp at this
      subst hw
      have hr := h.rest
      simp only [List.nil_append] at hr
      have hoff := h.off'
      cases body with
      | nil =>
        have := (h.eof rfl).2
        rw [this] at hr; simp at hr
      | cons c' mid =>
        obtain ⟨rfl, hr⟩ : c = c' ∧ bc ++ q :: rest = mid ++ (rawScan U (fun _ => false)
            ⟨c :: bc ++ q :: rest, o⟩).2.rest := by simpa using hr
        obtain ⟨_, htok⟩ := h.tok c mid rfl
        have hc := hbc c (by simp)
        -- the token stops before `q`
        have hmid : ∀ d ∈ mid, d ≠ q := by
          intro d hd he
          subst he
          cases hcl : (rawScan U (fun _ => false) ⟨c :: bc ++ d :: rest, o⟩).1.cls with
          | ident => rw [hcl] at htok; have := htok.2 d hd; simp [hq1] at this
          | int => rw [hcl] at htok; have := htok.2 d hd; simp [hq2] at this
          | float => rw [hcl] at htok; have := htok.2 d hd; simp [hq2] at this
          | string => rw [hcl] at htok; exact hc.2 htok
          | rune r => rw [hcl] at htok; rw [htok.2.1] at hd; simp at hd
          | eof => rw [hcl] at htok; exact htok
        obtain ⟨bc', hb1, hb2⟩ : ∃ bc', bc = mid ++ bc' ∧
            (rawScan U (fun _ => false) ⟨c :: bc ++ q :: rest, o⟩).2.rest = bc' ++ q :: rest := by
          rcases List.append_eq_append_iff.1 hr with ⟨as, h1, h2⟩ | ⟨bs, h1, h2⟩
          · cases as with
            | nil => exact ⟨[], by simpa using (List.cons.inj h1).2.symm, by simpa using h2.symm⟩
            | cons d as =>
              simp only [List.cons_append, List.cons.injEq] at h2
              exact absurd h2.1.symm (hmid d (by rw [(List.cons.inj h1).2]; simp))
          · exact ⟨bs, (List.cons.inj h1).2, h2⟩
        have hst : (rawScan U (fun _ => false) ⟨c :: bc ++ q :: rest, o⟩).2 =
            ⟨bc' ++ q :: rest, o + (bytesOf (c :: mid)).length⟩ := by
          have e : ∀ s : SS, s = ⟨s.rest, s.off⟩ := fun _ => rfl
          rw [e (rawScan U (fun _ => false) ⟨c :: bc ++ q :: rest, o⟩).2, hb2, hoff]
          simp
        have hlen : bc'.length ≤ N := by
          rw [hb1] at hN; simp at hN; omega
        have hcls10 : ¬ ((rawScan U (fun _ => false) ⟨c :: bc ++ q :: rest, o⟩).1.cls = .rune 10 ∨
            (rawScan U (fun _ => false) ⟨c :: bc ++ q :: rest, o⟩).1.cls = .eof) := by
          rintro (hcl | hcl) <;> rw [hcl] at htok
          · exact hc.1 htok.1.symm
          · exact htok
        have hfree : ∀ d ∈ bc', d.r ≠ 10 ∧ d.r ≠ 34 := by
          intro d hd; exact hbc d (by rw [hb1]; simp [hd])
        have hsum : ∀ z, z + (bytesOf (c :: mid)).length + (bytesOf bc').length =
            z + (bytesOf (c :: bc)).length := by
          intro z; rw [hb1]; simp only [bytesOf_cons, bytesOf_append, List.length_append]; omega
        obtain ⟨k, acc', hk, hrun⟩ := ih bc' (o + (bytesOf (c :: mid)).length)
          (if (rawScan U (fun _ => false) ⟨c :: bc ++ q :: rest, o⟩).1.cls = .rune 13 then acc else
            acc ++ (rawScan U (fun _ => false) ⟨c :: bc ++ q :: rest, o⟩).1.text) hlen hfree
        refine ⟨k + 1, acc', by rw [hb1]; simp; omega, fun n => ?_⟩
        rw [← Nat.add_assoc]
        conv => lhs; unfold scanCommentN
        simp only
        rw [hst, if_neg hcls10]
        rw [hsum] at hrun
        rw [← hrun n]
        split
        · rfl
        · rfl

theorem rawScan_char {ws : Nat → Bool} {c : Ch} {cs : List Ch} {o : Nat} (h0 : ws c.r = false)
    (h1 : isLetter U c.r = false) (h2 : isDecimal c.r = false) (h3 : c.r ≠ 34) (h4 : c.r ≠ 46) :
    rawScan U ws ⟨c :: cs, o⟩ = (⟨.rune c.r, o, c.b⟩, ⟨cs, o + c.b.length⟩) := by
  have hl : cs.length + 1 - cs.length = 1 := by omega
  simp [rawScan, scanRest, h0, h1, h2, h3, h4, consumed, hl]

/-- The end of a comment line. -/
theorem comment_end {n : Nat} {rest : List Ch} {o : Nat} {acc : GoString} :
    scanCommentN U (n + 1) ⟨⟨10, [10]⟩ :: rest, o⟩ acc = .ok (acc, ⟨rest, o + 1⟩) := by
  unfold scanCommentN
  rw [rawScan_char rfl rfl rfl (by decide) (by decide)]
  simp

theorem scanString_run : ∀ (b : List Ch) (n : Nat) (rest : List Ch), b.length < n →
    (∀ c ∈ b, c.r ≠ 10 ∧ c.r ≠ 34 ∧ c.r ≠ 92) →
    scanStringN n (b ++ ⟨10, [10]⟩ :: rest) = ⟨10, [10]⟩ :: rest
  | [], n, rest, hn, _ => by
    cases n with
    | zero => simp at hn
    | succ n => simp [scanStringN]
  | c :: b, n, rest, hn, h => by
    cases n with
    | zero => simp at hn
    | succ n =>
      have hc := h c (by simp)
      simp only [List.cons_append, scanStringN]
      rw [if_neg (by simp [hc.1, hc.2.1]), if_neg hc.2.2]
      exact scanString_run b n rest (by simp at hn; omega) fun d hd => h d (by simp [hd])

/-- An unterminated string literal inside a comment swallows the end of the line. -/
theorem comment_string {n : Nat} {b rest : List Ch} {o : Nat} {acc : GoString}
    (hb : ∀ c ∈ b, c.r ≠ 10 ∧ c.r ≠ 34 ∧ c.r ≠ 92) :
    ∃ acc', scanCommentN U (n + 1) ⟨⟨34, [34]⟩ :: (b ++ ⟨10, [10]⟩ :: rest), o⟩ acc =
      scanCommentN U n ⟨rest, o + ((bytesOf b).length + 2)⟩ acc' := by
  have hr : rawScan U (fun _ => false) ⟨⟨34, [34]⟩ :: (b ++ ⟨10, [10]⟩ :: rest), o⟩ =
      (⟨.string, o, 34 :: (bytesOf b ++ [10])⟩, ⟨rest, o + ((bytesOf b).length + 2)⟩) := by
    have e1 : isLetter U 34 = false := rfl
    have e2 : isDecimal 34 = false := rfl
    have e3 := scanString_run b (b.length + (rest.length + 1)) rest (by omega) hb
    have e4 : consumed (⟨34, [34]⟩ :: (b ++ ⟨10, [10]⟩ :: rest)) rest = ⟨34, [34]⟩ :: (b ++ [⟨10, [10]⟩]) := by
      rw [show (⟨34, [34]⟩ : Ch) :: (b ++ ⟨10, [10]⟩ :: rest) = (⟨34, [34]⟩ :: (b ++ [⟨10, [10]⟩])) ++ rest by simp,
        consumed_append]
    have e5 : consumed (⟨34, [34]⟩ :: (b ++ ⟨10, [10]⟩ :: rest)) (⟨34, [34]⟩ :: (b ++ ⟨10, [10]⟩ :: rest)) = [] := by
      simp [consumed]
    simp only [rawScan, List.dropWhile_cons, scanRest, e1, e2, e3, e4, e5, List.length_append, List.length_cons,
      Bool.false_eq_true, if_false, if_true, List.tail_cons]
    simp
  refine ⟨acc ++ 34 :: (bytesOf b ++ [10]), ?_⟩
  conv => lhs; unfold scanCommentN
  rw [hr]
  simp only
  rw [if_neg (by simp), if_neg (by simp)]

/-- A comment token, given how its text is scanned. -/
theorem scan_comment {cs rest : List Ch} {o o' : Nat} {line : GoString}
    (h : scanCommentN U (cs.length + 1) ⟨cs, o + 1⟩ bs!"%" = .ok (line, ⟨rest, o'⟩)) :
    scan U ⟨⟨37, [37]⟩ :: cs, o⟩ = .ok (⟨.comment, o, line⟩, ⟨rest, o'⟩) := by
  unfold scan
  rw [rawScan_char rfl rfl rfl (by decide) (by decide)]
  simp [h]

/-- A loop skips a comment. -/
theorem loop_comment {n : Nat} {m : Mode} {s s' : SS} {o : Nat} {line : GoString}
    (h : scan U s = .ok (⟨.comment, o, line⟩, s')) :
    parseLoop U (n + 2) m (fun _ => false) s = parseLoop U (n + 1) m (fun _ => false) s' := by
  conv => lhs; unfold parseLoop
  rw [h]
  simp only [Res.ok_bind, parseNode, Node.isNil, if_true, Bool.false_eq_true, if_false, reduceCtorEq]
  cases parseLoop U (n + 1) m (fun _ => false) s' <;> rfl

end Verif
