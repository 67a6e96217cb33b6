import Verif.Spec.Operators
import Verif.Props.Mtex
/-! # C73: space around operators -/

namespace Verif.Props
open Verif Verif.Spec GoFloat
variable {F : Type} [GoFloat F]

theorem rev_dropWhile_blank (s : GoString) : ∀ r : GoString, r = s.reverse →
    (∃ n, s = List.replicate n ch!" " ∧ r.dropWhile (· == 32) = []) ∨
    ∃ a b n, s = a ++ [b] ++ List.replicate n ch!" " ∧ b ≠ 32 ∧ r.dropWhile (· == 32) = b :: a.reverse := by
  intro r
  induction r generalizing s with
  | nil => intro h; left; exact ⟨0, by simpa using h.symm, rfl⟩
  | cons c r ih =>
    intro h
    have hs : s = r.reverse ++ [c] := by rw [← List.reverse_reverse s, ← h]; simp
    by_cases hc : c = 32
    · subst hc
      rw [List.dropWhile_cons_of_pos (by rfl)]
      rcases ih r.reverse (by simp) with ⟨n, h1, h2⟩ | ⟨a, b, n, h1, h2, h3⟩
      · left
        refine ⟨n + 1, ?_, h2⟩
        rw [hs, h1, List.replicate_succ']
      · right
        refine ⟨a, b, n + 1, ?_, h2, h3⟩
        rw [hs, h1, List.replicate_succ', List.append_assoc _ _ [32]]
    · right
      rw [List.dropWhile_cons_of_neg (by simpa using hc)]
      exact ⟨r.reverse, c, 0, by simpa using hs, hc, by simp⟩

/-- The test of the code is `Tight`. -/
theorem tight_iff (x : GoString) (p : Nat) (t : GoString) :
    (setHas (newSet symBinaryOperators) t && (prevChar (x.take p) == bs!"{" || setHas (newSet symLeftDelim) (prevChar (x.take p)))) = true ↔
      Tight x p t := by
  rw [has_newSet, has_newSet, Bool.and_eq_true, List.contains_iff_mem]
  refine and_congr_right fun _ => ?_
  have key : ∀ b : Nat, (([b] : GoString) == bs!"{" || symLeftDelim.contains [b]) = true ↔ b ∈ [ch!"{", ch!"(", ch!"[", ch!"<"] := by
    intro b
    simp [symLeftDelim]
    omega
  rcases rev_dropWhile_blank (x.take p) _ rfl with ⟨n, h1, h2⟩ | ⟨a, b, n, h1, h2, h3⟩
  · have : prevChar (x.take p) = [] := by unfold prevChar; rw [h2]
    rw [this]
    refine ⟨fun h => absurd h (by decide +kernel), ?_⟩
    rintro ⟨a, b, m, e, hb⟩
    exfalso
    have hm : b ∈ List.replicate n ch!" " := by rw [← h1, e]; simp
    have := List.eq_of_mem_replicate hm
    subst this
    simp at hb
  · have : prevChar (x.take p) = [b] := by unfold prevChar; rw [h3]
    rw [this, key]
    refine ⟨fun h => ⟨a, b, n, h1, h⟩, ?_⟩
    rintro ⟨a', b', m, e, hb⟩
    have hb32 : b' ≠ 32 := by rintro rfl; simp at hb
    have h4 : (x.take p).reverse.dropWhile (· == 32) = b' :: a'.reverse := by
      rw [e]
      simp only [List.reverse_append, List.reverse_replicate, List.reverse_cons, List.reverse_nil, List.nil_append]
      rw [List.dropWhile_append_of_pos (by simp)]
      rw [List.singleton_append, List.dropWhile_cons_of_neg (by simpa using hb32)]
    rw [h3] at h4
    rw [(List.cons.inj h4).1]
    exact hb

theorem insertKerns_members (be : Backend F) : ∀ (l : List (TNode F)) n, n ∈ insertKerns be l → n ∈ l ∨ ∃ k, n = .kern k := by
  intro l n hn
  induction l with
  | nil => simp [insertKerns] at hn
  | cons a l ih =>
    rw [insertKerns] at hn
    split at hn
    · rcases List.mem_cons.1 hn with rfl | hn
      · exact .inl (by simp)
      · rcases List.mem_cons.1 hn with rfl | hn
        · exact .inr ⟨_, rfl⟩
        · exact (ih hn).imp (List.mem_cons_of_mem _) id
    · rcases List.mem_cons.1 hn with rfl | hn
      · exact .inl (by simp)
      · exact (ih hn).imp (List.mem_cons_of_mem _) id

theorem handleSymbol_spaced {be : Backend F} {x : GoString} {p : Nat} {t : GoString} {st : TState F} {m : Bool} {n : TNode F}
    (ht : t ∈ spacedNames) (h : handleSymbol be x p t st m = .ok n) :
    (Tight x p t → Bare t n) ∧ (¬ Tight x p t → Spaced be st t n) := by
  have hsp : isSpaced t = true := by
    rw [isSpaced_eq]
    simpa [spacedNames, or_assoc] using ht
  unfold handleSymbol at h
  obtain ⟨ch, hc, h⟩ := Res.bind_eq_ok.1 h
  have hcc : ch.c = t := by
    unfold newChar at hc
    split at hc
    · cases hc; rfl
    · cases hc
  rw [if_pos hsp] at h
  dsimp only at h
  split at h
  · rename_i hT
    cases h
    exact ⟨fun _ => ⟨ch, rfl, hcc⟩, fun hn => absurd ((tight_iff x p t).1 hT) hn⟩
  · rename_i hT
    refine ⟨fun hn => absurd ((tight_iff x p t).2 hn) hT, fun _ => ?_⟩
    obtain ⟨k1, hk, h⟩ := Res.bind_eq_ok.1 h
    rw [hk, Res.ok_bind] at h
    unfold makeSpace at hk
    dsimp only at hk
    split at hk
    · cases hk
      cases h
      have key : ∀ q : F, Spaced be st t (hlistOf be [newKern q, .char ch, newKern q] true) ∨
          q ≠ (be.metrics bs!"m" ⟨bs!"it", bs!"it", st.font.size⟩ st.dpi true).advance * ofRat 2 10 := by
        intro q
        by_cases hq : q = (be.metrics bs!"m" ⟨bs!"it", bs!"it", st.font.size⟩ st.dpi true).advance * ofRat 2 10
        · left
          obtain ⟨hd, cs, e, hs⟩ := C42_sublist be [newKern q, .char ch, newKern q]
          refine ⟨hd, cs, ch, _, _, e, hs, ?_, hcc, hq, hq⟩
          have e' : hlistOf be [newKern q, .char ch, newKern q] true = .list .h _ (insertKerns be [newKern q, .char ch, newKern q]) := rfl
          rw [e'] at e
          cases e
          intro m hm
          rcases insertKerns_members be _ m hm with hm | hm
          · simp only [List.mem_cons, List.not_mem_nil, or_false] at hm
            rcases hm with rfl | rfl | rfl
            · exact .inr ⟨_, rfl⟩
            · exact .inl rfl
            · exact .inr ⟨_, rfl⟩
          · exact .inr hm
        · exact .inr hq
      exact (key _).resolve_right (fun h => h rfl)
    · cases hk

/-- The names of the spaced symbols have the handler of symbols. -/
theorem spaced_handler (t : GoString) (ht : t ∈ spacedNames) : handlerOf t = some .symbol := by
  have h1 : ∀ t ∈ spacedNames, (spaceWidth.lookup t).isSome = false := by decide +kernel
  have h2 : isSpaced t = true := by
    rw [isSpaced_eq]
    simpa [spacedNames, or_assoc] using ht
  unfold handlerOf
  rw [h1 t ht, h2]
  simp

/-- **C73** A binary operator, relation or arrow in math is drawn with a blank of a fifth of an em on either side,
unless it is a binary operator right after an opening brace, parenthesis or bracket (or `<`): then it is drawn
without. -/
theorem C73_symbol (be : Backend F) (num : GoString → Option F) (x : GoString) (st : TState F) (p : Nat) (t : GoString)
    (ht : t ∈ spacedNames) (l : List (TNode F)) (h : collect be num x st true (.sym p t) = .ok l) :
    ∃ n, l = [n] ∧ (Tight x p t → Bare t n) ∧ (¬ Tight x p t → Spaced be st t n) := by
  rw [collect_eq, walkN, visitN, if_pos rfl, spaced_handler t ht] at h
  obtain ⟨n, hn, h⟩ := Res.bind_eq_ok.1 h
  cases h
  exact ⟨n, rfl, handleSymbol_spaced ht hn⟩

/-- **C73** The same for symbols written as macros, in math and in text. -/
theorem C73_macro (be : Backend F) (num : GoString → Option F) (x : GoString) (st : TState F) (m : Bool) (p : Nat) (t : GoString)
    (args : List Node) (ht : t ∈ spacedNames) (l : List (TNode F)) (h : collect be num x st m (.macro (some (p, t)) args) = .ok l) :
    ∃ n, l = [n] ∧ (Tight x p t → Bare t n) ∧ (¬ Tight x p t → Spaced be st t n) := by
  rw [collect_eq, walkN, visitN, spaced_handler t ht] at h
  obtain ⟨n, hn, h⟩ := Res.bind_eq_ok.1 h
  cases h
  exact ⟨n, rfl, handleSymbol_spaced ht hn⟩

/-- **C73** Both cannot be. -/
theorem C73_exclusive (be : Backend F) (st : TState F) (t : GoString) (n : TNode F) : ¬ (Bare t n ∧ Spaced be st t n) := by
  rintro ⟨⟨c, rfl, -⟩, hd, cs, c', k1, k2, h, -⟩
  cases h

/-- **C73** At the start of a formula or of the source (with or without blanks) a binary operator is spaced, although a
comment in the code says it should not be. -/
theorem C73_start (x : GoString) (p : Nat) (t a : GoString) (n : Nat)
    (h : x.take p = List.replicate n ch!" " ∨ x.take p = a ++ [ch!"$"] ++ List.replicate n ch!" ") : ¬ Tight x p t := by
  rintro ⟨-, a', b, m, e, hb⟩
  have hb32 : b ≠ 32 := by rintro rfl; simp at hb
  have h4 : (x.take p).reverse.dropWhile (· == 32) = b :: a'.reverse := by
    rw [e]
    simp only [List.reverse_append, List.reverse_replicate, List.reverse_cons, List.reverse_nil, List.nil_append]
    rw [List.dropWhile_append_of_pos (by simp)]
    rw [List.singleton_append, List.dropWhile_cons_of_neg (by simpa using hb32)]
  rcases h with h | h
  · rw [h] at h4
    simp at h4
  · rw [h] at h4
    simp only [List.reverse_append, List.reverse_replicate, List.reverse_cons, List.reverse_nil, List.nil_append] at h4
    rw [List.dropWhile_append_of_pos (by simp), List.singleton_append, List.dropWhile_cons_of_neg (by decide)] at h4
    have := (List.cons.inj h4).1
    subst this
    simp at hb

/-- **C73** Any other symbol that can be drawn and is not a full stop or a blank is drawn alone. -/
theorem C73_ordinary (be : Backend F) (num : GoString → Option F) (x : GoString) (st : TState F) (p : Nat) (t : GoString)
    (ht : t ∉ spacedNames) (hd : t ≠ bs!".") (hb : t ∉ blankNames) (l : List (TNode F)) (h : collect be num x st true (.sym p t) = .ok l) :
    ∃ n, l = [n] ∧ Bare t n := by
  rw [collect_eq, walkN, visitN, if_pos rfl] at h
  obtain ⟨n, hn, h⟩ := Res.bind_eq_ok.1 h
  cases h
  refine ⟨n, rfl, ?_⟩
  have hs : isSpaced t = false := by
    rw [isSpaced_eq]
    simpa [spacedNames, and_assoc] using ht
  have hw : (spaceWidth.lookup t).isSome = false := by
    rw [lookup_contains, spaceWidth_names]
    simpa using hb
  have hsym : handleSymbol be x p t st true = .ok n := by
    revert hn
    cases hh : handlerOf t with
    | none => intro hn; cases hn
    | some k =>
      cases k with
      | symbol => exact id
      | space =>
        exfalso
        unfold handlerOf at hh
        rw [hw] at hh
        simp only [Bool.false_eq_true, if_false] at hh
        repeat' split at hh
        all_goals cases hh
      | _ => intro hn; cases hn
  unfold handleSymbol at hsym
  obtain ⟨ch, hc, hsym⟩ := Res.bind_eq_ok.1 hsym
  rw [hs, if_neg (by simp), if_neg hd] at hsym
  have hcc : ch.c = t := by
    unfold newChar at hc
    split at hc
    · cases hc; rfl
    · cases hc
  split at hsym
  · cases hsym
  · cases hsym
    exact ⟨ch, rfl, hcc⟩

/-! ## Concrete cases -/

example : bs!"-" ∈ spacedNames ∧ bs!"\\pm" ∈ spacedNames ∧ bs!"=" ∈ spacedNames ∧ bs!"\\rightarrow" ∈ spacedNames := by decide +kernel
/-- the minus sign of `$(-x)$` is alone, that of `$-x$` is spaced -/
example : (exNodes bs!"$(-x)$").map exKind = [0, 0, 1, 0] ∧ (exNodes bs!"$-x$").map exKind = [1, 1] := by decide +kernel
example : Tight bs!"$(-x$" 2 bs!"-" := ⟨by decide +kernel, bs!"$", ch!"(", 0, rfl, by decide⟩

end Verif.Props
