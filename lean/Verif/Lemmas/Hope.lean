import Verif.Lemmas.Final
import Mathlib.Tactic.Common
/-! # A source can be completed, or it is hopeless -/

namespace Verif
open Spec
variable {U : Nat → Bool}

/-! ## Lexemes that go on -/

/-- `L2` are the lexemes `L`, with another last one as `C` says, and lexemes as `B` says after them. -/
inductive Onward (C : Lexed → Lexed → Prop) (B : List Lexed → Prop) : List Lexed → List Lexed → Prop where
  | nil {Y} : B Y → Onward C B [] Y
  | last {x x' Y} : C x x' → B Y → Onward C B [x] (x' :: Y)
  | cons {x L L2} : L ≠ [] → Onward C B L L2 → Onward C B (x :: L) (x :: L2)

/-- The lexeme may be another one if more is written on the next line. -/
def Loose (x : Lexed) : Prop :=
  x.lex = .comment ∨ x.lex = .quoted ∨ x.lex = .name bs!"\\" ∨ ∃ u, x.lex = .name (bs!"\\\"" ++ u)

/-- Only such a lexeme changes, and does not become a mark, nor a character that begins no lexeme. -/
def TameLex (C : Lexed → Lexed → Prop) : Prop :=
  ∀ x x', C x x' → x' = x ∨ (Loose x ∧ (∀ c, x'.lex ≠ .mark c) ∧ ∀ c, x'.lex ≠ .wrong c)

section
variable {C : Lexed → Lexed → Prop} {B : List Lexed → Prop}

theorem onw_cons {x : Lexed} {L L2 : List Lexed} (h : Onward C B (x :: L) L2) :
    ∃ x' L', L2 = x' :: L' ∧ Onward C B L L' ∧ ((L ≠ [] ∧ x' = x) ∨ (L = [] ∧ C x x')) := by
  cases h with
  | last h hb => exact ⟨_, _, rfl, .nil hb, .inr ⟨rfl, h⟩⟩
  | cons hL h => exact ⟨_, _, rfl, h, .inl ⟨hL, rfl⟩⟩

theorem onw_tame (hC : TameLex C) {x : Lexed} {L L2 : List Lexed} (h : Onward C B (x :: L) L2) :
    ∃ x' L', L2 = x' :: L' ∧ Onward C B L L' ∧ (x' = x ∨ (Loose x ∧ (∀ c, x'.lex ≠ .mark c) ∧ ∀ c, x'.lex ≠ .wrong c)) := by
  obtain ⟨x', L', rfl, h1, ⟨-, h2⟩ | ⟨-, h2⟩⟩ := onw_cons h
  · exact ⟨_, _, rfl, h1, .inl h2⟩
  · exact ⟨_, _, rfl, h1, hC _ _ h2⟩

theorem onw_same (hC : TameLex C) {x : Lexed} {L L2 : List Lexed} (h : Onward C B (x :: L) L2) (hx : ¬ Loose x) :
    ∃ L', L2 = x :: L' ∧ Onward C B L L' := by
  obtain ⟨x', L', rfl, h1, rfl | ⟨h2, -⟩⟩ := onw_tame hC h
  · exact ⟨_, rfl, h1⟩
  · exact absurd h2 hx

theorem mark_not_loose {c o e : Nat} : ¬ Loose ⟨.mark c, o, e⟩ := by
  rintro (h | h | h | ⟨u, h⟩) <;> cases h
theorem wrong_not_loose {c o e : Nat} : ¬ Loose ⟨.wrong c, o, e⟩ := by
  rintro (h | h | h | ⟨u, h⟩) <;> cases h
theorem odd_not_known {u : GoString} : ¬ Known (bs!"\\\"" ++ u) := by
  rintro ⟨-, h | ⟨k, h1, h2⟩⟩
  · have : latexMacros.all (fun p => p.1.tail.head? != some 34) = true := by krfl
    rw [List.all_eq_true] at this
    obtain ⟨p, hp, e⟩ := List.mem_map.1 h
    have := this p hp
    rw [e] at this
    cases this
  · have : tex2uni.all (fun p => p.1.head? != some 34) = true := by krfl
    rw [List.all_eq_true] at this
    obtain ⟨p, hp, e⟩ := List.mem_map.1 h2
    have := this p hp
    have h1 : 34 :: u = k := by injection h1
    rw [e, ← h1] at this
    cases this
theorem bare_not_known : ¬ Known bs!"\\" := by
  rintro ⟨-, h | ⟨k, h1, h2⟩⟩
  · have : latexMacros.all (fun p => p.1 != bs!"\\") = true := by krfl
    rw [List.all_eq_true] at this
    obtain ⟨p, hp, e⟩ := List.mem_map.1 h
    have := this p hp
    rw [e] at this
    cases this
  · have : tex2uni.all (fun p => p.1 != []) = true := by krfl
    rw [List.all_eq_true] at this
    obtain ⟨p, hp, e⟩ := List.mem_map.1 h2
    have := this p hp
    have h1 : [] = k := by injection h1
    rw [e, ← h1] at this
    cases this
theorem known_not_loose {t : GoString} {o e : Nat} (h : Known t) : ¬ Loose ⟨.name t, o, e⟩ := by
  rintro (h' | h' | h' | ⟨u, h'⟩)
  · cases h'
  · cases h'
  · cases h'; exact bare_not_known h
  · cases h'; exact odd_not_known h

theorem onw_next {x : Lexed} {L L2 : List Lexed} (h : Onward C B (x :: L) L2) (hL : L ≠ []) : ∃ L', L2 = x :: L' ∧ Onward C B L L' := by
  obtain ⟨x', L', rfl, h1, ⟨-, rfl⟩ | ⟨h2, -⟩⟩ := onw_cons h
  · exact ⟨_, rfl, h1⟩
  · exact absurd h2 hL

theorem onw_append {D L L2 : List Lexed} (h : Onward C B (D ++ L) L2) (hL : L ≠ []) : ∃ L', L2 = D ++ L' ∧ Onward C B L L' := by
  induction D generalizing L2 with
  | nil => exact ⟨L2, rfl, h⟩
  | cons x D ih =>
    obtain ⟨L', rfl, h'⟩ := onw_next h (by simp [hL])
    obtain ⟨L'', rfl, h''⟩ := ih h'
    exact ⟨L'', rfl, h''⟩

theorem item1_onw {m x L n L1 L2} (h : Item1 m (x :: L) n L1) (hL : L1 ≠ []) (hg : Onward C B (x :: L) L2) :
    ∃ L' L1', L2 = x :: L' ∧ Item1 m (x :: L') n L1' ∧ Onward C B L1 L1' := by
  obtain ⟨D, hD, e⟩ := item1_suffix h
  obtain ⟨d, D, rfl⟩ := List.exists_cons_of_ne_nil hD
  rw [e] at hg
  obtain ⟨L1', rfl, hg'⟩ := onw_append hg hL
  have := item1_after h (D := d :: D) (C := []) hL e rfl L1'
  rw [List.cons_append] at e
  injection e with e1 e2
  subst e1
  exact ⟨D ++ L1', L1', rfl, this, hg'⟩

theorem items_onw {m u L l q L1 L2} (h : Items m u L l q L1) (hL : L1 ≠ []) (hg : Onward C B L L2) :
    ∃ L1', Items m u L2 l q L1' ∧ Onward C B L1 L1' := by
  obtain ⟨D, e⟩ := items_suffix h
  rw [e] at hg
  obtain ⟨L1', rfl, hg'⟩ := onw_append hg hL
  exact ⟨L1', items_after h (D := D) (C := []) hL e rfl L1', hg'⟩
end

/-! ## What can be completed -/

/-- How a last lexeme changes when the source is completed. -/
def KeptLex (x x' : Lexed) : Prop :=
  (x' = x ∧ x.lex ≠ .name bs!"\\") ∨ (x.lex = .comment ∧ x'.lex = .comment) ∨ (x.lex = .quoted ∧ x'.lex = .quoted) ∨
    (x.lex = .name bs!"\\" ∧ x'.lex = .name bs!"\\alpha")

theorem kept_tame : TameLex KeptLex := by
  rintro x x' (⟨h, -⟩ | ⟨h, h'⟩ | ⟨h, h'⟩ | ⟨h, h'⟩)
  · exact .inl h
  · exact .inr ⟨.inl h, by rw [h']; exact ⟨nofun, nofun⟩⟩
  · exact .inr ⟨.inr (.inl h), by rw [h']; exact ⟨nofun, nofun⟩⟩
  · exact .inr ⟨.inr (.inr (.inl h)), by rw [h']; exact ⟨nofun, nofun⟩⟩

/-- The lexemes a source is completed with. -/
def closers : List Lex := [.word bs!"x", .mark ch!"{", .mark ch!"}", .mark ch!"]", .mark ch!"$"]

/-- There are lexemes such that with them `Q` holds. -/
def Comp (Q : List Lexed → List Lexed → Prop) (L : List Lexed) : Prop :=
  ∃ ks : List Lex, (∀ k ∈ ks, k ∈ closers) ∧ ∀ Y R L2, Y.map (·.lex) = ks → Onward KeptLex (· = Y ++ R) L L2 → Q L2 R

def Comp1 (m : Bool) : List Lexed → Prop := Comp fun L R => ∃ n, Item1 m L n R
def CompIn (m : Bool) (u : Until) : List Lexed → Prop := Comp fun L R => (u = .eof → R = []) → ∃ l q, Items m u L l q R
def CompArgs (m : Bool) (n : Nat) : List Lexed → Prop := Comp fun L R => ∃ l, Args m n L l R

theorem comp_map {Q Q' : List Lexed → List Lexed → Prop} {L L' : List Lexed} (h : Comp Q L)
    (hq : ∀ B L2, Onward KeptLex B L' L2 → ∃ L3, Onward KeptLex B L L3 ∧ ∀ R, Q L3 R → Q' L2 R) : Comp Q' L' := by
  obtain ⟨ks, h1, h2⟩ := h
  refine ⟨ks, h1, fun Y R L2 hY hg => ?_⟩
  obtain ⟨L3, h3, h4⟩ := hq _ _ hg
  exact h4 R (h2 Y R L3 hY h3)

/-- And then more lexemes. -/
theorem comp_more {Q Q' : List Lexed → List Lexed → Prop} {L L' : List Lexed} (h : Comp Q L) (ks' : List Lex) (hk : ∀ k ∈ ks', k ∈ closers)
    (hq : ∀ B L2, Onward KeptLex B L' L2 → ∃ L3, Onward KeptLex B L L3 ∧ ∀ Y R, Y.map (·.lex) = ks' → Q L3 (Y ++ R) → Q' L2 R) : Comp Q' L' := by
  obtain ⟨ks, h1, h2⟩ := h
  refine ⟨ks ++ ks', fun k hk' => (List.mem_append.1 hk').elim (h1 k) (hk k), fun Y R L2 hY hg => ?_⟩
  obtain ⟨Y1, Y2, rfl, e1, e2⟩ := List.map_eq_append_iff.1 hY
  obtain ⟨L3, h3, h4⟩ := hq _ _ hg
  rw [List.append_assoc] at h3
  exact h4 Y2 R e2 (h2 Y1 (Y2 ++ R) L3 e1 h3)

/-- `n` empty arguments. -/
def argKs : Nat → List Lex
  | 0 => []
  | n + 1 => .mark ch!"{" :: .mark ch!"}" :: argKs n

theorem argKs_closers : ∀ n, ∀ k ∈ argKs n, k ∈ closers
  | 0, k, h => by cases h
  | n + 1, k, h => by
    rcases List.mem_cons.1 h with rfl | h
    · decide
    · rcases List.mem_cons.1 h with rfl | h
      · decide
      · exact argKs_closers n k h

theorem map_cons_lex {Y : List Lexed} {k : Lex} {ks : List Lex} (h : Y.map (·.lex) = k :: ks) : ∃ o e Y', Y = ⟨k, o, e⟩ :: Y' ∧ Y'.map (·.lex) = ks := by
  cases Y with
  | nil => cases h
  | cons y Y =>
    obtain ⟨k', o, e⟩ := y
    injection h with h1 h2
    dsimp only at h1
    subst h1
    exact ⟨o, e, Y, rfl, h2⟩

theorem argKs_args {m : Bool} : ∀ (n : Nat) (Y R : List Lexed), Y.map (·.lex) = argKs n → ∃ l, Args m n (Y ++ R) l R
  | 0, Y, R, h => by
    obtain rfl := List.map_eq_nil_iff.1 h
    exact ⟨[], .done⟩
  | n + 1, Y, R, h => by
    obtain ⟨o, e, Y, rfl, h1⟩ := map_cons_lex h
    obtain ⟨o', e', Y, rfl, h2⟩ := map_cons_lex h1
    obtain ⟨l, hl⟩ := argKs_args (m := m) n Y R h2
    exact ⟨_, .more (.close rfl) hl⟩

def closeKs (u : Until) : List Lex := u.mark.toList
theorem closeKs_closers (u : Until) : ∀ k ∈ closeKs u, k ∈ closers := by cases u <;> decide

theorem closeKs_items {m : Bool} {u : Until} {Y R : List Lexed} (h : Y.map (·.lex) = closeKs u) (hR : u = .eof → R = []) : ∃ q, Items m u (Y ++ R) [] q R := by
  cases hu : u.mark with
  | none =>
    have : u = .eof := by cases u <;> first | rfl | cases hu
    subst this
    obtain rfl := List.map_eq_nil_iff.1 h
    obtain rfl := hR rfl
    exact ⟨0, .eof⟩
  | some k =>
    unfold closeKs at h
    rw [hu] at h
    obtain ⟨o, e, Y, rfl, h1⟩ := map_cons_lex h
    obtain rfl := List.map_eq_nil_iff.1 h1
    exact ⟨o, .close hu⟩

theorem args_zero {m n l L} (h : Args m n [] l L) : n = 0 := by cases h; rfl
theorem args_pos_ne {m n L l L1} (h : Args m (n + 1) L l L1) : L ≠ [] := by cases h; simp

/-- After `\sqrt` there is no bracket if there are arguments in braces. -/
theorem root_head {m t L l R} (h : Args m (arity t) L l R) : t = bs!"\\sqrt" → ∀ e e', L.head? ≠ some ⟨.mark ch!"[", e, e'⟩ := by
  rintro rfl e e'
  rw [show arity bs!"\\sqrt" = 0 + 1 from rfl] at h
  cases h with
  | more => intro h; cases h

theorem item1_single {m x n} (h : ∀ R, Item1 m (x :: R) n R) (hx : x.lex = .comment ∨ ¬ Loose x) : Comp1 m [x] := by
  refine ⟨[], nofun, fun Y R L2 hY hg => ?_⟩
  obtain rfl := List.map_eq_nil_iff.1 hY
  obtain ⟨x', L', rfl, h1, h2⟩ := onw_cons hg
  cases h1 with
  | nil h1 =>
    rw [List.nil_append] at h1
    subst h1
    rcases h2 with ⟨h2, -⟩ | ⟨-, h2⟩
    · exact absurd rfl h2
    · rcases h2 with ⟨rfl, -⟩ | ⟨h3, h4⟩ | ⟨h3, h4⟩ | ⟨h3, h4⟩
      · exact ⟨_, h _⟩
      · obtain ⟨k, o, e⟩ := x'
        dsimp only at h4
        subst h4
        exact ⟨_, .comment⟩
      · rcases hx with hx | hx
        · rw [hx] at h3; cases h3
        · exact absurd (.inr (.inl h3)) hx
      · rcases hx with hx | hx
        · rw [hx] at h3; cases h3
        · exact absurd (.inr (.inr (.inl h3))) hx

theorem lex_not_loose {x : Lexed} (h1 : x.lex ≠ .comment) (h2 : x.lex ≠ .quoted) (h3 : ∀ t, x.lex ≠ .name t) : ¬ Loose x := by
  rintro (h | h | h | ⟨u, h⟩)
  · exact h1 h
  · exact h2 h
  · exact h3 _ h
  · exact h3 _ h

theorem comp_item1 {m x L u} (hu : u.mark ≠ some x.lex) (hx : ∀ t, u.mark ≠ some (.name t)) (h : Comp1 m (x :: L)) : CompIn m u (x :: L) := by
  refine comp_more h (closeKs u) (closeKs_closers u) fun B L2 hg => ⟨L2, hg, fun Y R hY hn hR => ?_⟩
  obtain ⟨n, hn⟩ := hn
  obtain ⟨q, hq⟩ := closeKs_items (m := m) hY hR
  obtain ⟨x', L', rfl, h1, rfl | ⟨h2, h3, -⟩⟩ := onw_tame kept_tame hg
  · exact ⟨_, q, .item hu hn hq⟩
  · refine ⟨_, q, .item (fun he => ?_) hn hq⟩
    cases u <;> simp [Until.mark] at he
    · exact h3 _ he.symm
    · exact h3 _ he.symm
    · exact h3 _ he.symm

theorem until_not_name (u : Until) : ∀ t, u.mark ≠ some (.name t) := by cases u <;> nofun

mutual
theorem compItem1 : ∀ {m L n L1}, Item1 m L n L1 → L1 = [] → Comp1 m L
  | _, _, _, _, .word, e => by subst e; exact item1_single (fun R => .word) (.inr (lex_not_loose nofun nofun nofun))
  | _, _, _, _, .number, e => by subst e; exact item1_single (fun R => .number) (.inr (lex_not_loose nofun nofun nofun))
  | _, _, _, _, .comment, e => by subst e; exact item1_single (fun R => .comment) (.inl rfl)
  | _, _, _, _, .blank, e => by subst e; exact item1_single (fun R => .blank) (.inr (lex_not_loose nofun nofun nofun))
  | _, _, _, _, .mathBlank, e => by subst e; exact item1_single (fun R => .mathBlank) (.inr (lex_not_loose nofun nofun nofun))
  | _, _, _, _, .symbol h, e => by subst e; exact item1_single (fun R => .symbol h) (.inr mark_not_loose)
  | _, _, _, _, .math h, e => comp_map (compItems h e) fun B L2 hg => by
    obtain ⟨L3, rfl, hg1⟩ := onw_same kept_tame hg mark_not_loose
    exact ⟨L3, hg1, fun R h => by obtain ⟨l, q, h⟩ := h nofun; exact ⟨_, .math h⟩⟩
  | _, _, _, _, .group h, e => comp_map (compItems h e) fun B L2 hg => by
    obtain ⟨L3, rfl, hg2⟩ := onw_same kept_tame hg mark_not_loose
    exact ⟨L3, hg2, fun R h => by obtain ⟨l, q, h⟩ := h nofun; exact ⟨_, .group h⟩⟩
  | _, _, _, _, .supGroup h, e => comp_map (compItems h e) fun B L2 hg => by
    obtain ⟨L3, rfl, hg3⟩ := onw_same kept_tame hg mark_not_loose
    obtain ⟨L3, rfl, hg4⟩ := onw_same kept_tame hg3 mark_not_loose
    exact ⟨L3, hg4, fun R h => by obtain ⟨l, q, h⟩ := h nofun; exact ⟨_, .supGroup h⟩⟩
  | _, _, _, _, .sup h, e => comp_map (compItem1 h e) fun B L2 hg => by
    obtain ⟨L3, rfl, hg5⟩ := onw_same kept_tame hg mark_not_loose
    exact ⟨L3, hg5, fun R ⟨n, h⟩ => ⟨_, .sup h⟩⟩
  | _, _, _, _, .subGroup h, e => comp_map (compItems h e) fun B L2 hg => by
    obtain ⟨L3, rfl, hg6⟩ := onw_same kept_tame hg mark_not_loose
    obtain ⟨L3, rfl, hg7⟩ := onw_same kept_tame hg6 mark_not_loose
    exact ⟨L3, hg7, fun R h => by obtain ⟨l, q, h⟩ := h nofun; exact ⟨_, .subGroup h⟩⟩
  | _, _, _, _, .sub h, e => comp_map (compItem1 h e) fun B L2 hg => by
    obtain ⟨L3, rfl, hg8⟩ := onw_same kept_tame hg mark_not_loose
    exact ⟨L3, hg8, fun R ⟨n, h⟩ => ⟨_, .sub h⟩⟩
  | _, _, _, _, .root h1 h2, e => comp_map (compArgs h2 e) fun B L2 hg => by
    obtain ⟨L3, rfl, hg9⟩ := onw_next hg (by simp)
    obtain ⟨L3, rfl, hg10⟩ := onw_same kept_tame hg9 mark_not_loose
    obtain ⟨L4, hi, hg11⟩ := items_onw h1 (args_pos_ne h2) hg10
    exact ⟨L4, hg11, fun R ⟨l, h⟩ => ⟨_, .root hi h⟩⟩
  | _, _, _, _, .macro hk h _, e => comp_map (compArgs h e) fun B L2 hg => by
    obtain ⟨L3, rfl, hg12⟩ := onw_same kept_tame hg (known_not_loose hk)
    exact ⟨L3, hg12, fun R ⟨l, h⟩ => ⟨_, .macro hk h fun ht => root_head h ht _⟩⟩
theorem compItems : ∀ {m u L l q L1}, Items m u L l q L1 → L1 = [] → CompIn m u L
  | _, u, _, _, _, _, .eof, _ => by
    refine ⟨closeKs u, closeKs_closers u, fun Y R L2 hY hg hR => ?_⟩
    cases hg with
    | nil hg =>
      subst hg
      obtain ⟨q, hq⟩ := closeKs_items hY hR
      exact ⟨_, q, hq⟩
  | _, _, _, _, _, _, .close (k := k) h, e => by
    subst e
    refine ⟨[], nofun, fun Y R L2 hY hg hR => ?_⟩
    obtain rfl := List.map_eq_nil_iff.1 hY
    have hk : ∃ c, k = .mark c := by
      rename_i u _ _
      cases u <;> cases h <;> exact ⟨_, rfl⟩
    obtain ⟨c, rfl⟩ := hk
    obtain ⟨L3, rfl, hg13⟩ := onw_same kept_tame hg mark_not_loose
    cases hg13 with
    | nil hg13 => subst hg13; exact ⟨_, _, .close h⟩
  | _, u, _, _, _, _, .item (L1 := L1) hu h1 h2, e => by
    by_cases hL : L1 = []
    · exact comp_item1 hu (until_not_name u) (compItem1 h1 hL)
    · refine comp_map (compItems h2 e) fun B L2 hg => ?_
      obtain ⟨L', L1', rfl, h1', hg14⟩ := item1_onw h1 hL hg
      exact ⟨L1', hg14, fun R h hR => by obtain ⟨l, q, h⟩ := h hR; exact ⟨_, q, .item hu h1' h⟩⟩
theorem compArgs : ∀ {m n L l L1}, Args m n L l L1 → L1 = [] → CompArgs m n L
  | _, _, _, _, _, .done, e => by
    subst e
    refine ⟨[], nofun, fun Y R L2 hY hg => ?_⟩
    obtain rfl := List.map_eq_nil_iff.1 hY
    cases hg with
    | nil hg => subst hg; exact ⟨_, .done⟩
  | _, _, _, _, _, .more (L1 := L1) h1 h2, e => by
    by_cases hL : L1 = []
    · have hn := args_zero (hL ▸ h2)
      subst hn
      refine comp_map (compItems h1 hL) fun B L2 hg => ?_
      obtain ⟨L3, rfl, hg15⟩ := onw_same kept_tame hg mark_not_loose
      exact ⟨L3, hg15, fun R h => by obtain ⟨l, q, h⟩ := h nofun; exact ⟨_, .more h .done⟩⟩
    · refine comp_map (compArgs h2 e) fun B L2 hg => ?_
      obtain ⟨L3, rfl, hg16⟩ := onw_same kept_tame hg mark_not_loose
      obtain ⟨L4, hi, hg17⟩ := items_onw h1 hL hg16
      exact ⟨L4, hg17, fun R ⟨l, h⟩ => ⟨_, .more hi h⟩⟩
end

/-! ## What is hopeless -/

/-- How a last lexeme can change: a quoted name becomes `f`. -/
def Turn (f : GoString) (x x' : Lexed) : Prop :=
  (x' = x ∧ x.lex ≠ .name bs!"\\" ∧ ∀ u, x.lex ≠ .name (bs!"\\\"" ++ u)) ∨ (x.lex = .comment ∧ x'.lex = .comment) ∨
    (x.lex = .quoted ∧ x'.lex = .quoted) ∨ (x.lex = .name bs!"\\" ∧ ∃ t, x'.lex = .name t) ∨
    ((∃ u, x.lex = .name (bs!"\\\"" ++ u)) ∧ x'.lex = .name f)

theorem turn_tame {f : GoString} : TameLex (Turn f) := by
  rintro x x' (⟨h, -⟩ | ⟨h, h'⟩ | ⟨h, h'⟩ | ⟨h, t, h'⟩ | ⟨⟨u, h⟩, h'⟩)
  · exact .inl h
  · exact .inr ⟨.inl h, by rw [h']; exact ⟨nofun, nofun⟩⟩
  · exact .inr ⟨.inr (.inl h), by rw [h']; exact ⟨nofun, nofun⟩⟩
  · exact .inr ⟨.inr (.inr (.inl h)), by rw [h']; exact ⟨nofun, nofun⟩⟩
  · exact .inr ⟨.inr (.inr (.inr ⟨u, h⟩)), by rw [h']; exact ⟨nofun, nofun⟩⟩

/-- Whatever comes, the panic is `p`. -/
def Lost (f : GoString) (F : List Lexed → Panic → Prop) (L : List Lexed) : Prop := ∃ p, ∀ L2, Onward (Turn f) (fun _ => True) L L2 → F L2 p

section
variable {f : GoString}

theorem lost_map {F F' : List Lexed → Panic → Prop} {L L' : List Lexed} (h : Lost f F L)
    (hq : ∀ B L2, Onward (Turn f) B L' L2 → ∃ L3, Onward (Turn f) B L L3 ∧ ∀ p, F L3 p → F' L2 p) : Lost f F' L' := by
  obtain ⟨p, h⟩ := h
  refine ⟨p, fun L2 hg => ?_⟩
  obtain ⟨L3, h3, h4⟩ := hq _ _ hg
  exact h4 p (h L3 h3)

/-- The head of what becomes of `L` is a mark only if that of `L` is. -/
theorem onw_head {L L2 : List Lexed} {B : List Lexed → Prop} (hg : Onward (Turn f) B L L2) (hL : L ≠ []) {c o e : Nat} (h : L2.head? = some ⟨.mark c, o, e⟩) :
    L.head? = some ⟨.mark c, o, e⟩ := by
  obtain ⟨y, L, rfl⟩ := List.exists_cons_of_ne_nil hL
  obtain ⟨x', L', rfl, -, rfl | ⟨-, h2, -⟩⟩ := onw_tame turn_tame hg
  · exact h
  · cases h; exact absurd rfl (h2 c)

theorem arg_more {m : Bool} {n : Nat} {o e : Nat} {L : List Lexed} (h : CompIn m .brace L) : CompArgs m (n + 1) (⟨.mark ch!"{", o, e⟩ :: L) :=
  comp_more h (argKs n) (argKs_closers n) fun B L2 hg => by
    obtain ⟨L3, rfl, hg1⟩ := onw_same kept_tame hg mark_not_loose
    refine ⟨L3, hg1, fun Y R hY h => ?_⟩
    obtain ⟨l, q, h⟩ := h nofun
    obtain ⟨l', h'⟩ := argKs_args (m := m) n Y R hY
    exact ⟨_, .more h h'⟩

theorem root_in {m : Bool} {o e e' : Nat} {L : List Lexed} (h : CompIn m .bracket L) :
    Comp1 m (⟨.name bs!"\\sqrt", o, e⟩ :: ⟨.mark ch!"[", e, e'⟩ :: L) :=
  comp_more h (argKs 1) (argKs_closers 1) fun B L2 hg => by
    obtain ⟨L3, rfl, hg2⟩ := onw_next hg (by simp)
    obtain ⟨L3, rfl, hg3⟩ := onw_same kept_tame hg2 mark_not_loose
    refine ⟨L3, hg3, fun Y R hY h => ?_⟩
    obtain ⟨l, q, h⟩ := h nofun
    obtain ⟨l', h'⟩ := argKs_args (m := m) 1 Y R hY
    exact ⟨_, .root h h'⟩

theorem args_eof (m : Bool) (n : Nat) : CompArgs m n [] := by
  refine ⟨argKs n, argKs_closers n, fun Y R L2 hY hg => ?_⟩
  cases hg with
  | nil hg => subst hg; exact argKs_args n Y R hY

theorem comp1_eof (m : Bool) : Comp1 m [] := by
  refine ⟨[.word bs!"x"], by decide, fun Y R L2 hY hg => ?_⟩
  obtain ⟨o, e, Y, rfl, hY1⟩ := map_cons_lex hY
  obtain rfl := List.map_eq_nil_iff.1 hY1
  cases hg with
  | nil hg => subst hg; exact ⟨_, .word⟩

theorem comp_script {m : Bool} {c o e : Nat} {L : List Lexed} (hc : c ∈ bs!"^_") (h : Comp1 m L) : Comp1 m (⟨.mark c, o, e⟩ :: L) :=
  comp_map h fun B L2 hg => by
    obtain ⟨L3, rfl, hg4⟩ := onw_same kept_tame hg mark_not_loose
    refine ⟨L3, hg4, fun R ⟨n, h⟩ => ?_⟩
    simp only [List.mem_cons, List.not_mem_nil, or_false] at hc
    rcases hc with rfl | rfl
    · exact ⟨_, .sup h⟩
    · exact ⟨_, .sub h⟩

theorem comp_scriptIn {m : Bool} {c o e e' : Nat} {L : List Lexed} (hc : c ∈ bs!"^_") (h : CompIn m .brace L) :
    Comp1 m (⟨.mark c, o, e⟩ :: ⟨.mark ch!"{", e, e'⟩ :: L) :=
  comp_map h fun B L2 hg => by
    obtain ⟨L3, rfl, hg5⟩ := onw_same kept_tame hg mark_not_loose
    obtain ⟨L3, rfl, hg6⟩ := onw_same kept_tame hg5 mark_not_loose
    refine ⟨L3, hg6, fun R h => ?_⟩
    obtain ⟨l, q, h⟩ := h nofun
    simp only [List.mem_cons, List.not_mem_nil, or_false] at hc
    rcases hc with rfl | rfl
    · exact ⟨_, .supGroup h⟩
    · exact ⟨_, .subGroup h⟩

theorem name_not_loose {t : GoString} {o e : Nat} (h1 : t ≠ bs!"\\") (h2 : ∀ u, t ≠ bs!"\\\"" ++ u) : ¬ Loose ⟨.name t, o, e⟩ := by
  rintro (h | h | h | ⟨u, h⟩)
  · cases h
  · cases h
  · cases h; exact h1 rfl
  · cases h; exact h2 u rfl

theorem bare_completes {m : Bool} {o e : Nat} : Comp1 m [⟨.name bs!"\\", o, e⟩] := by
  refine ⟨[], nofun, fun Y R L2 hY hg => ?_⟩
  obtain rfl := List.map_eq_nil_iff.1 hY
  obtain ⟨x', L', rfl, h1, ⟨h2, -⟩ | ⟨-, h2⟩⟩ := onw_cons hg
  · exact absurd rfl h2
  · cases h1 with
    | nil h1 =>
      rw [List.nil_append] at h1
      subst h1
      rcases h2 with ⟨-, h3⟩ | ⟨h3, -⟩ | ⟨h3, -⟩ | ⟨-, h3⟩
      · exact absurd rfl h3
      · cases h3
      · cases h3
      · obtain ⟨k, o', e'⟩ := x'
        dsimp only at h3
        subst h3
        have hk : Known bs!"\\alpha" := (knownOf (name := bs!"\\alpha") (sig := bs!"") (by krfl)).1
        exact ⟨_, .macro hk (by rw [show arity bs!"\\alpha" = 0 from rfl]; exact .done) (fun h => by cases h)⟩

mutual
theorem hope1 (hf : ∃ u, f = bs!"\\\"" ++ u) : ∀ {m L p}, Fail1 m L p → Lost f (Fail1 m) L ∨ Comp1 m L
  | m, _, _, .eof => .inr (comp1_eof m)
  | _, _, _, .wrong => .inl ⟨_, fun L2 hg => by
    obtain ⟨L', rfl, -⟩ := onw_same turn_tame hg wrong_not_loose
    exact .wrong⟩
  | _, _, _, .quoted => .inl ⟨_, fun L2 hg => by
    obtain ⟨x', L', rfl, -, ⟨-, h2⟩ | ⟨-, h2⟩⟩ := onw_cons hg
    · subst h2; exact .quoted
    · rcases h2 with ⟨h2, -⟩ | ⟨h2, -⟩ | ⟨-, h2⟩ | ⟨h2, -⟩ | ⟨⟨u, h2⟩, -⟩
      · subst h2; exact .quoted
      · cases h2
      · obtain ⟨k, o, e⟩ := x'
        dsimp only at h2
        subst h2
        exact .quoted
      · cases h2
      · cases h2⟩
  | _, _, _, .group => .inl ⟨_, fun L2 hg => by
    obtain ⟨L', rfl, -⟩ := onw_same turn_tame hg mark_not_loose
    exact .group⟩
  | _, _, _, .brace => .inl ⟨_, fun L2 hg => by
    obtain ⟨L', rfl, -⟩ := onw_same turn_tame hg mark_not_loose
    exact .brace⟩
  | _, _, _, .unknown (t := t) (L := L) h1 h2 => by
    by_cases hL : L = []
    · subst hL
      by_cases ht : t = bs!"\\"
      · subst ht; exact .inr bare_completes
      · by_cases hu : ∃ u, t = bs!"\\\"" ++ u
        · refine .inl ⟨.unknownMacro f, fun L2 hg => ?_⟩
          obtain ⟨x', L', rfl, -, ⟨h3, -⟩ | ⟨-, h3⟩⟩ := onw_cons hg
          · exact absurd rfl h3
          · rcases h3 with ⟨-, -, h3⟩ | ⟨h3, -⟩ | ⟨h3, -⟩ | ⟨h3, -⟩ | ⟨-, h3⟩
            · obtain ⟨u, rfl⟩ := hu
              exact absurd rfl (h3 u)
            · cases h3
            · cases h3
            · cases h3; exact absurd rfl ht
            · obtain ⟨k, o, e⟩ := x'
              dsimp only at h3
              subst h3
              obtain ⟨u, rfl⟩ := hf
              exact .unknown odd_not_known (by intro h; cases h)
        · refine .inl ⟨.unknownMacro t, fun L2 hg => ?_⟩
          obtain ⟨L', rfl, -⟩ := onw_same turn_tame hg (name_not_loose ht fun u h => hu ⟨u, h⟩)
          exact .unknown h1 h2
    · refine .inl ⟨.unknownMacro t, fun L2 hg => ?_⟩
      obtain ⟨L', rfl, -⟩ := onw_next hg hL
      exact .unknown h1 h2
  | _, _, _, .genfrac => .inl ⟨_, fun L2 hg => by
    obtain ⟨L', rfl, -⟩ := onw_same turn_tame hg (name_not_loose (by decide) (by intro u h; cases h))
    exact .genfrac⟩
  | _, _, _, .inMath h => by
    rcases hopeIn hf h with hl | hc
    · exact .inl (lost_map hl fun B L2 hg => by
        obtain ⟨L3, rfl, hg7⟩ := onw_same turn_tame hg mark_not_loose
        exact ⟨L3, hg7, fun p h => .inMath h⟩)
    · exact .inr (comp_map hc fun B L2 hg => by
        obtain ⟨L3, rfl, hg8⟩ := onw_same kept_tame hg mark_not_loose
        exact ⟨L3, hg8, fun R h => by obtain ⟨l, q, h⟩ := h nofun; exact ⟨_, .math h⟩⟩)
  | _, _, _, .inGroup h => by
    rcases hopeIn hf h with hl | hc
    · exact .inl (lost_map hl fun B L2 hg => by
        obtain ⟨L3, rfl, hg9⟩ := onw_same turn_tame hg mark_not_loose
        exact ⟨L3, hg9, fun p h => .inGroup h⟩)
    · exact .inr (comp_map hc fun B L2 hg => by
        obtain ⟨L3, rfl, hg10⟩ := onw_same kept_tame hg mark_not_loose
        exact ⟨L3, hg10, fun R h => by obtain ⟨l, q, h⟩ := h nofun; exact ⟨_, .group h⟩⟩)
  | _, _, _, .inScript hc h => by
    rcases hopeIn hf h with hl | hc'
    · exact .inl (lost_map hl fun B L2 hg => by
        obtain ⟨L3, rfl, hg11⟩ := onw_same turn_tame hg mark_not_loose
        obtain ⟨L3, rfl, hg12⟩ := onw_same turn_tame hg11 mark_not_loose
        exact ⟨L3, hg12, fun p h => .inScript hc h⟩)
    · exact .inr (comp_scriptIn hc hc')
  | _, _, _, .script (L := L) hc hb h => by
    by_cases hL : L = []
    · subst hL; exact .inr (comp_script hc (comp1_eof _))
    rcases hope1 hf h with hl | hc'
    · exact .inl (lost_map hl fun B L2 hg => by
        obtain ⟨L3, rfl, hg13⟩ := onw_same turn_tame hg mark_not_loose
        exact ⟨L3, hg13, fun p h => .script hc (fun ⟨e', he⟩ => hb ⟨e', onw_head ‹_› hL he⟩) h⟩)
    · exact .inr (comp_script hc hc')
  | _, _, _, .inRoot h => by
    rcases hopeIn hf h with hl | hc
    · exact .inl (lost_map hl fun B L2 hg => by
        obtain ⟨L3, rfl, hg14⟩ := onw_next hg (by simp)
        obtain ⟨L3, rfl, hg15⟩ := onw_same turn_tame hg14 mark_not_loose
        exact ⟨L3, hg15, fun p h => .inRoot h⟩)
    · exact .inr (root_in hc)
  | _, _, _, .root (L1 := L1) hi h => by
    by_cases hL : L1 = []
    · exact .inr (root_in (compItems hi hL))
    rcases hopeArgs hf h with hl | hc
    · exact .inl (lost_map hl fun B L2 hg => by
        obtain ⟨L3, rfl, hg16⟩ := onw_next hg (by simp)
        obtain ⟨L3, rfl, hg17⟩ := onw_same turn_tame hg16 mark_not_loose
        obtain ⟨L4, hi', hg18⟩ := items_onw hi hL hg17
        exact ⟨L4, hg18, fun p h => .root hi' h⟩)
    · exact .inr (comp_map hc fun B L2 hg => by
        obtain ⟨L3, rfl, hg19⟩ := onw_next hg (by simp)
        obtain ⟨L3, rfl, hg20⟩ := onw_same kept_tame hg19 mark_not_loose
        obtain ⟨L4, hi', hg21⟩ := items_onw hi hL hg20
        exact ⟨L4, hg21, fun R ⟨l, h⟩ => ⟨_, .root hi' h⟩⟩)
  | m, _, _, .args (t := t) (o := o) (e := e) (L := L) hk hb h => by
    have key : CompArgs m (arity t) L → Lost f (Fail1 m) (⟨.name t, o, e⟩ :: L) ∨ Comp1 m (⟨.name t, o, e⟩ :: L) := fun hc => .inr (comp_map hc fun B L2 hg => by
      obtain ⟨L3, rfl, hg22⟩ := onw_same kept_tame hg (known_not_loose hk)
      exact ⟨L3, hg22, fun R ⟨l, h⟩ => ⟨_, .macro hk h fun ht => root_head h ht _⟩⟩)
    by_cases hL : L = []
    · exact key (hL ▸ args_eof m _)
    rcases hopeArgs hf h with hl | hc
    · exact .inl (lost_map hl fun B L2 hg => by
        obtain ⟨L3, rfl, hg23⟩ := onw_next hg hL
        exact ⟨L3, hg23, fun p h => .args hk (fun ht ⟨e', he⟩ => hb ht ⟨e', onw_head ‹_› hL he⟩) h⟩)
    · exact key hc
theorem hopeIn (hf : ∃ u, f = bs!"\\\"" ++ u) : ∀ {m u L p}, FailIn m u L p → Lost f (FailIn m u) L ∨ CompIn m u L
  | _, u, _, _, .here hu h => by
    rcases hope1 hf h with hl | hc
    · refine .inl (lost_map hl fun B L2 hg => ⟨L2, hg, fun p hF => ?_⟩)
      obtain ⟨x', L', rfl, -, rfl | ⟨-, h2, -⟩⟩ := onw_tame turn_tame hg
      · exact .here hu hF
      · refine .here (fun he => ?_) hF
        cases u <;> simp [Until.mark] at he
        · exact h2 _ he.symm
        · exact h2 _ he.symm
        · exact h2 _ he.symm
    · exact .inr (comp_item1 hu (until_not_name u) hc)
  | _, _, _, _, .later hu h1 h2 => by
    have hL := failIn_ne h2
    rcases hopeIn hf h2 with hl | hc
    · exact .inl (lost_map hl fun B L2 hg => by
        obtain ⟨L', L1', rfl, h1', hg24⟩ := item1_onw h1 hL hg
        exact ⟨L1', hg24, fun p h => .later hu h1' h⟩)
    · exact .inr (comp_map hc fun B L2 hg => by
        obtain ⟨L', L1', rfl, h1', hg25⟩ := item1_onw h1 hL hg
        exact ⟨L1', hg25, fun R h hR => by obtain ⟨l, q, h⟩ := h hR; exact ⟨_, q, .item hu h1' h⟩⟩)
theorem hopeArgs (hf : ∃ u, f = bs!"\\\"" ++ u) : ∀ {m n L p}, FailArgs m n L p → Lost f (FailArgs m n) L ∨ CompArgs m n L
  | m, _, _, _, .eof => .inr (args_eof m _)
  | _, _, _, _, .wrong => .inl ⟨_, fun L2 hg => by
    obtain ⟨L', rfl, -⟩ := onw_same turn_tame hg wrong_not_loose
    exact .wrong⟩
  | _, _, _, _, .other h1 h2 => .inl ⟨_, fun L2 hg => by
    obtain ⟨x', L', rfl, -, rfl | ⟨-, h3, h4⟩⟩ := onw_tame turn_tame hg
    · exact .other h1 h2
    · exact .other (h3 _) h4⟩
  | _, _, _, _, .inside h => by
    rcases hopeIn hf h with hl | hc
    · exact .inl (lost_map hl fun B L2 hg => by
        obtain ⟨L3, rfl, hg26⟩ := onw_same turn_tame hg mark_not_loose
        exact ⟨L3, hg26, fun p h => .inside h⟩)
    · exact .inr (arg_more hc)
  | _, _, _, _, .later (L1 := L1) hi h => by
    by_cases hL : L1 = []
    · exact .inr (arg_more (compItems hi hL))
    rcases hopeArgs hf h with hl | hc
    · exact .inl (lost_map hl fun B L2 hg => by
        obtain ⟨L3, rfl, hg27⟩ := onw_same turn_tame hg mark_not_loose
        obtain ⟨L4, hi', hg28⟩ := items_onw hi hL hg27
        exact ⟨L4, hg28, fun p h => .later hi' h⟩)
    · exact .inr (comp_map hc fun B L2 hg => by
        obtain ⟨L3, rfl, hg29⟩ := onw_same kept_tame hg mark_not_loose
        obtain ⟨L4, hi', hg30⟩ := items_onw hi hL hg29
        exact ⟨L4, hg30, fun R ⟨l, h⟩ => ⟨_, .more hi' h⟩⟩)
end
end
end Verif
