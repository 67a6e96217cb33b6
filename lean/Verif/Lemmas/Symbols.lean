import Verif.Model.Symbols
import Verif.Model.Krfl
import Verif.Lemmas.Utf8
import Verif.Spec.Text
/-! # Symbol sets and symbol lookup -/

namespace Verif
open Spec

/-! ## Sets -/

theorem mem_setAdd {o : SymSet} {k j : GoString} : j ∈ setAdd o k ↔ j ∈ o ∨ j = k := by
  unfold setAdd
  split
  · rename_i h
    have : k ∈ o := by simpa using h
    constructor
    · exact .inl
    · rintro (h | rfl) <;> assumption
  · simp

theorem nodup_setAdd {o : SymSet} {k : GoString} (h : o.Nodup) : (setAdd o k).Nodup := by
  unfold setAdd
  split
  · exact h
  · rename_i hk
    have : k ∉ o := by simpa using hk
    rw [List.nodup_append]
    refine ⟨h, by simp, ?_⟩
    intro a ha b hb
    simp only [List.mem_singleton] at hb
    subst hb
    rintro rfl
    exact this ha

theorem foldl_setAdd (vs : List GoString) : ∀ (o : SymSet), o.Nodup →
    (vs.foldl setAdd o).Nodup ∧ ∀ k, k ∈ vs.foldl setAdd o ↔ k ∈ o ∨ k ∈ vs := by
  induction vs with
  | nil => intro o h; simpa using h
  | cons v vs ih =>
    intro o h
    obtain ⟨h1, h2⟩ := ih (setAdd o v) (nodup_setAdd h)
    refine ⟨h1, fun k => ?_⟩
    rw [List.foldl_cons, h2, mem_setAdd, List.mem_cons, or_assoc]

theorem unionOf_spec (orders : List (List GoString)) : (unionOf orders).Nodup ∧
    ∀ k, k ∈ unionOf orders ↔ ∃ s ∈ orders, k ∈ s := by
  have : ∀ (os : List (List GoString)) (o : SymSet), o.Nodup →
      (os.foldl (fun o s => s.foldl setAdd o) o).Nodup ∧
      ∀ k, k ∈ os.foldl (fun o s => s.foldl setAdd o) o ↔ k ∈ o ∨ ∃ s ∈ os, k ∈ s := by
    intro os
    induction os with
    | nil => intro o h; simpa using h
    | cons s os ih =>
      intro o h
      obtain ⟨h1, h2⟩ := foldl_setAdd s o h
      obtain ⟨h3, h4⟩ := ih _ h1
      refine ⟨h3, fun k => ?_⟩
      rw [List.foldl_cons, h4, h2, or_assoc]
      simp
  simpa [unionOf] using this orders [] (by simp)

/-! ## Sorting -/

theorem strLe_iff (a b : GoString) : strLe a b = true ↔ a ≤ b := by
  induction a generalizing b with
  | nil => simp [strLe]
  | cons x a ih =>
    cases b with
    | nil => simp [strLe]
    | cons y b =>
      rw [List.cons_le_cons_iff]
      simp [strLe, ih]

theorem insertSorted_perm (k : GoString) (l : List GoString) : (insertSorted k l).Perm (k :: l) := by
  induction l with
  | nil => exact .refl _
  | cons a l ih =>
    unfold insertSorted
    split
    · exact .refl _
    · exact (List.Perm.cons a ih).trans (List.Perm.swap k a l)

theorem insertSorted_sorted {k : GoString} {l : List GoString} (h : l.Pairwise (· ≤ ·)) :
    (insertSorted k l).Pairwise (· ≤ ·) := by
  induction l with
  | nil => simp [insertSorted]
  | cons a l ih =>
    unfold insertSorted
    split
    · rename_i hk
      rw [strLe_iff] at hk
      refine List.pairwise_cons.2 ⟨?_, h⟩
      intro b hb
      rcases List.mem_cons.1 hb with rfl | hb
      · exact hk
      · exact List.le_trans hk ((List.pairwise_cons.1 h).1 b hb)
    · rename_i hk
      rw [strLe_iff] at hk
      have hak : a ≤ k := by
        rcases List.le_total k a with h | h
        · exact absurd h hk
        · exact h
      obtain ⟨h1, h2⟩ := List.pairwise_cons.1 h
      refine List.pairwise_cons.2 ⟨?_, ih h2⟩
      intro b hb
      rcases List.mem_cons.1 ((insertSorted_perm k l).mem_iff.1 hb) with rfl | hb
      · exact hak
      · exact h1 b hb

theorem sortStrings_spec (l : List GoString) : (sortStrings l).Perm l ∧ (sortStrings l).Pairwise (· ≤ ·) := by
  induction l with
  | nil => simp [sortStrings]
  | cons a l ih =>
    exact ⟨(insertSorted_perm a _).trans (ih.1.cons a), insertSorted_sorted ih.2⟩

theorem sortStrings_strict {l : List GoString} (h : l.Nodup) : (sortStrings l).Pairwise (· < ·) := by
  obtain ⟨hp, hs⟩ := sortStrings_spec l
  have hn : (sortStrings l).Nodup := hp.nodup_iff.2 h
  refine (List.Pairwise.and hs hn).imp ?_
  intro a b h
  rcases List.le_iff_lt_or_eq.1 h.1 with h1 | h1
  · exact h1
  · exact absurd h1 h.2

/-! ## First rune -/

theorem decodeRune2 {b0 b1 : Nat} (t : List Nat) (h0 : 0xC2 ≤ b0 ∧ b0 ≤ 0xDF) (h1 : 0x80 ≤ b1 ∧ b1 ≤ 0xBF) :
    decodeRune b0 (b1 :: t) = ((b0 - 0xC0) * 64 + (b1 - 0x80), 2) := by
  have e1 : ¬ b0 < 0x80 := by omega
  have e2 : (0xC2 ≤ b0 && b0 ≤ 0xDF) = true := by simpa using h0
  have e3 : isCont b1 = true := by simpa [isCont] using h1
  simp only [decodeRune, if_neg e1, if_pos e2, if_pos e3]

theorem decodeRune3 {b0 b1 b2 : Nat} (t : List Nat) (h0 : 0xE0 ≤ b0 ∧ b0 ≤ 0xEF) (h1 : 0x80 ≤ b1 ∧ b1 ≤ 0xBF)
    (h2 : 0x80 ≤ b2 ∧ b2 ≤ 0xBF) (hl : b0 = 0xE0 → 0xA0 ≤ b1) (hh : b0 = 0xED → b1 ≤ 0x9F) :
    decodeRune b0 (b1 :: b2 :: t) = ((b0 - 0xE0) * 4096 + (b1 - 0x80) * 64 + (b2 - 0x80), 3) := by
  have e1 : ¬ b0 < 0x80 := by omega
  have e2 : ¬ (0xC2 ≤ b0 && b0 ≤ 0xDF) = true := by simp; omega
  have e3 : (0xE0 ≤ b0 && b0 ≤ 0xEF) = true := by simpa using h0
  have e4 : isCont b2 = true := by simpa [isCont] using h2
  have e5 : decide ((if b0 = 0xE0 then 0xA0 else 0x80) ≤ b1) = true := by
    simp only [decide_eq_true_eq]; split <;> omega
  have e6 : decide (b1 ≤ (if b0 = 0xED then 0x9F else 0xBF)) = true := by
    simp only [decide_eq_true_eq]; split <;> omega
  simp only [decodeRune, if_neg e1, if_neg e2, if_pos e3]
  rw [e4, e5, e6]; rfl

theorem decodeRune4 {b0 b1 b2 b3 : Nat} (t : List Nat) (h0 : 0xF0 ≤ b0 ∧ b0 ≤ 0xF4) (h1 : 0x80 ≤ b1 ∧ b1 ≤ 0xBF)
    (h2 : 0x80 ≤ b2 ∧ b2 ≤ 0xBF) (h3 : 0x80 ≤ b3 ∧ b3 ≤ 0xBF) (hl : b0 = 0xF0 → 0x90 ≤ b1)
    (hh : b0 = 0xF4 → b1 ≤ 0x8F) : decodeRune b0 (b1 :: b2 :: b3 :: t) =
      ((b0 - 0xF0) * 262144 + (b1 - 0x80) * 4096 + (b2 - 0x80) * 64 + (b3 - 0x80), 4) := by
  have e1 : ¬ b0 < 0x80 := by omega
  have e2 : ¬ (0xC2 ≤ b0 && b0 ≤ 0xDF) = true := by simp; omega
  have e3 : ¬ (0xE0 ≤ b0 && b0 ≤ 0xEF) = true := by simp; omega
  have e0 : (0xF0 ≤ b0 && b0 ≤ 0xF4) = true := by simpa using h0
  have e4 : isCont b2 = true := by simpa [isCont] using h2
  have e7 : isCont b3 = true := by simpa [isCont] using h3
  have e5 : decide ((if b0 = 0xF0 then 0x90 else 0x80) ≤ b1) = true := by
    simp only [decide_eq_true_eq]; split <;> omega
  have e6 : decide (b1 ≤ (if b0 = 0xF4 then 0x8F else 0xBF)) = true := by
    simp only [decide_eq_true_eq]; split <;> omega
  simp only [decodeRune, if_neg e1, if_neg e2, if_neg e3, if_pos e0]
  rw [e4, e5, e6, e7]; rfl

theorem decodeRune_utf8 {r : Nat} (h : Scalar r) (y : GoString) : firstRune (utf8 r ++ y) = r := by
  unfold utf8 Scalar at *
  split
  · rename_i h1
    simp [firstRune, decodeRune, h1]
  split
  · show (decodeRune (0xC0 + r / 64) ((0x80 + r % 64) :: y)).1 = r
    rw [decodeRune2 _ (by omega) (by omega)]
    simp only
    omega
  split
  · show (decodeRune (0xE0 + r / 4096) ((0x80 + r / 64 % 64) :: (0x80 + r % 64) :: y)).1 = r
    rw [decodeRune3 _ (by omega) (by omega) (by omega) (by omega) (by omega)]
    simp only
    omega
  · show (decodeRune (0xF0 + r / 262144) ((0x80 + r / 4096 % 64) :: (0x80 + r / 64 % 64) :: (0x80 + r % 64) :: y)).1 = r
    rw [decodeRune4 _ (by omega) (by omega) (by omega) (by omega) (by omega) (by omega)]
    simp only
    omega

set_option maxHeartbeats 1000000 in
theorem firstRune_valid {v : GoString} (h : firstRune v ≠ runeError) :
    Scalar (firstRune v) ∧ ∃ y, v = utf8 (firstRune v) ++ y := by
  cases v with
  | nil => exact absurd rfl h
  | cons b0 t =>
    have key : ∀ r, (decodeRune b0 t).1 = r → r ≠ runeError → Scalar r ∧ ∃ y, b0 :: t = utf8 r ++ y := by
      intro r hr hne
      unfold decodeRune at hr
      split at hr
      · rename_i h1
        simp only at hr
        subst hr
        exact ⟨.inl (by omega), t, by simp [utf8, h1]⟩
      split at hr
      · rename_i h2
        simp only [Bool.and_eq_true, decide_eq_true_eq] at h2
        split at hr
        · rename_i b1 t'
          split at hr
          · rename_i h3
            simp only [isCont, Bool.and_eq_true, decide_eq_true_eq] at h3
            simp only at hr
            refine ⟨.inl (by omega), t', ?_⟩
            unfold utf8
            rw [if_neg (by omega), if_pos (by omega)]
            simp only [List.cons_append, List.nil_append, List.cons.injEq, and_true]
            omega
          · exact absurd hr.symm hne
        · exact absurd hr.symm hne
      split at hr
      · rename_i h2
        simp only [Bool.and_eq_true, decide_eq_true_eq] at h2
        split at hr
        · rename_i b1 b2 t'
          simp only at hr
          generalize hlo : (if b0 = 0xE0 then 0xA0 else 0x80) = lo at hr
          generalize hhi : (if b0 = 0xED then 0x9F else 0xBF) = hi at hr
          split at hr
          · rename_i h3
            simp only [isCont, Bool.and_eq_true, decide_eq_true_eq] at h3
            simp only at hr
            have h4 : (b0 = 0xE0 → 0xA0 ≤ b1) ∧ 0x80 ≤ b1 := by split at hlo <;> omega
            have h5 : (b0 = 0xED → b1 ≤ 0x9F) ∧ b1 ≤ 0xBF := by split at hhi <;> omega
            clear hlo hhi
            refine ⟨?_, t', ?_⟩
            · unfold Scalar
              rcases Nat.lt_or_ge b0 0xED with h6 | h6
              · omega
              · rcases Nat.lt_or_ge 0xED b0 with h7 | h7
                · omega
                · have : b0 = 0xED := by omega
                  subst this
                  omega
            unfold utf8
            have h6 : 0x800 ≤ r := by
              by_cases h7 : b0 = 0xE0 <;> omega
            rw [if_neg (by omega), if_neg (by omega), if_pos (by omega)]
            simp only [List.cons_append, List.nil_append, List.cons.injEq, and_true]
            omega
          · exact absurd hr.symm hne
        · exact absurd hr.symm hne
      split at hr
      · rename_i h2
        simp only [Bool.and_eq_true, decide_eq_true_eq] at h2
        split at hr
        · rename_i b1 b2 b3 t'
          simp only at hr
          generalize hlo : (if b0 = 0xF0 then 0x90 else 0x80) = lo at hr
          generalize hhi : (if b0 = 0xF4 then 0x8F else 0xBF) = hi at hr
          split at hr
          · rename_i h3
            simp only [isCont, Bool.and_eq_true, decide_eq_true_eq] at h3
            simp only at hr
            have h4 : (b0 = 0xF0 → 0x90 ≤ b1) ∧ 0x80 ≤ b1 := by split at hlo <;> omega
            have h5 : (b0 = 0xF4 → b1 ≤ 0x8F) ∧ b1 ≤ 0xBF := by split at hhi <;> omega
            clear hlo hhi
            have h6 : 0x10000 ≤ r := by
              by_cases h7 : b0 = 0xF0 <;> omega
            have h7 : r < 0x110000 := by
              by_cases h7 : b0 = 0xF4 <;> omega
            refine ⟨.inr ⟨by omega, h7⟩, t', ?_⟩
            unfold utf8
            rw [if_neg (by omega), if_neg (by omega), if_neg (by omega)]
            simp only [List.cons_append, List.nil_append, List.cons.injEq, and_true]
            omega
          · exact absurd hr.symm hne
        · exact absurd hr.symm hne
      · exact absurd hr.symm hne
    exact key _ rfl h

theorem firstRune_ascii {b : Nat} (h : b < 0x80) (y : GoString) : firstRune (b :: y) = b := by
  simp [firstRune, decodeRune, h]

/-! ## The table -/

theorem lookup_of_nodup {β : Type} : ∀ {l : List (GoString × β)} {k : GoString} {r : β},
    (l.map Prod.fst).Nodup → (k, r) ∈ l → l.lookup k = some r := by
  intro l
  induction l with
  | nil => intro k r _ h; simp at h
  | cons q l ih =>
    intro k r hn h
    obtain ⟨k', r'⟩ := q
    rw [List.map_cons, List.nodup_cons] at hn
    rcases List.mem_cons.1 h with h1 | h1
    · simp only [Prod.mk.injEq] at h1
      simp [List.lookup, h1.1, h1.2]
    · have hne : k ≠ k' := by
        rintro rfl
        exact hn.1 (List.mem_map.2 ⟨_, h1, rfl⟩)
      have hb : (k == k') = false := by simpa using hne
      simp [List.lookup, hb, ih hn.2 h1]

theorem mem_of_lookup {β : Type} : ∀ {l : List (GoString × β)} {k : GoString} {r : β},
    l.lookup k = some r → (k, r) ∈ l := by
  intro l
  induction l with
  | nil => intro k r h; simp [List.lookup] at h
  | cons q l ih =>
    intro k r h
    obtain ⟨k', r'⟩ := q
    rw [List.lookup] at h
    split at h
    · rename_i he
      have : k = k' := by simpa using he
      simp only [Option.some.injEq] at h
      simp [this, h]
    · exact List.mem_cons_of_mem _ (ih h)

/-- A Boolean test that a list of strings has no repetition. -/
def nodupB : List GoString → Bool
  | [] => true
  | k :: l => !l.contains k && nodupB l

theorem nodupB_nodup : ∀ {l : List GoString}, nodupB l = true → l.Nodup := by
  intro l
  induction l with
  | nil => simp
  | cons k l ih => simp only [nodupB, Bool.and_eq_true, List.nodup_cons]; rintro ⟨h1, h2⟩; exact ⟨by simpa using h1, ih h2⟩

theorem tex2uni_nodup : (tex2uni.map Prod.fst).Nodup := nodupB_nodup (by krfl)

theorem tex2uni_nonempty : ∀ q ∈ tex2uni, q.1 ≠ [] := by
  have h : tex2uni.all (fun q => !q.1.isEmpty) = true := by krfl
  intro q hq
  have := List.all_eq_true.1 h q hq
  rintro he
  simp [he] at this

end Verif
