import Verif.Lemmas.Source
/-! # Inductions over parse derivations -/

namespace Verif
open Spec

/-! ## Order of the recorded extents -/

/-- The extents are non-empty, in order, disjoint, and between `lo` and `hi`. -/
def Ordered : Nat → Nat → List (Nat × Nat) → Prop
  | lo, hi, [] => lo ≤ hi
  | lo, hi, (a, b) :: ms => lo ≤ a ∧ a < b ∧ Ordered b hi ms

theorem Ordered.le {lo hi ms} (h : Ordered lo hi ms) : lo ≤ hi := by
  induction ms generalizing lo with
  | nil => exact h
  | cons p ms ih => obtain ⟨h1, h2, h3⟩ := h; have := ih h3; omega

theorem Ordered.append {lo mid hi a b} (h1 : Ordered lo mid a) (h2 : Ordered mid hi b) :
    Ordered lo hi (a ++ b) := by
  induction a generalizing lo with
  | nil =>
    cases b with
    | nil => exact Nat.le_trans h1 h2
    | cons p b => exact ⟨Nat.le_trans h1 h2.1, h2.2⟩
  | cons p a ih => exact ⟨h1.1, h1.2.1, ih h1.2.2⟩

theorem Ordered.mono {lo lo' hi hi' a} (h : Ordered lo hi a) (h1 : lo' ≤ lo) (h2 : hi ≤ hi') :
    Ordered lo' hi' a := by
  induction a generalizing lo lo' with
  | nil => exact Nat.le_trans h1 (Nat.le_trans h h2)
  | cons p a ih => exact ⟨Nat.le_trans h1 h.1, h.2.1, ih h.2.2 (Nat.le_refl _)⟩

theorem marksL_if (n : Node) (l : List Node) :
    marksL (if n.isNil then l else n :: l) = marks n ++ marksL l := by
  cases n <;> simp [Node.isNil, marksL, marks]

theorem marksL_single (n : Node) : marksL [n] = marks n := by simp [marksL]

theorem P.one_shape {U t m s l cl s'} (h : P U (.one t) m s l cl s') : ∃ n, l = [n] ∧ cl = 0 := by
  cases h <;> exact ⟨_, rfl, rfl⟩

/-- A `$` token, by its text. -/
theorem KindBody.dollar {U x t s body} (h : TokAt U x t s body) (ht : t.text = bs!"$") :
    s.off = t.pos + 1 ∧ slice x t.pos (t.pos + 1) = bs!"$" := by
  have hs := h.shape
  have key : t.kind ≠ .eof → t.text = bytesOf body → s.off = t.pos + 1 ∧
      slice x t.pos (t.pos + 1) = bs!"$" := by
    intro hk hb
    have := h.leaf_slice hb
    rw [ht] at this
    exact ⟨this.2, this.1⟩
  unfold KindBody at hs
  split at hs
  · exact key (by simp_all) hs.1
  · exact key (by simp_all) hs.1
  iterate 7
    · obtain ⟨c, rfl, h1, h2⟩ := hs
      exact key (by simp_all) (by simp [h1])
  · rcases hs with ⟨h1, _⟩ | ⟨h1, _⟩ <;> rw [ht] at h1 <;> simp at h1
  · obtain ⟨c, w, nm, _, _, _, h1, _⟩ := hs
    rw [ht] at h1; simp at h1
  · obtain ⟨c, mid, _, _, h1⟩ := hs
    rw [ht] at h1; simp at h1
  · exact key (by simp_all) hs.1
  · rw [ht] at hs; simp at hs
  · exact hs.elim

theorem Stop.closes {U x t s body} (st : Stop) (h : TokAt U x t s body) (ht : st.test t = true) :
    s.off = t.pos + 1 ∧
    match (generalizing := false) st with
    | .never => False
    | .dollar => slice x t.pos (t.pos + 1) = bs!"$"
    | .rbrace => slice x t.pos (t.pos + 1) = bs!"}"
    | .rbrack => slice x t.pos (t.pos + 1) = bs!"]" := by
  cases st with
  | never => simp [Stop.test] at ht
  | dollar => exact KindBody.dollar h (by simpa [Stop.test] using ht)
  | rbrace =>
    have hk : t.kind = .rbrace := by simpa [Stop.test] using ht
    have hs := h.shape
    rw [hk] at hs
    obtain ⟨c, h1, h2, h3⟩ := hs
    exact (h.single h1 h2 h3 (by omega)).2
  | rbrack =>
    have hk : t.kind = .rbrack := by simpa [Stop.test] using ht
    have hs := h.shape
    rw [hk] at hs
    obtain ⟨c, h1, h2, h3⟩ := hs
    exact (h.single h1 h2 h3 (by omega)).2

/-- A token with the text `{` or `[` of `expect`. -/
theorem TokAt.expected {U x t s body v} (h : TokAt U x t s body) (ht : t.text = [v])
    (hv : v ≠ ch!"\\" ∧ v ≠ ch!"%" ∧ v ≠ ch!" ") :
    s.off = t.pos + 1 ∧ slice x t.pos (t.pos + 1) = [v] := by
  have hs := h.shape
  have key : t.text = bytesOf body → s.off = t.pos + 1 ∧ slice x t.pos (t.pos + 1) = [v] := by
    intro hb
    have := h.leaf_slice hb
    rw [ht] at this
    exact ⟨this.2, this.1⟩
  unfold KindBody at hs
  split at hs
  · exact key hs.1
  · exact key hs.1
  iterate 7
    · obtain ⟨c, rfl, h1, h2⟩ := hs
      exact key (by simp [h1])
  · rcases hs with ⟨h1, _⟩ | ⟨h1, _⟩
    · rw [ht] at h1; simp at h1; exact absurd h1 hv.2.2
    · rw [ht] at h1; simp at h1
  · obtain ⟨c, w, nm, _, _, _, h1, _⟩ := hs
    rw [ht] at h1; simp at h1; exact absurd h1.1 hv.1
  · obtain ⟨c, mid, _, _, h1⟩ := hs
    rw [ht] at h1; simp at h1; exact absurd h1.symm hv.2.1
  · exact key hs.1
  · rw [ht] at hs; simp at hs
  · exact hs.elim

theorem Ordered.leaf {lo hi p : Nat} {t : GoString} (h1 : lo ≤ p) (h2 : 0 < t.length)
    (h3 : p + t.length ≤ hi) : Ordered lo hi [(p, p + t.length)] :=
  ⟨h1, by omega, h3⟩

theorem TokAt.leaf_len {U x t s body} (h : TokAt U x t s body)
    (hk : t.kind = .word ∨ t.kind = .number ∨ t.kind = .symbol ∨ t.kind = .lparen ∨ t.kind = .rparen ∨
      t.kind = .lbrack ∨ t.kind = .rbrack ∨ t.kind = .space ∨ t.kind = .lbrace ∨ t.kind = .rbrace) :
    0 < t.text.length ∧ t.pos + t.text.length = s.off := by
  have h1 := (h.leaf_slice (h.leaf hk)).2
  have h2 := h.pos_lt (by intro h; simp [h] at hk)
  omega

/-- The extents recorded by a parse are in source order. -/
theorem P.order {U : Nat → Bool} {x : GoString} {c m s l cl s'} (h : P U c m s l cl s') :
    match (generalizing := false) c with
    | .one t => (∃ body, TokAt U x t s body) → Src x s' ∧ s.off ≤ s'.off ∧ Ordered t.pos s'.off (marksL l)
    | .loop st => Src x s → (st = .never ∨ 0 < s.off) →
        Src x s' ∧ Ordered s.off s'.off (marksL l ++ closer cl) ∧ (st = .never → cl = 0)
    | .args _ => Src x s → Src x s' ∧ Ordered s.off s'.off (marksL l) := by
  induction h with
  | comment hk =>
    rintro ⟨body, ht⟩
    exact ⟨ht.src, Nat.le_refl _, by have := ht.pos_lt (by simp [hk]); simp [marksL, marks, Ordered]; omega⟩
  | @«macro» t m s sig args s' hk hl ha ih =>
    rintro ⟨body, ht⟩
    obtain ⟨h1, h2⟩ := ih ht.src
    have := ht.text_le hk
    refine ⟨h1, h2.le, ?_⟩
    simp only [marksL_single, marks]
    exact ⟨Nat.le_refl _, by omega, h2.mono this.2 (Nat.le_refl _)⟩
  | word hk | number hk | symbol hk | spaceText hk =>
    rintro ⟨body, ht⟩
    have := ht.leaf_len (by simp [hk])
    exact ⟨ht.src, Nat.le_refl _, Ordered.leaf (Nat.le_refl _) this.1 (by omega)⟩
  | delim hk =>
    rintro ⟨body, ht⟩
    have := ht.leaf_len (by rcases hk with hk | hk | hk | hk <;> simp [hk])
    exact ⟨ht.src, Nat.le_refl _, Ordered.leaf (Nat.le_refl _) this.1 (by omega)⟩
  | spaceMath hk =>
    rintro ⟨body, ht⟩
    exact ⟨ht.src, Nat.le_refl _, by have := ht.pos_lt (by simp [hk]); simp [marksL, marks, Ordered]; omega⟩
  | math hk htx _ ih =>
    rintro ⟨body, ht⟩
    have := ht.leaf_len (by simp [hk])
    rw [htx] at this
    simp only [List.length_cons, List.length_nil] at this
    obtain ⟨h1, h2, _⟩ := ih ht.src (.inr (by omega))
    refine ⟨h1, h2.le, ?_⟩
    simp only [marksL_single, marks]
    exact ⟨Nat.le_refl _, by omega, h2.mono (by omega) (Nat.le_refl _)⟩
  | supGroup hk htx _ hsc htx1 _ ih | subGroup hk htx _ hsc htx1 _ ih =>
    rintro ⟨body, ht⟩
    have := ht.leaf_len (by simp [hk])
    rw [htx] at this
    simp only [List.length_cons, List.length_nil] at this
    obtain ⟨b1, ht1, hle⟩ := ht.src.scan hsc
    have h3 := ht1.expected htx1 (by decide)
    obtain ⟨h1, h2, _⟩ := ih ht1.src (.inr (by omega))
    refine ⟨h1, by have := h2.le; omega, ?_⟩
    simp only [marksL_single, marks]
    refine ⟨Nat.le_refl _, by omega, ?_⟩
    have h4 : ∀ {lo hi a b}, Ordered lo hi (a ++ b) → Ordered lo hi a := by
      intro lo hi a b h
      induction a generalizing lo with
      | nil => exact h.le
      | cons p a ih => exact ⟨h.1, h.2.1, ih h.2.2⟩
    exact (h4 h2).mono (by omega) (Nat.le_refl _)
  | supOne hk htx _ hsc _ ih | subOne hk htx _ hsc _ ih =>
    rintro ⟨body, ht⟩
    have := ht.leaf_len (by simp [hk])
    rw [htx] at this
    simp only [List.length_cons, List.length_nil] at this
    obtain ⟨b1, ht1, hle⟩ := ht.src.scan hsc
    obtain ⟨h1, h2', h2⟩ := ih ⟨b1, ht1⟩
    have := ht1.off
    rw [marksL_single] at h2
    refine ⟨h1, by omega, ?_⟩
    simp only [marksL_single, marks]
    exact ⟨Nat.le_refl _, by omega, h2.mono (by omega) (Nat.le_refl _)⟩
  | group hk _ ih =>
    rintro ⟨body, ht⟩
    have := ht.leaf_len (by simp [hk])
    obtain ⟨h1, h2, _⟩ := ih ht.src (.inr (by omega))
    refine ⟨h1, h2.le, ?_⟩
    simp only [marksL_single, marks]
    have h4 : ∀ {lo hi a b}, Ordered lo hi (a ++ b) → Ordered lo hi a := by
      intro lo hi a b h
      induction a generalizing lo with
      | nil => exact h.le
      | cons p a ih => exact ⟨h.1, h.2.1, ih h.2.2⟩
    exact (h4 h2).mono (by omega) (Nat.le_refl _)
  | loopEof hsc hk =>
    intro hs _
    obtain ⟨b1, ht1, hle⟩ := hs.scan hsc
    refine ⟨ht1.src, ?_, fun _ => rfl⟩
    have := ht1.off
    simp [marksL, closer, Ordered]; omega
  | @loopStop st m s t s' hsc hk hst =>
    intro hs h0
    obtain ⟨b1, ht1, hle⟩ := hs.scan hsc
    have h3 := Stop.closes st ht1 hst
    have hn : st ≠ .never := by rintro rfl; simp [Stop.test] at hst
    have h0' : 0 < s.off := by rcases h0 with h0 | h0; exact absurd h0 hn; exact h0
    refine ⟨ht1.src, ?_, fun h => absurd h hn⟩
    have : t.pos ≠ 0 := by omega
    simp only [marksL, closer, this, if_false, List.nil_append]
    exact ⟨hle, by omega, by rw [h3.1]; exact Nat.le_refl _⟩
  | loopCons hsc hk hst h1 h2 ih1 ih2 =>
    intro hs h0
    obtain ⟨b1, ht1, hle⟩ := hs.scan hsc
    obtain ⟨h3, h4', h4⟩ := ih1 ⟨b1, ht1⟩
    have := ht1.pos_lt hk
    obtain ⟨h5, h6, h7⟩ := ih2 h3 (.inr (by omega))
    refine ⟨h5, ?_, h7⟩
    rw [marksL_if, List.append_assoc]
    rw [marksL_single] at h4
    exact Ordered.append (h4.mono hle (Nat.le_refl _)) h6
  | argsNil => intro hs; exact ⟨hs, Nat.le_refl _⟩
  | argsArg _ hsc htx _ _ ih1 ih2 | argsOpt _ _ hsc htx _ _ ih1 ih2 =>
    intro hs
    obtain ⟨b1, ht1, hle⟩ := hs.scan hsc
    have h3 := ht1.expected htx (by decide)
    obtain ⟨h4, h5, _⟩ := ih1 ht1.src (.inr (by omega))
    obtain ⟨h6, h7⟩ := ih2 h4
    refine ⟨h6, ?_⟩
    simp only [marksL, marks]
    exact ⟨hle, by omega, (h5.append h7).mono (by omega) (Nat.le_refl _)⟩
  | argsNoOpt _ _ _ ih => exact ih
  | argsOther _ _ _ ih => exact ih

end Verif
