import Verif.Lemmas.Content
/-! # Extents, positions and sub-trees -/

namespace Verif
open Spec

theorem Ordered.forall {lo hi ms} (h : Ordered lo hi ms) : ∀ p ∈ ms, lo ≤ p.1 ∧ p.1 < p.2 ∧ p.2 ≤ hi := by
  induction ms generalizing lo with
  | nil => simp
  | cons q ms ih =>
    intro p hp
    obtain ⟨h1, h2, h3⟩ := h
    rcases List.mem_cons.1 hp with rfl | hp
    · exact ⟨h1, h2, h3.le⟩
    · have := ih h3 p hp
      exact ⟨by omega, this.2⟩

theorem Ordered.pairwise {lo hi ms} (h : Ordered lo hi ms) : ms.Pairwise fun a b => a.2 ≤ b.1 := by
  induction ms generalizing lo with
  | nil => simp
  | cons q ms ih =>
    obtain ⟨h1, h2, h3⟩ := h
    exact List.Pairwise.cons (fun p hp => (h3.forall p hp).1) (ih h3)

theorem Ordered.split {lo hi a b} (h : Ordered lo hi (a ++ b)) :
    ∃ mid, Ordered lo mid a ∧ Ordered mid hi b := by
  induction a generalizing lo with
  | nil => exact ⟨lo, Nat.le_refl _, h⟩
  | cons p a ih =>
    obtain ⟨mid, h1, h2⟩ := ih h.2.2
    exact ⟨mid, ⟨h.1, h.2.1, h1⟩, h2⟩

theorem Ordered.infix {lo hi a b} (h : Ordered lo hi b) (hab : a <:+: b) :
    ∃ lo' hi', lo ≤ lo' ∧ hi' ≤ hi ∧ Ordered lo' hi' a := by
  obtain ⟨s, t, rfl⟩ := hab
  obtain ⟨m1, h1, h2⟩ := h.split
  obtain ⟨m2, h3, h4⟩ := h1.split
  exact ⟨m2, m1, h3.le, h2.le, h4⟩

mutual
theorem marks_infix : ∀ (n k : Node), k ∈ allNodes n → marks k <:+: marks n
  | .nil, k, h => by simp only [allNodes, List.mem_singleton] at h; subst h; exact List.infix_refl _
  | .ident _ _, k, h => by
    simp only [allNodes, List.mem_singleton] at h; subst h; exact List.infix_refl _
  | .word _ _, k, h => by
    simp only [allNodes, List.mem_singleton] at h; subst h; exact List.infix_refl _
  | .lit _ _, k, h => by
    simp only [allNodes, List.mem_singleton] at h; subst h; exact List.infix_refl _
  | .sym _ _, k, h => by
    simp only [allNodes, List.mem_singleton] at h; subst h; exact List.infix_refl _
  | .list l, k, h => by
    simp only [allNodes, List.mem_cons] at h
    rcases h with rfl | h
    · exact List.infix_refl _
    · simp only [marks]; exact marksL_infix l k h
  | .macro none l, k, h => by
    simp only [allNodes, List.mem_cons] at h
    rcases h with rfl | h
    · exact List.infix_refl _
    · simp only [marks]; exact marksL_infix l k h
  | .macro (some _) l, k, h => by
    simp only [allNodes, List.mem_cons] at h
    rcases h with rfl | h
    · exact List.infix_refl _
    · simp only [marks]; exact List.infix_cons (marksL_infix l k h)
  | .arg _ l _, k, h => by
    simp only [allNodes, List.mem_cons] at h
    rcases h with rfl | h
    · exact List.infix_refl _
    · simp only [marks]
      exact List.infix_cons ((marksL_infix l k h).trans (List.prefix_append _ _).isInfix)
  | .optArg _ l _, k, h => by
    simp only [allNodes, List.mem_cons] at h
    rcases h with rfl | h
    · exact List.infix_refl _
    · simp only [marks]
      exact List.infix_cons ((marksL_infix l k h).trans (List.prefix_append _ _).isInfix)
  | .math _ _ l _, k, h => by
    simp only [allNodes, List.mem_cons] at h
    rcases h with rfl | h
    · exact List.infix_refl _
    · simp only [marks]
      exact List.infix_cons ((marksL_infix l k h).trans (List.prefix_append _ _).isInfix)
  | .sub _ n, k, h => by
    simp only [allNodes, List.mem_cons] at h
    rcases h with rfl | h
    · exact List.infix_refl _
    · simp only [marks]; exact List.infix_cons (marks_infix n k h)
  | .sup _ n, k, h => by
    simp only [allNodes, List.mem_cons] at h
    rcases h with rfl | h
    · exact List.infix_refl _
    · simp only [marks]; exact List.infix_cons (marks_infix n k h)
theorem marksL_infix : ∀ (l : List Node) (k : Node), k ∈ allNodesL l → marks k <:+: marksL l
  | [], k, h => by simp [allNodesL] at h
  | n :: l, k, h => by
    simp only [allNodesL, List.mem_append] at h
    simp only [marksL]
    rcases h with h | h
    · exact (marks_infix n k h).trans (List.prefix_append _ _).isInfix
    · exact (marksL_infix l k h).trans (List.suffix_append _ _).isInfix
end

/-- The extent of a leaf. -/
def extent (q : Nat × GoString) : Nat × Nat := (q.1, q.1 + q.2.length)

mutual
theorem leaves_sublist : ∀ n : Node, List.Sublist ((leaves n).map extent) (marks n)
  | .nil => by simp [leaves, marks]
  | .ident _ _ => by simp [leaves, marks, extent]
  | .word _ _ => by simp [leaves, marks, extent]
  | .lit _ _ => by simp [leaves, marks, extent]
  | .sym _ _ => by simp [leaves, marks, extent]
  | .list l => by simp only [leaves, marks]; exact leavesL_sublist l
  | .macro none l => by simp only [leaves, marks]; exact leavesL_sublist l
  | .macro (some _) l => by
    simp only [leaves, marks, List.map_cons]
    exact List.Sublist.cons_cons _ (leavesL_sublist l)
  | .arg _ l _ => by
    simp only [leaves, marks]
    exact List.Sublist.cons _ ((leavesL_sublist l).trans (List.sublist_append_left _ _))
  | .optArg _ l _ => by
    simp only [leaves, marks]
    exact List.Sublist.cons _ ((leavesL_sublist l).trans (List.sublist_append_left _ _))
  | .math _ _ l _ => by
    simp only [leaves, marks]
    exact List.Sublist.cons _ ((leavesL_sublist l).trans (List.sublist_append_left _ _))
  | .sub _ n => by simp only [leaves, marks]; exact List.Sublist.cons _ (leaves_sublist n)
  | .sup _ n => by simp only [leaves, marks]; exact List.Sublist.cons _ (leaves_sublist n)
theorem leavesL_sublist : ∀ l : List Node, List.Sublist ((leavesL l).map extent) (marksL l)
  | [] => by simp [leavesL, marksL]
  | n :: l => by
    simp only [leavesL, marksL, List.map_append]
    exact List.Sublist.append (leaves_sublist n) (leavesL_sublist l)
end

/-- A parse result: the extents are ordered within the source. -/
theorem parse_ordered {U x root} (h : parseExpr U x = .ok root) : Ordered 0 x.length (marks root) := by
  obtain ⟨l, s', rfl, hp, _⟩ := parseExpr_sound h
  obtain ⟨h1, h2, _⟩ := hp.order (x := x) (Src.init x) (.inl rfl)
  simp only [closer_zero, List.append_nil] at h2
  simp only [marks]
  exact h2.mono (Nat.zero_le _) h1.off_le

theorem parse_local {U x root} (h : parseExpr U x = .ok root) : ∀ k ∈ allNodes root, Local x k := by
  obtain ⟨l, s', rfl, hp, _⟩ := parseExpr_sound h
  obtain ⟨h1, _⟩ := hp.local (x := x) (Src.init x) (.inl rfl)
  intro k hk
  simp only [allNodes, List.mem_cons] at hk
  rcases hk with rfl | hk
  · trivial
  · exact h1 k hk

/-! ## `Pos` and `End` against the recorded extents -/

/-- `posOf` is the start of the first extent, `endOf` a bound of the last one. -/
def PosOK (n : Node) : Prop :=
  ∃ a ms b, marks n = a :: ms ∧ (marks n).getLast? = some b ∧ n.posOf = some (a.1 : Int) ∧
    (n.endOf = some (b.1 : Int) ∨ n.endOf = some (b.2 : Int))

def EndOKL (l : List Node) : Prop :=
  ∀ n l', l = n :: l' → ∃ a ms b, marksL l = a :: ms ∧ (marksL l).getLast? = some b ∧
    n.posOf = some (a.1 : Int) ∧ ∀ d, (Node.endOfLast d l = some (b.1 : Int) ∨ Node.endOfLast d l = some (b.2 : Int))

theorem posOK_leaf (p : Nat) (t : GoString) (n : Node) (h1 : marks n = [(p, p + t.length)])
    (h2 : n.posOf = some (p : Int)) (h3 : n.endOf = some ((p : Int) + t.length)) : PosOK n :=
  ⟨_, _, _, h1, by rw [h1]; rfl, h2, .inr (by rw [h3]; simp)⟩

theorem getLast?_cons_append_closer {a : Nat × Nat} {ms : List (Nat × Nat)} {b : Nat} (h : b ≠ 0) :
    (a :: (ms ++ closer b)).getLast? = some (b, b + 1) := by
  rw [← List.cons_append, closer, if_neg h, List.getLast?_append]
  rfl

mutual
theorem plain_pos : ∀ n : Node, (∀ k ∈ allNodes n, Plain k) → PosOK n
  | .nil, h => absurd rfl (h .nil (by simp [allNodes])).1
  | .ident p t, _ => posOK_leaf p t _ (by simp [marks]) (by simp [Node.posOf]) (by simp [Node.endOf])
  | .word p t, _ => posOK_leaf p t _ (by simp [marks]) (by simp [Node.posOf]) (by simp [Node.endOf])
  | .lit p t, _ => posOK_leaf p t _ (by simp [marks]) (by simp [Node.posOf]) (by simp [Node.endOf])
  | .sym p t, _ => posOK_leaf p t _ (by simp [marks]) (by simp [Node.posOf]) (by simp [Node.endOf])
  | .list l, h => by
    have hl := plain_posL l fun k hk => h k (by simp only [allNodes]; exact List.mem_cons_of_mem _ hk)
    cases l with
    | nil => exact absurd rfl (h (.list []) (by simp [allNodes])).2.1
    | cons n l =>
      obtain ⟨a, ms, b, h1, h2, h3, h4⟩ := hl n l rfl
      exact ⟨a, ms, b, by simpa only [marks] using h1, by simpa only [marks] using h2,
        by simpa [Node.posOf] using h3, by simpa [Node.endOf] using h4 _⟩
  | .macro none l, h => absurd rfl ((h (.macro none l) (by simp [allNodes])).2.2.2 l)
  | .macro (some (p, name)) l, h => by
    have hl := plain_posL l fun k hk => h k (by simp only [allNodes]; exact List.mem_cons_of_mem _ hk)
    cases l with
    | nil =>
      exact ⟨_, _, _, by simp only [marks]; rfl, by simp only [marks, marksL]; rfl,
        by simp [Node.posOf], .inr (by simp [Node.endOf, Node.endOfLast])⟩
    | cons n l =>
      obtain ⟨a, ms, b, h1, h2, h3, h4⟩ := hl n l rfl
      refine ⟨_, _, b, by simp only [marks]; rfl, ?_, by simp [Node.posOf], by
        simp only [Node.endOf]; exact h4 _⟩
      simp only [marks]
      rw [h1] at h2 ⊢
      rw [List.getLast?_cons_cons]
      exact h2
  | .arg a l b, h => by
    have hb : b ≠ 0 := by
      rintro rfl
      have := (h (.arg a l 0) (by simp [allNodes])).2.2.1
      simp [isOpen] at this
    exact ⟨_, _, _, by simp only [marks]; rfl, by simp only [marks]; exact getLast?_cons_append_closer hb,
      by simp [Node.posOf], .inl (by simp [Node.endOf])⟩
  | .optArg a l b, h => by
    have hb : b ≠ 0 := by
      rintro rfl
      have := (h (.optArg a l 0) (by simp [allNodes])).2.2.1
      simp [isOpen] at this
    exact ⟨_, _, _, by simp only [marks]; rfl, by simp only [marks]; exact getLast?_cons_append_closer hb,
      by simp [Node.posOf], .inl (by simp [Node.endOf])⟩
  | .math d a l b, h => by
    have hb : b ≠ 0 := by
      rintro rfl
      have := (h (.math d a l 0) (by simp [allNodes])).2.2.1
      simp [isOpen] at this
    exact ⟨_, _, _, by simp only [marks]; rfl, by simp only [marks]; exact getLast?_cons_append_closer hb,
      by simp [Node.posOf], .inl (by simp [Node.endOf])⟩
  | .sub p n, h => by
    obtain ⟨a, ms, b, h1, h2, h3, h4⟩ := plain_pos n fun k hk => h k (by
      simp only [allNodes]; exact List.mem_cons_of_mem _ hk)
    refine ⟨_, _, b, by simp only [marks]; rfl, ?_, by simp [Node.posOf], by simpa only [Node.endOf] using h4⟩
    simp only [marks]
    rw [h1] at h2 ⊢
    rw [List.getLast?_cons_cons]
    exact h2
  | .sup p n, h => by
    obtain ⟨a, ms, b, h1, h2, h3, h4⟩ := plain_pos n fun k hk => h k (by
      simp only [allNodes]; exact List.mem_cons_of_mem _ hk)
    refine ⟨_, _, b, by simp only [marks]; rfl, ?_, by simp [Node.posOf], by simpa only [Node.endOf] using h4⟩
    simp only [marks]
    rw [h1] at h2 ⊢
    rw [List.getLast?_cons_cons]
    exact h2
theorem plain_posL : ∀ l : List Node, (∀ k ∈ allNodesL l, Plain k) → EndOKL l
  | [], _ => by intro n l' h; simp at h
  | n :: l, h => by
    intro n' l' he
    obtain ⟨rfl, rfl⟩ := List.cons.inj he
    obtain ⟨a, ms, b, h1, h2, h3, h4⟩ := plain_pos n fun k hk => h k (by
      simp only [allNodesL]; exact List.mem_append_left _ hk)
    have hl := plain_posL l fun k hk => h k (by
      simp only [allNodesL]; exact List.mem_append_right _ hk)
    cases l with
    | nil =>
      refine ⟨a, ms, b, by simpa [marksL] using h1, by simpa [marksL] using h2, h3, fun d => ?_⟩
      simpa only [Node.endOfLast] using h4
    | cons n2 l =>
      obtain ⟨a2, ms2, b2, h5, h6, h7, h8⟩ := hl n2 l rfl
      refine ⟨a, ms ++ marksL (n2 :: l), b2, ?_, ?_, h3, fun d => ?_⟩
      · simp only [marksL] at h5 ⊢; rw [h1]; simp
      · rw [show marksL (n :: n2 :: l) = marks n ++ marksL (n2 :: l) by simp [marksL]]
        rw [List.getLast?_append, h6]; simp
      · simp only [Node.endOfLast]; exact h8 d
end

end Verif
