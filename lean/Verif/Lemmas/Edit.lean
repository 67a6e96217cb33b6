import Verif.Lemmas.Excerpt
import Verif.Spec.Excerpt
/-! # Sentences with a part replaced, for C97 -/

namespace Verif
open Spec
variable {a b N : Nat} {new : List Node}

theorem editL_keep (n : Node) (l : List Node) : editL a b N new (keep n l) = keep (edit a b N new n) (editL a b N new l) := by
  cases n <;> simp [keep, edit, editL]

theorem move_before {p : Nat} (h : p < b) : movePos a b N p = p := if_pos h

/-- Induction over the grammar. -/
theorem grammar_all {P1 : Bool → List Lexed → Node → List Lexed → Prop} {P2 : Bool → Until → List Lexed → List Node → Nat → List Lexed → Prop}
    {P3 : Bool → Nat → List Lexed → List Node → List Lexed → Prop}
    (c1 : ∀ m t o e L, P1 m (⟨.word t, o, e⟩ :: L) (.word o t) L)
    (c2 : ∀ m t o e L, P1 m (⟨.number t, o, e⟩ :: L) (.lit o t) L)
    (c3 : ∀ m o e L, P1 m (⟨.comment, o, e⟩ :: L) .nil L)
    (c4 : ∀ t o e L, P1 false (⟨.blank t, o, e⟩ :: L) (.sym o t) L)
    (c5 : ∀ t o e L, P1 true (⟨.blank t, o, e⟩ :: L) .nil L)
    (c6 : ∀ m c o e L, c ∈ bs!"=<>/*-+!?':,;.[]()" → P1 m (⟨.mark c, o, e⟩ :: L) (.sym o [c]) L)
    (c7 : ∀ m o e L l p L', Items true .dollar L l p L' → P2 true .dollar L l p L' → P1 m (⟨.mark ch!"$", o, e⟩ :: L) (.math bs!"$" o l p) L')
    (c8 : ∀ o e L l p L', Items true .brace L l p L' → P2 true .brace L l p L' → P1 true (⟨.mark ch!"{", o, e⟩ :: L) (.list l) L')
    (c9 : ∀ m o e e' L l p L', Items m .brace L l p L' → P2 m .brace L l p L' → P1 m (⟨.mark ch!"^", o, e⟩ :: ⟨.mark ch!"{", e, e'⟩ :: L) (.sup o (.list l)) L')
    (c10 : ∀ m o e L n L', Item1 m L n L' → P1 m L n L' → P1 m (⟨.mark ch!"^", o, e⟩ :: L) (.sup o n) L')
    (c11 : ∀ m o e e' L l p L', Items m .brace L l p L' → P2 m .brace L l p L' → P1 m (⟨.mark ch!"_", o, e⟩ :: ⟨.mark ch!"{", e, e'⟩ :: L) (.sub o (.list l)) L')
    (c12 : ∀ m o e L n L', Item1 m L n L' → P1 m L n L' → P1 m (⟨.mark ch!"_", o, e⟩ :: L) (.sub o n) L')
    (c13 : ∀ m o e e' L l p L1 args L', Items m .bracket L l p L1 → Args m 1 L1 args L' → P2 m .bracket L l p L1 → P3 m 1 L1 args L' →
      P1 m (⟨.name bs!"\\sqrt", o, e⟩ :: ⟨.mark ch!"[", e, e'⟩ :: L) (.macro (some (o, bs!"\\sqrt")) (.optArg e l p :: args)) L')
    (c14 : ∀ m t o e L args L', Known t → Args m (arity t) L args L' → (t = bs!"\\sqrt" → ∀ e', L.head? ≠ some ⟨.mark ch!"[", e, e'⟩) → P3 m (arity t) L args L' →
      P1 m (⟨.name t, o, e⟩ :: L) (.macro (some (o, t)) args) L')
    (c15 : ∀ m u, P2 m u [] [] 0 [])
    (c16 : ∀ m u k o e L, u.mark = some k → P2 m u (⟨k, o, e⟩ :: L) [] o L)
    (c17 : ∀ m u x L n L1 l p L', u.mark ≠ some x.lex → Item1 m (x :: L) n L1 → Items m u L1 l p L' → P1 m (x :: L) n L1 → P2 m u L1 l p L' → P2 m u (x :: L) (keep n l) p L')
    (c18 : ∀ m L, P3 m 0 L [] L)
    (c19 : ∀ m n o e L l p L1 args L', Items m .brace L l p L1 → Args m n L1 args L' → P2 m .brace L l p L1 → P3 m n L1 args L' →
      P3 m (n + 1) (⟨.mark ch!"{", o, e⟩ :: L) (.arg o l p :: args) L') :
    (∀ m L n L1, Item1 m L n L1 → P1 m L n L1) ∧ (∀ m u L l p L1, Items m u L l p L1 → P2 m u L l p L1) ∧ (∀ m k L l L1, Args m k L l L1 → P3 m k L l L1) := by
  refine ⟨fun _ _ _ _ h => Item1.rec (motive_1 := fun m L n L1 _ => P1 m L n L1) (motive_2 := fun m u L l p L1 _ => P2 m u L l p L1)
      (motive_3 := fun m k L l L1 _ => P3 m k L l L1) @c1 @c2 @c3 @c4 @c5 @c6 @c7 @c8 @c9 @c10 @c11 @c12 @c13 @c14 @c15 @c16 @c17 @c18 @c19 h,
    fun _ _ _ _ _ _ h => Items.rec (motive_1 := fun m L n L1 _ => P1 m L n L1) (motive_2 := fun m u L l p L1 _ => P2 m u L l p L1)
      (motive_3 := fun m k L l L1 _ => P3 m k L l L1) @c1 @c2 @c3 @c4 @c5 @c6 @c7 @c8 @c9 @c10 @c11 @c12 @c13 @c14 @c15 @c16 @c17 @c18 @c19 h,
    fun _ _ _ _ _ h => Args.rec (motive_1 := fun m L n L1 _ => P1 m L n L1) (motive_2 := fun m u L l p L1 _ => P2 m u L l p L1)
      (motive_3 := fun m k L l L1 _ => P3 m k L l L1) @c1 @c2 @c3 @c4 @c5 @c6 @c7 @c8 @c9 @c10 @c11 @c12 @c13 @c14 @c15 @c16 @c17 @c18 @c19 h⟩

/-! ## Before -/

/-- Items before the place are not changed. -/
theorem same_before (hb : a < b) : (∀ m L n L1, Item1 m L n L1 → (∀ x ∈ L, x.start < a) → edit a b N new n = n) ∧
    (∀ m u L l p L1, Items m u L l p L1 → (∀ x ∈ L, x.start < a) → editL a b N new l = l ∧ movePos a b N p = p) ∧
    ∀ m k L l L1, Args m k L l L1 → (∀ x ∈ L, x.start < a) → editL a b N new l = l := by
  refine grammar_all ?_ ?_ ?_ ?_ ?_ ?_ ?_ ?_ ?_ ?_ ?_ ?_ ?_ ?_ ?_ ?_ ?_ ?_ ?_
  all_goals try (intros; rfl)
  · intro m t o e L hp
    have := hp ⟨.word t, o, e⟩ (by simp)
    simp only [edit, move_before (show o < b from Nat.lt_trans this hb)]
  · intro m t o e L hp
    have := hp ⟨.number t, o, e⟩ (by simp)
    simp only [edit, move_before (show o < b from Nat.lt_trans this hb)]
  · intro t o e L hp
    have := hp ⟨.blank t, o, e⟩ (by simp)
    simp only [edit, move_before (show o < b from Nat.lt_trans this hb)]
  · intro m c o e L hc hp
    have := hp ⟨.mark c, o, e⟩ (by simp)
    simp only [edit, move_before (show o < b from Nat.lt_trans this hb)]
  · intro m o e L l p L' _ ih hp
    have h1 : o < a := hp ⟨.mark ch!"$", o, e⟩ (by simp)
    obtain ⟨i1, i2⟩ := ih fun x hx => hp x (by simp [hx])
    simp only [edit, move_before (show o < b from Nat.lt_trans h1 hb), i1, i2, if_neg (Nat.ne_of_lt h1)]
  · intro o e L l p L' _ ih hp
    obtain ⟨i1, i2⟩ := ih fun x hx => hp x (by simp [hx])
    simp only [edit, i1]
  · intro m o e e' L l p L' _ ih hp
    have h1 : o < a := hp ⟨.mark ch!"^", o, e⟩ (by simp)
    obtain ⟨i1, i2⟩ := ih fun x hx => hp x (by simp [hx])
    simp only [edit, move_before (show o < b from Nat.lt_trans h1 hb), i1]
  · intro m o e L n L' _ ih hp
    have h1 : o < a := hp ⟨.mark ch!"^", o, e⟩ (by simp)
    simp only [edit, move_before (show o < b from Nat.lt_trans h1 hb), ih fun x hx => hp x (by simp [hx])]
  · intro m o e e' L l p L' _ ih hp
    have h1 : o < a := hp ⟨.mark ch!"_", o, e⟩ (by simp)
    obtain ⟨i1, i2⟩ := ih fun x hx => hp x (by simp [hx])
    simp only [edit, move_before (show o < b from Nat.lt_trans h1 hb), i1]
  · intro m o e L n L' _ ih hp
    have h1 : o < a := hp ⟨.mark ch!"_", o, e⟩ (by simp)
    simp only [edit, move_before (show o < b from Nat.lt_trans h1 hb), ih fun x hx => hp x (by simp [hx])]
  · intro m o e e' L l p L1 args L' h1 h2 ih1 ih2 hp
    obtain ⟨D, rfl⟩ := items_suffix h1
    have ho : o < a := hp ⟨.name bs!"\\sqrt", o, e⟩ (by simp)
    have he : e < a := hp ⟨.mark ch!"[", e, e'⟩ (by simp)
    obtain ⟨i1, i2⟩ := ih1 fun x hx => hp x (by simp only [List.mem_cons]; tauto)
    have i3 := ih2 fun x hx => hp x (by simp [hx])
    simp only [edit, editL, Option.map_some, move_before (show o < b from Nat.lt_trans ho hb), move_before (show e < b from Nat.lt_trans he hb), i1, i2, i3, if_neg (Nat.ne_of_lt he)]
  · intro m t o e L args L' hk h1 hh ih hp
    have ho : o < a := hp ⟨.name t, o, e⟩ (by simp)
    simp only [edit, Option.map_some, move_before (show o < b from Nat.lt_trans ho hb), ih fun x hx => hp x (by simp [hx])]
  · intro m u _; exact ⟨rfl, move_before (by omega)⟩
  · intro m u k o e L hk hp
    have ho : o < a := hp ⟨k, o, e⟩ (by simp)
    exact ⟨rfl, move_before (by omega)⟩
  · intro m u x L n L1 l p L' hx h1 h2 ih1 ih2 hp
    obtain ⟨D, -, e⟩ := item1_suffix h1
    obtain ⟨i1, i2⟩ := ih2 fun y hy => hp y (by rw [e]; simp [hy])
    rw [editL_keep, ih1 hp, i1]
    exact ⟨rfl, i2⟩
  · intro m n o e L l p L1 args L' h1 h2 ih1 ih2 hp
    obtain ⟨D, rfl⟩ := items_suffix h1
    have ho : o < a := hp ⟨.mark ch!"{", o, e⟩ (by simp)
    obtain ⟨i1, i2⟩ := ih1 fun x hx => hp x (by simp only [List.mem_cons]; tauto)
    have i3 := ih2 fun x hx => hp x (by simp [hx])
    simp only [edit, editL, move_before (show o < b from Nat.lt_trans ho hb), i1, i2, i3, if_neg (Nat.ne_of_lt ho)]

/-! ## After -/

/-- A lexeme after the place, moved. -/
def far (a b N : Nat) (x : Lexed) : Lexed := ⟨x.lex, x.start - b + (a + 1 + N), x.stop - b + (a + 1 + N)⟩

theorem move_after {p : Nat} (h : b < p) : movePos a b N p = p - b + (a + 1 + N) := if_neg (by omega)

theorem moved_after (hb : a < b) : (∀ m L n L1, Item1 m L n L1 → (∀ x ∈ L, b < x.start ∧ x.start ≤ x.stop) → Item1 m (L.map (far a b N)) (edit a b N new n) (L1.map (far a b N))) ∧
    (∀ m u L l p L1, Items m u L l p L1 → (∀ x ∈ L, b < x.start ∧ x.start ≤ x.stop) → Items m u (L.map (far a b N)) (editL a b N new l) (movePos a b N p) (L1.map (far a b N))) ∧
    ∀ m n L l L1, Args m n L l L1 → (∀ x ∈ L, b < x.start ∧ x.start ≤ x.stop) → Args m n (L.map (far a b N)) (editL a b N new l) (L1.map (far a b N)) := by
  refine grammar_all ?_ ?_ ?_ ?_ ?_ ?_ ?_ ?_ ?_ ?_ ?_ ?_ ?_ ?_ ?_ ?_ ?_ ?_ ?_
  · intro m t o e L hp
    rw [edit, move_after (hp _ (by simp : (⟨.word t, o, e⟩ : Lexed) ∈ _)).1]; exact .word
  · intro m t o e L hp
    rw [edit, move_after (hp _ (by simp : (⟨.number t, o, e⟩ : Lexed) ∈ _)).1]; exact .number
  · intros; exact .comment
  · intro t o e L hp
    rw [edit, move_after (hp _ (by simp : (⟨.blank t, o, e⟩ : Lexed) ∈ _)).1]; exact .blank
  · intros; exact .mathBlank
  · intro m c o e L hc hp
    rw [edit, move_after (hp _ (by simp : (⟨.mark c, o, e⟩ : Lexed) ∈ _)).1]; exact .symbol hc
  · intro m o e L l p L' _ ih hp
    have ho : b < o := (hp _ (by simp : (⟨.mark ch!"$", o, e⟩ : Lexed) ∈ _)).1
    rw [edit, move_after ho, if_neg (by omega)]
    exact .math (ih fun x hx => hp x (by simp [hx]))
  · intro o e L l p L' _ ih hp; exact .group (ih fun x hx => hp x (by simp [hx]))
  · intro m o e e' L l p L' _ ih hp
    rw [edit, move_after (hp _ (by simp : (⟨.mark ch!"^", o, e⟩ : Lexed) ∈ _)).1]
    exact .supGroup (ih fun x hx => hp x (by simp [hx]))
  · intro m o e L n L' _ ih hp
    rw [edit, move_after (hp _ (by simp : (⟨.mark ch!"^", o, e⟩ : Lexed) ∈ _)).1]
    exact .sup (ih fun x hx => hp x (by simp [hx]))
  · intro m o e e' L l p L' _ ih hp
    rw [edit, move_after (hp _ (by simp : (⟨.mark ch!"_", o, e⟩ : Lexed) ∈ _)).1]
    exact .subGroup (ih fun x hx => hp x (by simp [hx]))
  · intro m o e L n L' _ ih hp
    rw [edit, move_after (hp _ (by simp : (⟨.mark ch!"_", o, e⟩ : Lexed) ∈ _)).1]
    exact .sub (ih fun x hx => hp x (by simp [hx]))
  · intro m o e e' L l p L1 args L' h1 h2 ih1 ih2 hp
    obtain ⟨D, e1⟩ := items_suffix h1
    have ho : b < o := (hp _ (by simp : (⟨.name bs!"\\sqrt", o, e⟩ : Lexed) ∈ _)).1
    have he : b < e := (hp ⟨.mark ch!"[", e, e'⟩ (by simp)).1
    rw [edit, editL, edit, Option.map_some, move_after ho, move_after he, if_neg (by omega)]
    exact .root (ih1 fun x hx => hp x (by simp [hx])) (ih2 fun x hx => hp x (by simp [e1, hx]))
  · intro m t o e L args L' hk h1 hh ih hp
    obtain ⟨ho, he⟩ := hp _ (by simp : (⟨.name t, o, e⟩ : Lexed) ∈ _)
    dsimp only at ho he
    rw [edit, Option.map_some, move_after ho]
    refine .macro hk (ih fun x hx => hp x (by simp [hx])) fun ht e' hd => ?_
    cases L with
    | nil => cases hd
    | cons x L =>
      obtain ⟨k, s, s'⟩ := x
      have hs : b < s := (hp ⟨k, s, s'⟩ (by simp)).1
      simp only [List.map_cons, List.head?_cons, far, Option.some.injEq, Lexed.mk.injEq] at hd
      obtain ⟨rfl, h1, -⟩ := hd
      have : s = e := by omega
      subst this
      exact hh ht s' rfl
  · intro m u _
    rw [move_before (show 0 < b by omega)]; exact .eof
  · intro m u k o e L hk hp
    rw [move_after (hp _ (by simp : (⟨k, o, e⟩ : Lexed) ∈ _)).1]; exact .close hk
  · intro m u x L n L1 l p L' hx h1 h2 ih1 ih2 hp
    obtain ⟨D, -, e⟩ := item1_suffix h1
    rw [editL_keep]
    exact .item hx (ih1 hp) (ih2 fun y hy => hp y (by rw [e]; simp [hy]))
  · intro m L _; exact .done
  · intro m n o e L l p L1 args L' h1 h2 ih1 ih2 hp
    obtain ⟨D, e1⟩ := items_suffix h1
    have ho : b < o := (hp _ (by simp : (⟨.mark ch!"{", o, e⟩ : Lexed) ∈ _)).1
    rw [editL, edit, move_after ho, if_neg (by omega)]
    exact .more (ih1 fun x hx => hp x (by simp [hx])) (ih2 fun x hx => hp x (by simp [e1, hx]))

/-! ## In it -/

theorem items_unique {m u L l p L1 l' p' L1'} (h : Items m u L l p L1) (h' : Items m u L l' p' L1') : l = l' ∧ p = p' ∧ L1 = L1' := by
  generalize hn : L.length = n
  induction n using Nat.strongRecOn generalizing L l l' with
  | _ n ih =>
    cases h with
    | eof => cases h'; exact ⟨rfl, rfl, rfl⟩
    | close hk =>
      cases h' with
      | close => exact ⟨rfl, rfl, rfl⟩
      | item h1 => exact absurd hk h1
    | item hx h1 h2 =>
      cases h' with
      | close hk => exact absurd hk hx
      | item _ h1' h2' =>
        obtain ⟨rfl, rfl⟩ := item1_unique h1 h1'
        obtain ⟨D, hD, e⟩ := item1_suffix h1
        obtain ⟨rfl, rfl, rfl⟩ := ih _ (by
          have := congrArg List.length e
          have := List.length_pos_iff.2 hD
          simp at *
          omega) h2 h2' rfl
        exact ⟨rfl, rfl, rfl⟩

/-- Lexemes in their order. -/
def InLine (L : List Lexed) : Prop := L.Pairwise (fun x y => x.start < y.start) ∧ ∀ x ∈ L, x.start ≤ x.stop

theorem InLine.tail {A B : List Lexed} (h : InLine (A ++ B)) : InLine B :=
  ⟨(List.pairwise_append.1 h.1).2.1, fun x hx => h.2 x (by simp [hx])⟩

variable {op : Lexed} {R : List Lexed}

theorem peel {x : Lexed} {L pre : List Lexed} (ho : InLine (x :: L)) (e : x :: L = pre ++ op :: R) (ha : op.start = a) (hy : ∃ y ∈ L, y.start = a) :
    ∃ pre', pre = x :: pre' ∧ L = pre' ++ op :: R := by
  cases pre with
  | nil =>
    rw [List.nil_append] at e
    injection e with e1 e2
    obtain ⟨y, hy, hya⟩ := hy
    have := (List.pairwise_cons.1 ho.1).1 y hy
    rw [e1] at this
    omega
  | cons z pre =>
    rw [List.cons_append] at e
    injection e with e1 e2
    exact ⟨pre, by rw [e1], e2⟩

theorem lt_of {x : Lexed} {L : List Lexed} (ho : InLine (x :: L)) (hy : ∃ y ∈ L, y.start = a) : x.start < a := by
  obtain ⟨y, hy, rfl⟩ := hy
  exact (List.pairwise_cons.1 ho.1).1 y hy

theorem peels {D0 L pre : List Lexed} (ho : InLine (D0 ++ L)) (e : D0 ++ L = pre ++ op :: R) (ha : op.start = a) (hy : ∃ y ∈ L, y.start = a) :
    ∃ pre', pre = D0 ++ pre' ∧ L = pre' ++ op :: R ∧ ∀ x ∈ D0, x.start < a := by
  have hlt : ∀ x ∈ D0, x.start < a := by
    intro x hx
    obtain ⟨y, hy, hya⟩ := hy
    rw [← hya]
    exact (List.pairwise_append.1 ho.1).2.2 x hx y hy
  induction D0 generalizing pre with
  | nil => exact ⟨pre, rfl, e, by simp⟩
  | cons x D0 ih =>
    rw [List.cons_append] at ho e
    obtain ⟨y, hy, hya⟩ := hy
    obtain ⟨pre', rfl, e'⟩ := peel ho e ha ⟨y, by simp [hy], hya⟩
    obtain ⟨pre2, rfl, e2, _⟩ := ih ⟨(List.pairwise_cons.1 ho.1).2, fun z hz => ho.2 z (by simp [hz])⟩ e' (fun z hz => hlt z (by simp [hz]))
    exact ⟨pre2, rfl, e2, hlt⟩

theorem at_head {x : Lexed} {L pre : List Lexed} (ho : InLine (x :: L)) (e : x :: L = pre ++ op :: R) (ha : op.start = a) (hx : x.start = a) : pre = [] ∧ x = op ∧ L = R := by
  cases pre with
  | nil => rw [List.nil_append] at e; injection e with e1 e2; exact ⟨rfl, e1, e2⟩
  | cons z pre =>
    rw [List.cons_append] at e
    injection e with e1 e2
    have := (List.pairwise_cons.1 ho.1).1 op (by rw [e2]; simp)
    omega

mutual
theorem places_sub {k : Node} {m : Bool} : ∀ n, k ∈ places m n → k ∈ allNodes n
  | .nil, h => by cases h
  | .list l, h => by rw [allNodes]; exact List.mem_cons_of_mem _ (placesL_sub l h)
  | .macro _ l, h => by rw [allNodes]; exact List.mem_cons_of_mem _ (placesL_sub l h)
  | .arg a l b, h => by
    rw [places] at h
    rw [allNodes]
    rcases List.mem_append.1 h with h | h
    · split at h
      · rw [List.mem_singleton.1 h]; exact List.mem_cons_self
      · cases h
    · exact List.mem_cons_of_mem _ (placesL_sub l h)
  | .optArg a l b, h => by
    rw [places] at h
    rw [allNodes]
    rcases List.mem_append.1 h with h | h
    · split at h
      · rw [List.mem_singleton.1 h]; exact List.mem_cons_self
      · cases h
    · exact List.mem_cons_of_mem _ (placesL_sub l h)
  | .ident _ _, h => by cases h
  | .math _ _ l _, h => by
    rw [places] at h
    rw [allNodes]
    rcases List.mem_cons.1 h with h | h
    · rw [h]; exact List.mem_cons_self
    · exact List.mem_cons_of_mem _ (placesL_sub l h)
  | .word _ _, h => by cases h
  | .lit _ _, h => by cases h
  | .sym _ _, h => by cases h
  | .sub _ n, h => by rw [allNodes]; exact List.mem_cons_of_mem _ (places_sub n h)
  | .sup _ n, h => by rw [allNodes]; exact List.mem_cons_of_mem _ (places_sub n h)
theorem placesL_sub {k : Node} {m : Bool} : ∀ l, k ∈ placesL m l → k ∈ allNodesL l
  | [], h => by cases h
  | n :: l, h => by
    rw [placesL] at h
    rw [allNodesL]
    rcases List.mem_append.1 h with h | h
    · exact List.mem_append_left _ (places_sub n h)
    · exact List.mem_append_right _ (placesL_sub l h)
end

theorem found_open {m : Bool} {L : List Lexed} {S : List Lexed → Prop} {k : Node} {c : Nat} {l : List Node} (h : Found m L S k) (hk : Delimits c a l b k) : ∃ y ∈ L, y.start = a := by
  cases k <;> try exact hk.elim
  all_goals
    obtain ⟨-, rfl, -, -⟩ := hk
    obtain ⟨pre, e, D, L2, m', rfl, -⟩ := h
    exact ⟨_, List.mem_append_right _ List.mem_cons_self, rfl⟩

theorem args_found {m i L l L1} (h : Args m i L l L1) : ∀ k ∈ allNodesL l, Found m L (fun _ => True) k := by
  induction i generalizing L l with
  | zero => cases h; intro k hk; cases hk
  | succ i ih =>
    cases h with
    | @more _ _ o e L l p L1 args L' h1 h2 =>
      intro k hk
      obtain ⟨D, rfl⟩ := items_suffix h1
      simp only [allNodes, allNodesL, List.mem_cons, List.mem_append, List.cons_append] at hk
      rcases hk with rfl | hk | hk
      · exact ⟨[], e, D ++ L1, L1, m, rfl, fun h => h, h1, trivial⟩
      · exact (items_found h1 k hk).mono (fun h => h) [_] fun _ _ => trivial
      · exact (ih h2 k hk).mono (fun h => h) (_ :: D) fun _ _ => trivial

/-- What opens and what ends a place. -/
def Pair (c : Nat) (u : Until) : Prop := (c = ch!"$" ∧ u = .dollar) ∨ (c = ch!"{" ∧ u = .brace) ∨ (c = ch!"[" ∧ u = .bracket)

theorem placesL_keep {k : Node} {m : Bool} {n : Node} {l : List Node} (h : k ∈ placesL m (keep n l)) : k ∈ places m n ∨ k ∈ placesL m l := by
  rcases keep_cases n l with ⟨_, e⟩ | ⟨_, e⟩ <;> rw [e] at h
  · exact .inr h
  · simpa only [placesL, List.mem_append] using h

theorem head_same {pre A B : List Lexed} : (pre ++ op :: A).head? = (pre ++ op :: B).head? := by cases pre <;> rfl

/-- A sentence with other items in one of its places. -/
theorem replaced (hab : a < b) {c : Nat} {u0 : Until} (hcu : Pair c u0) {e0 : Nat} {X : Lexed} {D Q D' : List Lexed} {l0 : List Node} {k : Node}
    (hX : X.start = b) (hk : Delimits c a l0 b k) (hold : Items true u0 (D ++ X :: Q) l0 b Q) (hQ : ∀ x ∈ Q, b < x.start ∧ x.start ≤ x.stop)
    (hnew : ∀ Y, Items true u0 (D' ++ far a b N X :: Y) new (a + 1 + N) Y) :
    (∀ m L n L1, Item1 m L n L1 → ∀ pre, InLine L → L = pre ++ ⟨.mark c, a, e0⟩ :: (D ++ X :: Q) → k ∈ places m n →
      Tail L1 Q ∧ Item1 m (pre ++ ⟨.mark c, a, e0⟩ :: (D' ++ far a b N X :: Q.map (far a b N))) (edit a b N new n) (L1.map (far a b N))) ∧
    (∀ m u L l p L1, Items m u L l p L1 → ∀ pre, InLine L → L = pre ++ ⟨.mark c, a, e0⟩ :: (D ++ X :: Q) → k ∈ placesL m l →
      Tail L1 Q ∧ Items m u (pre ++ ⟨.mark c, a, e0⟩ :: (D' ++ far a b N X :: Q.map (far a b N))) (editL a b N new l) (movePos a b N p) (L1.map (far a b N))) ∧
    ∀ m i L l L1, Args m i L l L1 → ∀ pre, InLine L → L = pre ++ ⟨.mark c, a, e0⟩ :: (D ++ X :: Q) → k ∈ placesL m l →
      Tail L1 Q ∧ Args m i (pre ++ ⟨.mark c, a, e0⟩ :: (D' ++ far a b N X :: Q.map (far a b N))) (editL a b N new l) (L1.map (far a b N)) := by
  have hma : movePos a b N a = a := move_before hab
  have hmb : movePos a b N b = a + 1 + N := by unfold movePos; rw [if_neg (by omega)]; omega
  -- the node itself
  have hit : ∀ {m L l p L1}, Items m u0 L l p L1 → m = true → L = D ++ X :: Q → L1 = Q := by
    rintro m L l p L1 h rfl rfl
    exact (items_unique h hold).2.2
  refine grammar_all ?_ ?_ ?_ ?_ ?_ ?_ ?_ ?_ ?_ ?_ ?_ ?_ ?_ ?_ ?_ ?_ ?_ ?_ ?_
  · intro m t o e L pre _ _ hp; cases hp
  · intro m t o e L pre _ _ hp; cases hp
  · intro m o e L pre _ _ hp; cases hp
  · intro t o e L pre _ _ hp; cases hp
  · intro t o e L pre _ _ hp; cases hp
  · intro m c o e L _ pre _ _ hp; cases hp
  · -- math
    intro m o e L l p L' h ih pre ho e1 hp
    rw [places] at hp
    rcases List.mem_cons.1 hp with rfl | hp
    · obtain ⟨rfl, rfl, rfl, rfl⟩ := hk
      obtain ⟨-, rfl⟩ | ⟨h', -⟩ | ⟨h', -⟩ := hcu
      · obtain ⟨rfl, e2, e3⟩ := at_head ho e1 rfl rfl
        obtain rfl := hit h rfl e3
        cases e2
        rw [edit, hma, hmb, if_pos rfl]
        exact ⟨⟨[], rfl⟩, .math (hnew _)⟩
      · cases h'
      · cases h'
    · have hy := found_open (items_found h k (placesL_sub l hp)) hk
      obtain ⟨pre', rfl, e2⟩ := peel ho e1 rfl hy
      obtain ⟨h1, h2⟩ := ih pre' (InLine.tail (A := [_]) ho) e2 hp
      have hoa := lt_of ho hy
      rw [edit, move_before (Nat.lt_trans hoa hab), if_neg (Nat.ne_of_lt hoa)]
      exact ⟨h1, .math h2⟩
  · -- group
    intro o e L l p L' h ih pre ho e1 hp
    rw [places] at hp
    have hy := found_open (items_found h k (placesL_sub l hp)) hk
    obtain ⟨pre', rfl, e2⟩ := peel ho e1 rfl hy
    obtain ⟨h1, h2⟩ := ih pre' (InLine.tail (A := [_]) ho) e2 hp
    exact ⟨h1, .group h2⟩
  · intro m o e e' L l p L' h ih pre ho e1 hp
    rw [places, places] at hp
    obtain ⟨y, hy, hya⟩ := found_open (items_found h k (placesL_sub l hp)) hk
    obtain ⟨pre', rfl, e2⟩ := peel ho e1 rfl ⟨y, by simp [hy], hya⟩
    obtain ⟨pre2, rfl, e3⟩ := peel (InLine.tail (A := [_]) ho) e2 rfl ⟨y, hy, hya⟩
    obtain ⟨h1, h2⟩ := ih pre2 (InLine.tail (A := [_, _]) ho) e3 hp
    have hoa := lt_of ho ⟨y, List.mem_cons_of_mem _ hy, hya⟩
    rw [edit, edit, move_before (Nat.lt_trans hoa hab)]
    exact ⟨h1, .supGroup h2⟩
  · intro m o e L n L' h ih pre ho e1 hp
    rw [places] at hp
    have hy := found_open (item1_found h k (places_sub n hp)) hk
    obtain ⟨pre', rfl, e2⟩ := peel ho e1 rfl hy
    obtain ⟨h1, h2⟩ := ih pre' (InLine.tail (A := [_]) ho) e2 hp
    have hoa := lt_of ho hy
    rw [edit, move_before (Nat.lt_trans hoa hab)]
    exact ⟨h1, .sup h2⟩
  · intro m o e e' L l p L' h ih pre ho e1 hp
    rw [places, places] at hp
    obtain ⟨y, hy, hya⟩ := found_open (items_found h k (placesL_sub l hp)) hk
    obtain ⟨pre', rfl, e2⟩ := peel ho e1 rfl ⟨y, by simp [hy], hya⟩
    obtain ⟨pre2, rfl, e3⟩ := peel (InLine.tail (A := [_]) ho) e2 rfl ⟨y, hy, hya⟩
    obtain ⟨h1, h2⟩ := ih pre2 (InLine.tail (A := [_, _]) ho) e3 hp
    have hoa := lt_of ho ⟨y, List.mem_cons_of_mem _ hy, hya⟩
    rw [edit, edit, move_before (Nat.lt_trans hoa hab)]
    exact ⟨h1, .subGroup h2⟩
  · intro m o e L n L' h ih pre ho e1 hp
    rw [places] at hp
    have hy := found_open (item1_found h k (places_sub n hp)) hk
    obtain ⟨pre', rfl, e2⟩ := peel ho e1 rfl hy
    obtain ⟨h1, h2⟩ := ih pre' (InLine.tail (A := [_]) ho) e2 hp
    have hoa := lt_of ho hy
    rw [edit, move_before (Nat.lt_trans hoa hab)]
    exact ⟨h1, .sub h2⟩
  · -- a root with an index
    intro m o e e' L l p L1 args L' h1 h2 ih1 ih2 pre ho e1 hp
    obtain ⟨D0, rfl⟩ := items_suffix h1
    obtain ⟨D1, e5⟩ := args_suffix h2
    simp only [places, placesL, List.mem_append] at hp
    rcases hp with (hp | hp) | hp
    · split at hp
      · rename_i hm
        obtain rfl := List.mem_singleton.1 hp
        obtain ⟨rfl, rfl, rfl, rfl⟩ := hk
        obtain ⟨h', -⟩ | ⟨h', -⟩ | ⟨-, rfl⟩ := hcu
        · cases h'
        · cases h'
        · obtain ⟨pre', rfl, e2⟩ := peel ho e1 rfl ⟨_, List.mem_cons_self, rfl⟩
          obtain ⟨rfl, e3, e4⟩ := at_head (InLine.tail (A := [_]) ho) e2 rfl rfl
          obtain rfl := hit h1 hm e4
          cases e3
          subst hm
          have hoa : o < a := lt_of ho ⟨_, List.mem_cons_self, rfl⟩
          rw [edit, editL, edit, Option.map_some, move_before (Nat.lt_trans hoa hab), hma, hmb, if_pos rfl]
          exact ⟨⟨D1, e5⟩, .root (hnew _) ((moved_after hab).2.2 _ _ _ _ _ h2 hQ)⟩
      · cases hp
    · obtain ⟨y, hy, hya⟩ := found_open (items_found h1 k (placesL_sub l hp)) hk
      obtain ⟨pre', rfl, e2⟩ := peel ho e1 rfl ⟨y, List.mem_cons_of_mem _ hy, hya⟩
      obtain ⟨pre2, rfl, e3⟩ := peel (InLine.tail (A := [_]) ho) e2 rfl ⟨y, hy, hya⟩
      obtain ⟨i1, i2⟩ := ih1 pre2 (InLine.tail (A := [_, _]) ho) e3 hp
      have hoa := lt_of ho ⟨y, List.mem_cons_of_mem _ hy, hya⟩
      have hea := lt_of (InLine.tail (A := [_]) ho) ⟨y, hy, hya⟩
      have hL1 : ∀ x ∈ L1, b < x.start ∧ x.start ≤ x.stop := by
        obtain ⟨E, rfl⟩ := i1
        exact fun x hx => hQ x (by simp [hx])
      rw [edit, editL, edit, Option.map_some, move_before (Nat.lt_trans hoa hab), move_before (Nat.lt_trans hea hab), if_neg (Nat.ne_of_lt hea)]
      exact ⟨Tail.trans ⟨D1, e5⟩ i1, .root i2 ((moved_after hab).2.2 _ _ _ _ _ h2 hL1)⟩
    · obtain ⟨y, hy, hya⟩ := found_open (args_found h2 k (placesL_sub args hp)) hk
      have hy' : y ∈ D0 ++ L1 := List.mem_append_right _ hy
      obtain ⟨pre', rfl, e2⟩ := peel ho e1 rfl ⟨y, List.mem_cons_of_mem _ hy', hya⟩
      obtain ⟨pre2, rfl, e3⟩ := peel (InLine.tail (A := [_]) ho) e2 rfl ⟨y, hy', hya⟩
      obtain ⟨pre3, rfl, e4, hlt⟩ := peels (InLine.tail (A := [_, _]) ho) e3 rfl ⟨y, hy, hya⟩
      obtain ⟨i1, i2⟩ := ih2 pre3 (InLine.tail (A := _ :: _ :: D0) ho) e4 hp
      have hoa := lt_of ho ⟨y, List.mem_cons_of_mem _ hy', hya⟩
      have hea := lt_of (InLine.tail (A := [_]) ho) ⟨y, hy', hya⟩
      have hL1 : L1 ≠ [] := by rintro rfl; cases hy
      obtain ⟨s1, s2⟩ := (same_before (N := N) (new := new) hab).2.1 _ _ _ _ _ _ (items_after h1 (D := D0) (C := []) (Z := L1) hL1 rfl rfl []) (by simpa using hlt)
      have hi := items_after h1 (D := D0) (C := pre3) (Z := _ :: _) (by simp) (by rw [e4]) e4 (⟨.mark c, a, e0⟩ :: (D' ++ far a b N X :: Q.map (far a b N)))
      rw [edit, editL, edit, Option.map_some, move_before (Nat.lt_trans hoa hab), move_before (Nat.lt_trans hea hab), if_neg (Nat.ne_of_lt hea), s1, s2]
      refine ⟨i1, ?_⟩
      simp only [List.cons_append, List.append_assoc]
      exact .root hi i2
  · -- a macro
    intro m t o e L args L' hkn h1 hh ih pre ho e1 hp
    rw [places] at hp
    have hy := found_open (args_found h1 k (placesL_sub args hp)) hk
    obtain ⟨pre', rfl, e2⟩ := peel ho e1 rfl hy
    obtain ⟨i1, i2⟩ := ih pre' (InLine.tail (A := [_]) ho) e2 hp
    have hoa := lt_of ho hy
    rw [edit, Option.map_some, move_before (Nat.lt_trans hoa hab)]
    refine ⟨i1, .macro hkn i2 fun ht e' he => hh ht e' ?_⟩
    rw [e2]; exact (head_same (pre := pre')).trans he
  · intro m u pre _ e1; cases pre <;> cases e1
  · intro m u k o e L _ pre _ _ hp; cases hp
  · -- items
    intro m u x L n L1 l p L' hx h1 h2 ih1 ih2 pre ho e1 hp
    obtain ⟨D0, -, e⟩ := item1_suffix h1
    obtain ⟨D1, e5⟩ := items_suffix h2
    have hhead : ∃ L3, pre ++ ⟨.mark c, a, e0⟩ :: (D' ++ far a b N X :: Q.map (far a b N)) = x :: L3 := by
      cases pre with
      | nil => rw [List.nil_append] at e1; injection e1 with e1; rw [← e1]; exact ⟨_, rfl⟩
      | cons z pre => rw [List.cons_append] at e1; injection e1 with e1; rw [← e1]; exact ⟨_, rfl⟩
    obtain ⟨L3, e3⟩ := hhead
    rw [editL_keep]
    rcases placesL_keep hp with hp | hp
    · obtain ⟨i1, i2⟩ := ih1 pre ho e1 hp
      have hL1 : ∀ x ∈ L1, b < x.start ∧ x.start ≤ x.stop := by
        obtain ⟨E, rfl⟩ := i1
        exact fun x hx => hQ x (by simp [hx])
      refine ⟨Tail.trans ⟨D1, e5⟩ i1, ?_⟩
      rw [e3] at i2 ⊢
      exact .item hx i2 ((moved_after hab).2.1 _ _ _ _ _ _ h2 hL1)
    · obtain ⟨y, hy, hya⟩ := found_open (items_found h2 k (placesL_sub l hp)) hk
      rw [e] at ho e1 h1
      obtain ⟨pre', rfl, e4, hlt⟩ := peels ho e1 rfl ⟨y, hy, hya⟩
      obtain ⟨i1, i2⟩ := ih2 pre' (InLine.tail ho) e4 hp
      have hL1 : L1 ≠ [] := by rintro rfl; cases hy
      have s1 := (same_before (N := N) (new := new) hab).1 _ _ _ _ (item1_after h1 (D := D0) (C := []) (Z := L1) hL1 rfl rfl []) (by simpa using hlt)
      have hi := item1_after h1 (D := D0) (C := pre') (Z := _ :: _) (by simp) (by rw [e4]) e4 (⟨.mark c, a, e0⟩ :: (D' ++ far a b N X :: Q.map (far a b N)))
      rw [s1]
      refine ⟨i1, ?_⟩
      rw [← List.append_assoc, e3] at hi
      rw [e3]
      exact .item hx hi i2
  · intro m L pre _ _ hp; cases hp
  · -- an argument
    intro m i o e L l p L1 args L' h1 h2 ih1 ih2 pre ho e1 hp
    obtain ⟨D0, rfl⟩ := items_suffix h1
    obtain ⟨D1, e5⟩ := args_suffix h2
    simp only [places, placesL, List.mem_append] at hp
    rcases hp with (hp | hp) | hp
    · split at hp
      · rename_i hm
        obtain rfl := List.mem_singleton.1 hp
        obtain ⟨rfl, rfl, rfl, rfl⟩ := hk
        obtain ⟨h', -⟩ | ⟨-, rfl⟩ | ⟨h', -⟩ := hcu
        · cases h'
        · obtain ⟨rfl, e3, e4⟩ := at_head ho e1 rfl rfl
          obtain rfl := hit h1 hm e4
          cases e3
          subst hm
          rw [editL, edit, hma, hmb, if_pos rfl]
          exact ⟨⟨D1, e5⟩, .more (hnew _) ((moved_after hab).2.2 _ _ _ _ _ h2 hQ)⟩
        · cases h'
      · cases hp
    · have hy := found_open (items_found h1 k (placesL_sub l hp)) hk
      obtain ⟨pre2, rfl, e3⟩ := peel ho e1 rfl hy
      obtain ⟨i1, i2⟩ := ih1 pre2 (InLine.tail (A := [_]) ho) e3 hp
      have hoa := lt_of ho hy
      have hL1 : ∀ x ∈ L1, b < x.start ∧ x.start ≤ x.stop := by
        obtain ⟨E, rfl⟩ := i1
        exact fun x hx => hQ x (by simp [hx])
      rw [editL, edit, move_before (Nat.lt_trans hoa hab), if_neg (Nat.ne_of_lt hoa)]
      exact ⟨Tail.trans ⟨D1, e5⟩ i1, .more i2 ((moved_after hab).2.2 _ _ _ _ _ h2 hL1)⟩
    · obtain ⟨y, hy, hya⟩ := found_open (args_found h2 k (placesL_sub args hp)) hk
      have hy' : y ∈ D0 ++ L1 := List.mem_append_right _ hy
      obtain ⟨pre2, rfl, e3⟩ := peel ho e1 rfl ⟨y, hy', hya⟩
      obtain ⟨pre3, rfl, e4, hlt⟩ := peels (InLine.tail (A := [_]) ho) e3 rfl ⟨y, hy, hya⟩
      obtain ⟨i1, i2⟩ := ih2 pre3 (InLine.tail (A := _ :: D0) ho) e4 hp
      have hoa := lt_of ho ⟨y, hy', hya⟩
      have hL1 : L1 ≠ [] := by rintro rfl; cases hy
      obtain ⟨s1, s2⟩ := (same_before (N := N) (new := new) hab).2.1 _ _ _ _ _ _ (items_after h1 (D := D0) (C := []) (Z := L1) hL1 rfl rfl []) (by simpa using hlt)
      have hi := items_after h1 (D := D0) (C := pre3) (Z := _ :: _) (by simp) (by rw [e4]) e4 (⟨.mark c, a, e0⟩ :: (D' ++ far a b N X :: Q.map (far a b N)))
      rw [editL, edit, move_before (Nat.lt_trans hoa hab), if_neg (Nat.ne_of_lt hoa), s1, s2]
      refine ⟨i1, ?_⟩
      simp only [List.cons_append, List.append_assoc]
      exact .more hi i2

/-! ## The place -/

/-- In a place, formulas stand. -/
theorem places_found {k : Node} : (∀ m L n L1, Item1 m L n L1 → k ∈ places m n → Found true L (fun _ => True) k) ∧
    (∀ m u L l p L1, Items m u L l p L1 → k ∈ placesL m l → Found true L (fun _ => True) k) ∧
    ∀ m i L l L1, Args m i L l L1 → k ∈ placesL m l → Found true L (fun _ => True) k := by
  have mono : ∀ {L : List Lexed} (pre : List Lexed), Found true L (fun _ => True) k → Found true (pre ++ L) (fun _ => True) k :=
    fun pre h => h.mono (fun h => h) pre fun _ h => h
  refine grammar_all ?_ ?_ ?_ ?_ ?_ ?_ ?_ ?_ ?_ ?_ ?_ ?_ ?_ ?_ ?_ ?_ ?_ ?_ ?_
  · intro m t o e L hp; cases hp
  · intro m t o e L hp; cases hp
  · intro m o e L hp; cases hp
  · intro t o e L hp; cases hp
  · intro t o e L hp; cases hp
  · intro m c o e L _ hp; cases hp
  · intro m o e L l p L' h ih hp
    rw [places] at hp
    rcases List.mem_cons.1 hp with rfl | hp
    · exact ⟨[], e, L, L', true, rfl, fun h => h, h, trivial⟩
    · exact mono [_] (ih hp)
  · intro o e L l p L' h ih hp
    rw [places] at hp
    exact mono [_] (ih hp)
  · intro m o e e' L l p L' h ih hp
    rw [places, places] at hp
    exact mono [_, _] (ih hp)
  · intro m o e L n L' h ih hp
    rw [places] at hp
    exact mono [_] (ih hp)
  · intro m o e e' L l p L' h ih hp
    rw [places, places] at hp
    exact mono [_, _] (ih hp)
  · intro m o e L n L' h ih hp
    rw [places] at hp
    exact mono [_] (ih hp)
  · intro m o e e' L l p L1 args L' h1 h2 ih1 ih2 hp
    obtain ⟨D, rfl⟩ := items_suffix h1
    simp only [places, placesL, List.mem_append] at hp
    rcases hp with (hp | hp) | hp
    · split at hp
      · rename_i hm
        obtain rfl := List.mem_singleton.1 hp
        exact ⟨[_], e', D ++ L1, L1, m, rfl, fun _ => hm, h1, trivial⟩
      · cases hp
    · exact mono [_, _] (ih1 hp)
    · exact mono (_ :: _ :: D) (ih2 hp)
  · intro m t o e L args L' hkn h1 hh ih hp
    rw [places] at hp
    exact mono [_] (ih hp)
  · intro m u hp; cases hp
  · intro m u k o e L _ hp; cases hp
  · intro m u x L n L1 l p L' hx h1 h2 ih1 ih2 hp
    obtain ⟨D, -, e⟩ := item1_suffix h1
    rcases placesL_keep hp with hp | hp
    · exact ih1 hp
    · rw [e]; exact mono D (ih2 hp)
  · intro m L hp; cases hp
  · intro m n o e L l p L1 args L' h1 h2 ih1 ih2 hp
    obtain ⟨D, rfl⟩ := items_suffix h1
    simp only [places, placesL, List.mem_append] at hp
    rcases hp with (hp | hp) | hp
    · split at hp
      · rename_i hm
        obtain rfl := List.mem_singleton.1 hp
        exact ⟨[], e, D ++ L1, L1, m, rfl, fun _ => hm, h1, trivial⟩
      · cases hp
    · exact mono [_] (ih1 hp)
    · exact mono (_ :: D) (ih2 hp)

/-! ## Lexemes -/

theorem lexes_inLine {U : Nat → Bool} {o : Nat} {cs : List Ch} {L : List Lexed} (h : Lexes U o cs L) : (∀ c ∈ cs, c.Ok) → InLine L := by
  induction h with
  | done _ => intro _; exact ⟨List.Pairwise.nil, by simp⟩
  | @more o w a k rest L hw ha hr ih =>
    intro hok
    obtain ⟨h1, h2⟩ := ih fun c hc => hok c (by simp [hc])
    obtain ⟨c, t, rfl, -⟩ := lexeme_start ha
    have hp := bytes_pos (a := c :: t) (fun c hc => hok c (by simp only [List.mem_append]; tauto)) (by simp)
    refine ⟨List.pairwise_cons.2 ⟨fun y hy => ?_, h1⟩, ?_⟩
    · have := lexes_ge hr y hy
      dsimp only
      omega
    · intro y hy
      rcases List.mem_cons.1 hy with rfl | hy
      · exact Nat.le_add_right _ _
      · exact h2 y hy

theorem lexes_far {U : Nat → Bool} {o : Nat} {cs : List Ch} {L : List Lexed} (h : Lexes U o cs L) : b ≤ o → Lexes U (o - b + (a + 1 + N)) cs (L.map (far a b N)) := by
  induction h with
  | done hw => intro _; exact .done hw
  | @more o w p k rest L hw ha hr ih =>
    intro hb
    have := ih (by omega)
    have h2 := Lexes.more (U := U) (o := o - b + (a + 1 + N)) hw ha (L := L.map (far a b N)) (by
      rwa [show o - b + (a + 1 + N) + (bytesOf w).length + (bytesOf p).length = o + (bytesOf w).length + (bytesOf p).length - b + (a + 1 + N) by omega])
    have h3 : far a b N ⟨k, o + (bytesOf w).length, o + (bytesOf w).length + (bytesOf p).length⟩ =
        ⟨k, o - b + (a + 1 + N) + (bytesOf w).length, o - b + (a + 1 + N) + (bytesOf w).length + (bytesOf p).length⟩ := by
      simp only [far, Lexed.mk.injEq, true_and]
      omega
    rw [List.map_cons, h3]
    exact h2

end Verif
