import Verif.Lemmas.Template
import Verif.Props.Concat
/-!
# C93: formulas can be put into formulas

A string that is a whole formula by itself can be put into a template: between braces, after other formulas. The tree of the
result is what it should be, whatever the string is: nothing in it can change the meaning of what is around it.
-/

namespace Verif.Props
open Verif Spec
variable {U : Nat → Bool}

/-! ## Lexemes and items of a formula -/

/-- `x`, at position `o`, has lexemes and trees of its own. -/
def Part (U : Nat → Bool) (o : Nat) (x : GoString) (l : List Node) : Prop :=
  ∃ A : List Lexed, (∀ y M', (∃ c, y.head? = some c ∧ c.r ∈ neutral) → Lexes U (o + x.length) y M' → Lexes U o (decode x ++ y) (A ++ M')) ∧
    ∀ u, MayEnd l u → ∀ Y l2 p2 L2, Items true u Y l2 p2 L2 → Items true u (A ++ Y) (l ++ l2) p2 L2

theorem lex_mark {c o : Nat} (hc : c ∈ marks1) (hd : c ≠ ch!".") {y : List Ch} {M : List Lexed} (h : Lexes U (o + 1) y M) :
    Lexes U o (⟨c, [c]⟩ :: y) (⟨.mark c, o, o + 1⟩ :: M) := by
  have := Lexes.more (U := U) (o := o) (w := []) (a := [⟨c, [c]⟩]) (k := .mark c) (rest := y) (L := M) (by simp)
    (.mark (c := ⟨c, [c]⟩) hc fun e => absurd e hd) h
  exact this

theorem decode_dollar (x : GoString) : decode (bs!"$" ++ x ++ bs!"$") = ⟨36, [36]⟩ :: (decode x ++ [⟨36, [36]⟩]) := by
  rw [show bs!"$" ++ x ++ bs!"$" = 36 :: (x ++ 36 :: []) by simp, decode_ascii_cons _ (by omega), decode_append _ _ (by omega), decode_ascii_cons _ (by omega), decode_nil]

theorem lexesOf_dollar (x : GoString) (M : List Lexed) : LexesOf U (bs!"$" ++ x ++ bs!"$") M ↔
    Lexes U 0 (⟨36, [36]⟩ :: (decode x ++ [⟨36, [36]⟩])) M := by
  unfold LexesOf
  have : stripBom (bs!"$" ++ x ++ bs!"$") = bs!"$" ++ x ++ bs!"$" := by
    rw [show bs!"$" ++ x ++ bs!"$" = 36 :: (x ++ 36 :: []) by simp]; rfl
  rw [this, Nat.sub_self, decode_dollar]

theorem Part.formula {x : GoString} {l : List Node} (h : Part U 1 x l) : Formula U x l := by
  obtain ⟨A, h1, h2⟩ := h
  unfold Formula
  rw [C83_grammar]
  refine ⟨⟨.mark ch!"$", 0, 1⟩ :: (A ++ [⟨.mark ch!"$", 1 + x.length, 1 + x.length + 1⟩]), [.math bs!"$" 0 l (x.length + 1)], ?_, ?_, rfl⟩
  · rw [lexesOf_dollar]
    exact lex_mark (by decide) (by decide) (h1 _ _ ⟨_, rfl, by decide⟩ (lex_mark (by decide) (by decide) (.done (by simp))))
  · have : Items true .dollar (A ++ [⟨.mark ch!"$", 1 + x.length, 1 + x.length + 1⟩]) (l ++ []) (1 + x.length) [] :=
      h2 _ (.inl rfl) _ _ _ _ (.close rfl)
    rw [List.append_nil] at this
    rw [Nat.add_comm x.length 1]
    exact .item (n := .math bs!"$" 0 l (1 + x.length)) (by simp [Until.mark]) (.math this) .eof

theorem lexes_nonempty {o : Nat} {cs : List Ch} {y : Lexed} {B : List Lexed} (hW : ∀ c ∈ cs, c.Ok) (h : Lexes U o cs (y :: B)) : 1 ≤ (bytesOf cs).length := by
  cases h with
  | @more _ w a k rest _ h1 h2 h3 =>
    obtain ⟨c0, b0, rfl, _⟩ := lexeme_start h2
    have := bytes_pos (a := c0 :: b0) (fun c hc => hW c (by simp only [List.mem_append]; tauto)) (by simp)
    rw [bytes_append, bytes_append]
    omega

theorem lexes_last {o : Nat} {cs : List Ch} {A B : List Lexed} {X : Lexed} (hW : ∀ c ∈ cs, c.Ok) (h : Lexes U o cs (A ++ X :: B)) (hB : B ≠ []) :
    X.start + 2 ≤ o + (bytesOf cs).length := by
  induction A generalizing o cs with
  | nil =>
    rw [List.nil_append] at h
    cases h with
    | @more _ w a k rest _ h1 h2 h3 =>
      obtain ⟨y, B, rfl⟩ := List.exists_cons_of_ne_nil hB
      have := lexes_nonempty (fun c hc => hW c (by simp [hc])) h3
      obtain ⟨c0, b0, rfl, _⟩ := lexeme_start h2
      have := bytes_pos (a := c0 :: b0) (fun c hc => hW c (by simp only [List.mem_append]; tauto)) (by simp)
      rw [bytes_append, bytes_append]
      dsimp only
      omega
  | cons x A ih =>
    rw [List.cons_append] at h
    cases h with
    | @more _ w a k rest _ h1 h2 h3 =>
      have := ih (fun c hc => hW c (by simp [hc])) h3
      rw [bytes_append, bytes_append]
      omega

/-- A list that is closed. -/
theorem items_closed {m : Bool} {u : Until} {L : List Lexed} {l : List Node} {p : Nat} {L1 : List Lexed} (h : Items m u L l p L1) (hp : p ≠ 0) :
    ∃ A X, L = A ++ X :: L1 ∧ X.start = p := by
  generalize hn : L.length = n
  induction n using Nat.strongRecOn generalizing L l with
  | _ n ih =>
    cases h with
    | eof => exact absurd rfl hp
    | @close _ _ k _ e L hk => exact ⟨[], ⟨k, _, e⟩, rfl, rfl⟩
    | @item _ _ x L0 n1 L2 l1 _ _ hx g1 g2 =>
      obtain ⟨D, hD, e1⟩ := item1_suffix g1
      have hlen : L2.length < n := by
        have := congrArg List.length e1
        have := List.length_pos_iff.2 hD
        rw [← hn]
        simp at *
        omega
      obtain ⟨A, X, rfl, e2⟩ := ih _ hlen g2 rfl
      exact ⟨D ++ A, X, by rw [e1, List.append_assoc], e2⟩

theorem formula_part {x : GoString} {l : List Node} (h : Formula U x l) (d : Nat) : Part U (1 + d) x (shiftL d l) := by
  obtain ⟨L, l', h1, h2, h3⟩ := (C83_grammar _ _).1 h
  injection h3 with h3
  subst h3
  rw [lexesOf_dollar] at h1
  have hok : ∀ c ∈ (⟨36, [36]⟩ : Ch) :: (decode x ++ [⟨36, [36]⟩]), c.Ok := by rw [← decode_dollar]; exact decode_ok _
  obtain ⟨M, rfl, h4⟩ := lexes_first (U := U) (o := 0) (w := []) (a := [⟨36, [36]⟩]) (rest := decode x ++ [⟨36, [36]⟩]) (k := .mark 36) hok (by simp)
    (.mark (c := ⟨36, [36]⟩) (by decide) fun e => absurd e (by decide)) h1
  have h4' : Lexes U 1 (decode x ++ [⟨36, [36]⟩]) M := h4
  have hok' : ∀ c ∈ decode x ++ [(⟨36, [36]⟩ : Ch)], c.Ok := fun c hc => hok c (List.mem_cons_of_mem _ hc)
  -- the formula is the only item
  obtain ⟨L1, h5⟩ : ∃ L1, Items true .dollar M l (x.length + 1) L1 := by
    generalize hl : [Node.math bs!"$" 0 l (x.length + 1)] = l' at h2
    cases h2 with
    | close hk => cases hk
    | @item _ _ _ _ n1 L1 l1 _ _ hx g1 g2 =>
      generalize hy : (⟨.mark 36, 0 + (bytesOf []).length, 0 + (bytesOf []).length + (bytesOf [⟨36, [36]⟩]).length⟩ : Lexed) = y at g1
      cases g1 <;> simp only [Lexed.mk.injEq, Lex.mark.injEq, reduceCtorEq, false_and] at hy
      · rename_i hc
        obtain ⟨rfl, -⟩ := hy
        exact absurd hc (by decide)
      · rename_i g1
        simp only [keep, List.cons.injEq, Node.math.injEq] at hl
        obtain ⟨⟨-, -, rfl, rfl⟩, -⟩ := hl
        exact ⟨_, g1⟩
      all_goals exact absurd hy.1 (by decide)
  obtain ⟨A, X, rfl, hX⟩ := items_closed h5 (by omega)
  have hlast : L1 = [] := by
    refine Classical.byContradiction fun hne => ?_
    have := lexes_last hok' h4' hne
    rw [bytes_append, bytesOf_decode] at this
    simp only [bytesOf, List.flatMap_cons, List.flatMap_nil, List.length_append, List.length_cons, List.length_nil] at this
    omega
  subst hlast
  obtain ⟨g1, g2⟩ := lexes_part hok' h4' (by rw [hX, bytesOf_decode]; omega)
  rw [bytesOf_decode] at g2
  refine ⟨A.map (Lexed.mv d), fun y M' hy hM => g2 d y M' hy hM, fun u hu Y l2 p2 L2 hi => ?_⟩
  refine items_part (by omega) (fun y hy => ⟨by have := (g1 y hy).1; omega, (g1 y hy).2⟩) (by rw [hX]; exact h5) d u ?_ Y l2 p2 L2 hi
  rcases hu with h | h | ⟨h, h'⟩
  · exact .inl h
  · exact .inr (.inl h)
  · refine .inr (.inr ⟨h, fun o ho => h' (o + d) ?_⟩)
    have hmem : ∀ (l : List Node) (n : Node), n ∈ l → shift d n ∈ shiftL d l := by
      intro l n hn
      induction l with
      | nil => cases hn
      | cons m l ih =>
        rcases List.mem_cons.1 hn with rfl | hn
        · exact List.mem_cons_self
        · exact List.mem_cons_of_mem _ (ih hn)
    exact hmem l _ ho

/-! ## Parts -/

theorem lex_one {o : Nat} {a : List Ch} {k : Lex} {y : List Ch} {M : List Lexed} (h1 : Lexeme U a k y) (h : Lexes U (o + (bytesOf a).length) y M) :
    Lexes U o (a ++ y) (⟨k, o, o + (bytesOf a).length⟩ :: M) := by
  have := Lexes.more (U := U) (o := o) (w := []) (a := a) (k := k) (rest := y) (L := M) (by simp) h1 h
  exact this

theorem neutral_ascii : ∀ c ∈ neutral, c < 128 := by decide

theorem head_decode {y : GoString} (h : ∃ c, y.head? = some c ∧ c ∈ neutral) (z : List Ch) : ∃ c : Ch, (decode y ++ z).head? = some c ∧ c.r ∈ neutral := by
  obtain ⟨c, h1, h2⟩ := h
  cases y with
  | nil => cases h1
  | cons b y =>
    cases h1
    exact ⟨⟨c, [c]⟩, by rw [decode_ascii_cons _ (neutral_ascii _ h2)]; rfl, h2⟩

theorem decode_two {x y : GoString} (h : ∃ c, y.head? = some c ∧ c ∈ neutral) : decode (x ++ y) = decode x ++ decode y := by
  obtain ⟨c, h1, h2⟩ := h
  cases y with
  | nil => cases h1
  | cons b y => cases h1; exact decode_append _ _ (neutral_ascii _ h2)

theorem mayEnd_left {l l' : List Node} {u : Until} (h : MayEnd (l ++ l') u) : MayEnd l u := by
  rcases h with h | h | ⟨h, h'⟩
  · exact .inl h
  · exact .inr (.inl h)
  · exact .inr (.inr ⟨h, fun o ho => h' o (List.mem_append_left _ ho)⟩)

theorem mayEnd_right {l l' : List Node} {u : Until} (h : MayEnd (l ++ l') u) : MayEnd l' u := by
  rcases h with h | h | ⟨h, h'⟩
  · exact .inl h
  · exact .inr (.inl h)
  · exact .inr (.inr ⟨h, fun o ho => h' o (List.mem_append_right _ ho)⟩)

theorem Part.seq {o : Nat} {x y : GoString} {l l' : List Node} (hx : Part U o x l) (hy : Part U (o + x.length) y l')
    (h : ∃ c, y.head? = some c ∧ c ∈ neutral) : Part U o (x ++ y) (l ++ l') := by
  obtain ⟨A, a1, a2⟩ := hx
  obtain ⟨B, b1, b2⟩ := hy
  refine ⟨A ++ B, fun z M' hz hM => ?_, fun u hu Y l2 p2 L2 hi => ?_⟩
  · rw [decode_two h, List.append_assoc, List.append_assoc]
    exact a1 _ _ (head_decode h z) (b1 _ _ hz (by rw [Nat.add_assoc, ← List.length_append]; exact hM))
  · rw [List.append_assoc, List.append_assoc]
    exact a2 u (mayEnd_left hu) _ _ _ _ (b2 u (mayEnd_right hu) _ _ _ _ hi)

/-- An item of its own. -/
theorem part_item {o : Nat} {x : GoString} {A : List Lexed} {n : Node} (hA : A ≠ []) (hn : n.isNil = false)
    (h1 : ∀ y M', (∃ c : Ch, y.head? = some c ∧ c.r ∈ neutral) → Lexes U (o + x.length) y M' → Lexes U o (decode x ++ y) (A ++ M'))
    (h2 : ∀ Y, Item1 true (A ++ Y) n Y) (h3 : ∀ c ∈ bs!"$}", A.head?.map Lexed.lex ≠ some (.mark c))
    (h4 : A.head?.map Lexed.lex = some (.mark ch!"]") → ∃ o, n = .sym o bs!"]") : Part U o x [n] := by
  refine ⟨A, h1, fun u hu Y l2 p2 L2 hi => ?_⟩
  obtain ⟨a, A, rfl⟩ := List.exists_cons_of_ne_nil hA
  have hk : [n] ++ l2 = keep n l2 := by cases n <;> first | rfl | cases hn
  rw [hk]
  refine .item ?_ (h2 Y) hi
  simp only [List.head?_cons, Option.map_some, ne_eq, Option.some.injEq] at h3 h4
  rcases hu with rfl | rfl | ⟨rfl, h'⟩
  · intro h; injection h with h; exact h3 36 (by decide) h.symm
  · intro h; injection h with h; exact h3 125 (by decide) h.symm
  · intro h
    injection h with h
    obtain ⟨o, rfl⟩ := h4 h.symm
    exact h' o (by simp)

theorem decode_braced (a : GoString) (c : Nat) (hc : c < 128) (y : List Ch) : decode (c :: (a ++ bs!"}")) ++ y = ⟨c, [c]⟩ :: (decode a ++ (⟨125, [125]⟩ :: y)) := by
  rw [decode_ascii_cons _ hc, decode_append _ _ (by omega), decode_ascii_cons _ (by omega), decode_nil]
  simp

/-- The lexemes and items of a part in braces, followed by anything. -/
theorem Part.braces {o : Nat} {a : GoString} {l : List Node} (h : Part U (o + 1) a l) : ∃ A : List Lexed,
    (∀ y M', Lexes U (o + 2 + a.length) y M' → Lexes U o (decode (braced a) ++ y) (⟨.mark ch!"{", o, o + 1⟩ :: (A ++ M'))) ∧
    ∀ Y, Items true .brace (A ++ Y) l (o + 1 + a.length) Y := by
  obtain ⟨A, a1, a2⟩ := h
  refine ⟨A ++ [⟨.mark ch!"}", o + 1 + a.length, o + 1 + a.length + 1⟩], fun y M' hM => ?_, fun Y => ?_⟩
  · rw [show braced a = 123 :: (a ++ bs!"}") by simp [braced], decode_braced _ _ (by omega), List.append_assoc]
    refine lex_mark (by decide) (by decide) (a1 _ _ ⟨_, rfl, by decide⟩ (lex_mark (by decide) (by decide) ?_))
    rw [show o + 1 + a.length + 1 = o + 2 + a.length by omega]
    exact hM
  · rw [List.append_assoc]
    have := a2 .brace (.inr (.inl rfl)) _ _ _ _ (Items.close (m := true) (u := .brace) (k := .mark 125) (o := o + 1 + a.length) (e := o + 1 + a.length + 1) (L := Y) rfl)
    rw [List.append_nil] at this
    exact this

theorem braced_length (a : GoString) : (braced a).length = a.length + 2 := by simp [braced]

theorem Part.group {o : Nat} {a : GoString} {l : List Node} (h : Part U (o + 1) a l) : Part U o (braced a) [.list l] := by
  obtain ⟨A, h1, h2⟩ := h.braces
  refine part_item (A := ⟨.mark ch!"{", o, o + 1⟩ :: A) (by simp) rfl (fun y M' _ hM => h1 y M' ?_) (fun Y => .group (h2 Y)) (by simp) (by simp)
  rw [braced_length] at hM
  rw [show o + 2 + a.length = o + (a.length + 2) by omega]
  exact hM

theorem part_script {o : Nat} {a : GoString} {l : List Node} (h : Part U (o + 2) a l) (c : Nat) (hc : c = ch!"^" ∨ c = ch!"_") :
    Part U o (c :: braced a) [if c = ch!"^" then .sup o (.list l) else .sub o (.list l)] := by
  obtain ⟨A, h1, h2⟩ := h.braces
  refine part_item (A := ⟨.mark c, o, o + 1⟩ :: ⟨.mark ch!"{", o + 1, o + 1 + 1⟩ :: A) (by simp) (by split <;> rfl) (fun y M' _ hM => ?_) (fun Y => ?_) ?_ ?_
  · rw [decode_ascii_cons _ (by rcases hc with rfl | rfl <;> omega)]
    refine lex_mark (by rcases hc with rfl | rfl <;> decide) (by rcases hc with rfl | rfl <;> decide) (h1 y M' ?_)
    rw [List.length_cons, braced_length] at hM
    rw [show o + 1 + 2 + a.length = o + (a.length + 2 + 1) by omega]
    exact hM
  · rcases hc with rfl | rfl
    · exact .supGroup (h2 Y)
    · exact .subGroup (h2 Y)
  · rcases hc with rfl | rfl <;> simp
  · rcases hc with rfl | rfl <;> simp

/-- A blank before a part. -/
theorem Part.space {o : Nat} {x : GoString} {l : List Node} (h : Part U (o + 1) x l) : Part U o (32 :: x) l := by
  obtain ⟨A, h1, h2⟩ := h
  refine ⟨⟨.blank bs!" ", o, o + 1⟩ :: A, fun y M' hy hM => ?_, fun u hu Y l2 p2 L2 hi => ?_⟩
  · rw [decode_ascii_cons _ (by omega)]
    refine lex_one (o := o) (a := [⟨32, [32]⟩]) (.blank rfl) (h1 _ _ hy ?_)
    rw [List.length_cons] at hM
    rw [show o + 1 + x.length = o + (x.length + 1) by omega]
    exact hM
  · refine Items.item (n := .nil) ?_ .mathBlank (h2 u hu _ _ _ _ hi)
    cases u <;> simp [Until.mark]

theorem part_word {o : Nat} {t : GoString} (h : WordText U t) : Part U o t [.word o t] := by
  refine part_item (A := [⟨.word t, o, o + t.length⟩]) (by simp) rfl (fun y M' hy hM => ?_) (fun Y => .word) (by simp) (by simp)
  obtain ⟨h1, h2⟩ := h
  have hl : Lexeme U (decode t) (.word (bytesOf (decode t))) y := by
    cases hd : decode t with
    | nil =>
      have := bytesOf_decode t
      rw [hd] at this
      exact absurd this.symm h1
    | cons c a =>
      rw [hd] at h2
      refine .word (h2 c (by simp)) ⟨fun d hd => h2 d (by simp [hd]), fun d hd => ?_⟩
      obtain ⟨e, he, hn⟩ := hy
      rw [hd] at he
      cases he
      exact neutral_letter U _ hn
  have := lex_one hl (o := o) (M := M') (by rw [bytesOf_decode]; exact hM)
  rw [bytesOf_decode] at this
  exact this

theorem decode_digits {t : GoString} (h : ∀ b ∈ t, b ∈ bs!"0123456789") : decode t = t.map fun b => ⟨b, [b]⟩ := by
  induction t with
  | nil => exact decode_nil
  | cons b t ih =>
    have : ∀ b ∈ bs!"0123456789", b < 128 := by decide
    rw [decode_ascii_cons _ (this b (h b (by simp))), ih fun c hc => h c (by simp [hc])]
    rfl

theorem part_number {o : Nat} {t : GoString} (h0 : t ≠ []) (h : ∀ b ∈ t, b ∈ bs!"0123456789") : Part U o t [.lit o t] := by
  refine part_item (A := [⟨.number t, o, o + t.length⟩]) (by simp) rfl (fun y M' hy hM => ?_) (fun Y => .number) (by simp) (by simp)
  have hl : Lexeme U (decode t) (.number (bytesOf (decode t))) y := by
    refine .number ?_
    obtain ⟨e, he, hn⟩ := hy
    obtain ⟨d, a, rfl⟩ := List.exists_cons_of_ne_nil h0
    have hd : ∀ b ∈ bs!"0123456789", decimal b = true ∧ b ∉ bs!"xXoObB" := by decide
    have key : Number ([⟨d, [d]⟩] ++ (a.map fun b => (⟨b, [b]⟩ : Ch)) ++ [] ++ []) y := by
      refine .mk (p := decimal) (.digit (h d (by simp)) fun _ c hc => ?_) ⟨fun c hc => ?_, fun c hc => ?_⟩ (.none fun c hc => ?_) (.none fun c hc => ?_)
      · cases a with
        | nil =>
          rw [List.map_nil, List.nil_append, List.nil_append, List.nil_append, he] at hc
          cases hc
          exact (by decide : ∀ r ∈ neutral, r ∉ bs!"xXoObB") _ hn
        | cons b a => cases hc; exact (hd b (h b (by simp))).2
      · obtain ⟨b, hb, rfl⟩ := List.mem_map.1 hc
        exact (hd b (h b (by simp [hb]))).1
      · rw [List.nil_append, List.nil_append, he] at hc; cases hc; exact neutral_decimal _ hn
      · rw [List.nil_append, he] at hc; cases hc; exact (by decide : ∀ r ∈ neutral, r ≠ ch!".") _ hn
      · rw [he] at hc; cases hc; exact (by decide : ∀ r ∈ neutral, r ∉ bs!"eEpP") _ hn
    rw [decode_digits h]
    simpa using key
  have := lex_one hl (o := o) (M := M') (by rw [bytesOf_decode]; exact hM)
  rw [bytesOf_decode] at this
  exact this

theorem part_symbol {o c : Nat} (h : c ∈ bs!"=<>/*-+!?':,;.[]()") : Part U o [c] [.sym o [c]] := by
  have hf : ∀ c ∈ bs!"=<>/*-+!?':,;.[]()", c < 128 ∧ c ∈ marks1 ∧ c ∉ bs!"$}" := by decide
  refine part_item (A := [⟨.mark c, o, o + 1⟩]) (by simp) rfl (fun y M' hy hM => ?_) (fun Y => .symbol h) ?_ ?_
  · rw [decode_ascii_cons _ (hf c h).1, decode_nil]
    refine lex_one (o := o) (a := [⟨c, [c]⟩]) (.mark (hf c h).2.1 fun _ d hd => ?_) hM
    obtain ⟨e, he, hn⟩ := hy
    rw [hd] at he
    cases he
    exact (by decide : ∀ r ∈ neutral, r ∉ bs!"0123456789") _ hn
  · intro d hd he
    simp only [List.head?_cons, Option.map_some, Option.some.injEq, Lex.mark.injEq] at he
    subst he
    exact (hf _ h).2.2 hd
  · intro he
    simp only [List.head?_cons, Option.map_some, Option.some.injEq, Lex.mark.injEq] at he
    subst he
    exact ⟨o, rfl⟩

/-- The name of a macro. -/
theorem lex_name {o : Nat} {t : GoString} (ht : WordText U t) {y : List Ch} {M : List Lexed} (hy : ∃ c, y.head? = some c ∧ c.r ∈ neutral)
    (h : Lexes U (o + 1 + t.length) y M) : Lexes U o (decode (92 :: t) ++ y) (⟨.name (92 :: t), o, o + 1 + t.length⟩ :: M) := by
  obtain ⟨h1, h2⟩ := ht
  have hl : Lexeme U (⟨92, [92]⟩ :: [] ++ decode t) (.name (bs!"\\" ++ bytesOf (decode t))) y := by
    refine .name rfl ?_ (by simp) ?_
    · intro c hc
      cases hd : decode t with
      | nil =>
        have := bytesOf_decode t
        rw [hd] at this
        exact absurd this.symm h1
      | cons d a =>
        rw [hd] at hc
        cases hc
        intro e
        have := h2 c (by rw [hd]; simp)
        rw [e, neutral_letter U _ (by decide)] at this
        cases this
    · cases hd : decode t with
      | nil =>
        have := bytesOf_decode t
        rw [hd] at this
        exact absurd this.symm h1
      | cons d a =>
        rw [hd] at h2
        refine .word (h2 d (by simp)) ⟨fun e he => h2 e (by simp [he]), fun c hc => ?_⟩
        obtain ⟨e, he, hn⟩ := hy
        rw [hc] at he
        cases he
        exact neutral_letter U _ hn
  have hb : (bytesOf ((⟨92, [92]⟩ : Ch) :: [] ++ decode t)).length = 1 + t.length := by
    rw [bytes_append, bytesOf_decode]
    rfl
  have := lex_one hl (o := o) (M := M) (by rw [hb, ← Nat.add_assoc]; exact h)
  rw [hb, bytesOf_decode, ← Nat.add_assoc] at this
  rw [decode_ascii_cons _ (by omega)]
  exact this

/-- The arguments of a macro. -/
theorem parts_args (args : List (GoString × List Node)) (h : ∀ a ∈ args, Formula U a.1 a.2) (o : Nat) : ∃ A : List Lexed,
    (∀ y M', (∃ c : Ch, y.head? = some c ∧ c.r ∈ neutral) → Lexes U (o + (args.flatMap fun a => braced a.1).length) y M' →
      Lexes U o (decode (args.flatMap fun a => braced a.1) ++ y) (A ++ M')) ∧
    (∀ Y, Args true args.length (A ++ Y) (argNodes o args) Y) ∧ ((args = [] ∧ A = []) ∨ ∃ e, A.head? = some ⟨.mark ch!"{", o, e⟩) := by
  induction args generalizing o with
  | nil => exact ⟨[], fun y M' _ hM => by rw [List.flatMap_nil, decode_nil]; exact hM, fun Y => .done, .inl ⟨rfl, rfl⟩⟩
  | cons a args ih =>
    have ha := formula_part (h a (by simp)) o
    rw [Nat.add_comm 1 o] at ha
    obtain ⟨A, h1, h2⟩ := ha.braces
    obtain ⟨B, i1, i2, -⟩ := ih (fun b hb => h b (by simp [hb])) (o + 2 + a.1.length)
    refine ⟨⟨.mark ch!"{", o, o + 1⟩ :: (A ++ B), fun y M' hy hM => ?_, fun Y => ?_, .inr ⟨_, rfl⟩⟩
    · have hd : decode ((a :: args).flatMap fun a => braced a.1) = decode (braced a.1) ++ decode (args.flatMap fun a => braced a.1) := by
        rw [List.flatMap_cons]
        cases args with
        | nil => rw [List.flatMap_nil, List.append_nil, decode_nil, List.append_nil]
        | cons b args => exact decode_two ⟨123, rfl, by decide⟩
      rw [hd, List.append_assoc, List.cons_append, List.append_assoc]
      refine h1 _ _ (i1 _ _ hy ?_)
      rw [List.flatMap_cons, List.length_append, braced_length] at hM
      rw [show o + 2 + a.1.length + (args.flatMap fun a => braced a.1).length = o + (a.1.length + 2 + (args.flatMap fun a => braced a.1).length) by omega]
      exact hM
    · rw [List.cons_append, List.append_assoc]
      exact .more (h2 (B ++ Y)) (i2 Y)

theorem part_macro {o : Nat} {t : GoString} (ht : WordText U t) (hk : Known (92 :: t)) (args : List (GoString × List Node)) (hn : args.length = arity (92 :: t))
    (h : ∀ a ∈ args, Formula U a.1 a.2) : Part U o (92 :: t ++ args.flatMap fun a => braced a.1) [.macro (some (o, 92 :: t)) (argNodes (o + 1 + t.length) args)] := by
  obtain ⟨A, h1, h2, h3⟩ := parts_args args h (o + 1 + t.length)
  refine part_item (A := ⟨.name (92 :: t), o, o + 1 + t.length⟩ :: A) (by simp) rfl (fun y M' hy hM => ?_) (fun Y => ?_) (by simp) (by simp)
  · have hd : decode (92 :: t ++ args.flatMap fun a => braced a.1) = decode (92 :: t) ++ decode (args.flatMap fun a => braced a.1) := by
      cases args with
      | nil => rw [List.flatMap_nil, List.append_nil, decode_nil, List.append_nil]
      | cons b args => exact decode_two ⟨123, rfl, by decide⟩
    rw [hd, List.append_assoc]
    refine lex_name ht ?_ (h1 _ _ hy ?_)
    · cases args with
      | nil => rw [List.flatMap_nil, decode_nil]; exact hy
      | cons b args => exact head_decode ⟨123, rfl, by decide⟩ _
    · rw [List.length_append, List.length_cons] at hM
      rw [show o + 1 + t.length + (args.flatMap fun a => braced a.1).length = o + (t.length + 1 + (args.flatMap fun a => braced a.1).length) by omega]
      exact hM
  · refine .macro hk (hn ▸ h2 Y) fun hs e' he => ?_
    rcases h3 with ⟨rfl, -⟩ | ⟨e, h3⟩
    · rw [hs] at hn
      revert hn
      decide
    · cases A with
      | nil => cases h3
      | cons x A =>
        cases h3
        cases he

theorem part_root {o : Nat} {a b : GoString} {la lb : List Node} (ha : Formula U a la) (hb : Formula U b lb) (hbr : ∀ p, Node.sym p bs!"]" ∉ la) :
    Part U o (bs!"\\sqrt[" ++ a ++ bs!"]" ++ braced b)
      [.macro (some (o, bs!"\\sqrt")) [.optArg (o + 5) (shiftL (o + 5) la) (o + 6 + a.length), .arg (o + 7 + a.length) (shiftL (o + 7 + a.length) lb) (o + 8 + a.length + b.length)]] := by
  have ha' := formula_part ha (o + 5)
  obtain ⟨A, a1, a2⟩ := ha'
  have hb' := formula_part hb (o + 7 + a.length)
  rw [Nat.add_comm 1] at hb'
  obtain ⟨B, b1, b2⟩ := hb'.braces
  have hmem : ∀ (l : List Node) (d p : Nat), Node.sym p bs!"]" ∈ shiftL d l → ∃ q, Node.sym q bs!"]" ∈ l := by
    intro l d p hn
    induction l with
    | nil => cases hn
    | cons m l ih =>
      rcases List.mem_cons.1 hn with hn | hn
      · cases m <;> simp only [shift, Node.sym.injEq, reduceCtorEq] at hn
        obtain ⟨-, rfl⟩ := hn
        exact ⟨_, List.mem_cons_self⟩
      · obtain ⟨q, hq⟩ := ih hn
        exact ⟨q, List.mem_cons_of_mem _ hq⟩
  have ht : WordText U bs!"sqrt" := ⟨by decide, by
    intro c hc
    rw [decode_ascii_cons _ (by omega), decode_ascii_cons _ (by omega), decode_ascii_cons _ (by omega), decode_ascii_cons _ (by omega), decode_nil] at hc
    simp only [List.mem_cons, List.not_mem_nil, or_false] at hc
    rcases hc with rfl | rfl | rfl | rfl <;> rfl⟩
  refine part_item (A := ⟨.name bs!"\\sqrt", o, o + 5⟩ :: ⟨.mark ch!"[", o + 5, o + 5 + 1⟩ ::
    (A ++ (⟨.mark ch!"]", o + 6 + a.length, o + 6 + a.length + 1⟩ :: ⟨.mark ch!"{", o + 7 + a.length, o + 7 + a.length + 1⟩ :: B))) (by simp) rfl
    (fun y M' hy hM => ?_) (fun Y => ?_) (by simp) (by simp)
  · have hd : decode (bs!"\\sqrt[" ++ a ++ bs!"]" ++ braced b) ++ y = decode bs!"\\sqrt" ++ (⟨91, [91]⟩ :: (decode a ++ (⟨93, [93]⟩ :: (decode (braced b) ++ y)))) := by
      rw [show bs!"\\sqrt[" ++ a ++ bs!"]" ++ braced b = bs!"\\sqrt" ++ 91 :: (a ++ 93 :: (braced b)) by simp,
        decode_append _ _ (by omega), decode_ascii_cons (b := 91) _ (by omega), decode_append a (c := 93) _ (by omega), decode_ascii_cons (b := 93) _ (by omega)]
      simp
    rw [hd]
    refine lex_name ht ⟨_, rfl, by decide⟩ (lex_mark (by decide) (by decide) ?_)
    refine (?_ : Lexes U _ _ (A ++ _ ++ M'))
    rw [List.append_assoc]
    have e1 : o + 1 + (bs!"sqrt").length + 1 = 1 + (o + 5) := by simp; omega
    rw [e1]
    refine a1 _ _ ⟨_, rfl, by decide⟩ ?_
    have e2 : 1 + (o + 5) + a.length = o + 6 + a.length := by omega
    rw [e2]
    refine lex_mark (by decide) (by decide) ?_
    rw [show o + 6 + a.length + 1 = o + 7 + a.length by omega]
    refine b1 _ _ ?_
    have e3 : o + (bs!"\\sqrt[" ++ a ++ bs!"]" ++ braced b).length = o + 7 + a.length + 2 + b.length := by
      simp only [List.length_append, List.length_cons, List.length_nil, braced_length]; omega
    rw [e3] at hM
    exact hM
  · simp only [List.cons_append, List.append_assoc]
    refine .root (L1 := ⟨.mark ch!"{", o + 7 + a.length, o + 7 + a.length + 1⟩ :: (B ++ Y)) (p := o + 6 + a.length) ?_ ?_
    · have := a2 .bracket (.inr (.inr ⟨rfl, fun p hp => ?_⟩)) (⟨.mark ch!"]", o + 6 + a.length, o + 6 + a.length + 1⟩ :: ⟨.mark ch!"{", o + 7 + a.length, o + 7 + a.length + 1⟩ :: (B ++ Y)) [] _ _ (.close rfl)
      · rw [List.append_nil] at this
        exact this
      · obtain ⟨q, hq⟩ := hmem _ _ _ hp
        exact hbr q hq
    · refine .more (p := o + 8 + a.length + b.length) ?_ .done
      rw [show o + 8 + a.length + b.length = o + 7 + a.length + 1 + b.length by omega]
      exact b2 Y

mutual
theorem shift_zero : ∀ n, shift 0 n = n
  | .nil => rfl
  | .list l => by simp only [shift, shiftL_zero l]
  | .macro none l => by simp only [shift, shiftL_zero l, Option.map_none]
  | .macro (some _) l => by simp only [shift, shiftL_zero l, Option.map_some, Nat.add_zero]
  | .arg _ l b => by simp only [shift, shiftL_zero l, Nat.add_zero]; split <;> simp [*]
  | .optArg _ l b => by simp only [shift, shiftL_zero l, Nat.add_zero]; split <;> simp [*]
  | .ident _ _ => rfl
  | .math _ _ l b => by simp only [shift, shiftL_zero l, Nat.add_zero]; split <;> simp [*]
  | .word _ _ => rfl
  | .lit _ _ => rfl
  | .sym _ _ => rfl
  | .sub _ n => by simp only [shift, shift_zero n, Nat.add_zero]
  | .sup _ n => by simp only [shift, shift_zero n, Nat.add_zero]
theorem shiftL_zero : ∀ l, shiftL 0 l = l
  | [] => rfl
  | n :: l => by simp only [shiftL, shift_zero n, shiftL_zero l]
end

/-! ## The theorems -/

/-- One formula after another: the trees of the first, and then the trees of the second, moved. The second begins with a character
that cannot be part of a word or number at the end of the first. -/
theorem C93_seq (x y : GoString) (l l' : List Node) (hx : Formula U x l) (hy : Formula U y l') (h : ∃ c, y.head? = some c ∧ c ∈ neutral) :
    Formula U (x ++ y) (l ++ shiftL x.length l') := by
  refine Part.formula (Part.seq ?_ (formula_part hy x.length) h)
  have := formula_part hx 0
  rwa [shiftL_zero] at this

/-- A blank before a formula leaves no trace. -/
theorem C93_blank (x : GoString) (l : List Node) (hx : Formula U x l) : Formula U (bs!" " ++ x) (shiftL 1 l) :=
  Part.formula (Part.space (formula_part hx 1))

/-- A formula in braces is one item. -/
theorem C93_group (a : GoString) (l : List Node) (ha : Formula U a l) : Formula U (braced a) [.list (shiftL 1 l)] :=
  Part.formula (Part.group (formula_part ha 1))

/-- Any formula can be a superscript, or a subscript. -/
theorem C93_scripts (a : GoString) (l : List Node) (ha : Formula U a l) :
    Formula U (bs!"^" ++ braced a) [.sup 1 (.list (shiftL 2 l))] ∧ Formula U (bs!"_" ++ braced a) [.sub 1 (.list (shiftL 2 l))] :=
  ⟨Part.formula (part_script (o := 1) (formula_part ha 2) 94 (.inl rfl)), Part.formula (part_script (o := 1) (formula_part ha 2) 95 (.inr rfl))⟩

/-- Any formulas can be the arguments of a macro, in braces, if there are as many as it has. -/
theorem C93_macro (t : GoString) (ht : WordText U t) (hk : Known (bs!"\\" ++ t)) (args : List (GoString × List Node)) (hn : args.length = arity (bs!"\\" ++ t))
    (h : ∀ a ∈ args, Formula U a.1 a.2) :
    Formula U (bs!"\\" ++ t ++ args.flatMap fun a => braced a.1) [.macro (some (1, bs!"\\" ++ t)) (argNodes (t.length + 2) args)] := by
  have := Part.formula (part_macro (o := 1) ht hk args hn h)
  rw [show 1 + 1 + t.length = t.length + 2 by omega] at this
  exact this

/-- Any formula can be the index of a root, if no closing bracket is at its top. -/
theorem C93_root (a b : GoString) (la lb : List Node) (ha : Formula U a la) (hb : Formula U b lb) (hbr : ∀ p, Node.sym p bs!"]" ∉ la) :
    Formula U (bs!"\\sqrt[" ++ a ++ bs!"]" ++ braced b)
      [.macro (some (1, bs!"\\sqrt")) [.optArg 6 (shiftL 6 la) (a.length + 7), .arg (a.length + 8) (shiftL (a.length + 8) lb) (a.length + b.length + 9)]] := by
  have := Part.formula (part_root (o := 1) ha hb hbr)
  rw [show 1 + 6 + a.length = a.length + 7 by omega, show 1 + 7 + a.length = a.length + 8 by omega, show 1 + 8 + a.length + b.length = a.length + b.length + 9 by omega] at this
  exact this

/-- The formulas to begin with: words, numbers, symbols. -/
theorem C93_atoms : (∀ t, WordText U t → Formula U t [.word 1 t]) ∧ (∀ t, t ≠ [] → (∀ b ∈ t, b ∈ bs!"0123456789") → Formula U t [.lit 1 t]) ∧
    ∀ c ∈ bs!"=<>/*-+!?':,;.[]()", Formula U [c] [.sym 1 [c]] :=
  ⟨fun _ h => Part.formula (part_word h), fun _ h0 h => Part.formula (part_number h0 h), fun _ h => Part.formula (part_symbol h)⟩

/-- A formula between dollar signs can be a line of any source (with C89: nothing in it changes the lines after it). -/
theorem C93_line (x : GoString) (l : List Node) (h : Formula U x l) : Complete U (bs!"$" ++ x ++ bs!"$") [.math bs!"$" 0 l (x.length + 1)] := by
  have h0 := formula_part h 0
  rw [shiftL_zero] at h0
  obtain ⟨A, h1, h2⟩ := h0
  unfold Complete
  rw [C83_grammar]
  refine ⟨⟨.mark ch!"$", 0, 1⟩ :: (A ++ [⟨.mark ch!"$", 1 + x.length, 1 + x.length + 1⟩, ⟨.word bs!"x", 1 + x.length + 2, 1 + x.length + 3⟩]),
    [.math bs!"$" 0 l (x.length + 1), .word (x.length + 3) bs!"x"], ?_, ?_, ?_⟩
  · have e : bs!"$" ++ x ++ bs!"$" ++ bs!"\nx" = 36 :: (x ++ 36 :: 10 :: 120 :: []) := by simp
    unfold LexesOf
    rw [e, show stripBom (36 :: (x ++ 36 :: 10 :: 120 :: [])) = 36 :: (x ++ 36 :: 10 :: 120 :: []) from rfl, Nat.sub_self, decode_ascii_cons _ (by omega), decode_append _ _ (by omega),
      decode_ascii_cons _ (by omega), decode_ascii_cons _ (by omega), decode_ascii_cons _ (by omega), decode_nil]
    refine lex_mark (by decide) (by decide) (h1 _ _ ⟨_, rfl, by decide⟩ (lex_mark (by decide) (by decide) ?_))
    exact Lexes.more (U := U) (o := 1 + x.length + 1) (w := [⟨10, [10]⟩]) (a := [⟨120, [120]⟩]) (rest := []) (L := []) (by simp [isBreak])
      (.word (c := ⟨120, [120]⟩) (a := []) (by rfl) ⟨by simp, by simp⟩) (.done (by simp))
  · have : Items true .dollar (A ++ [⟨.mark ch!"$", 1 + x.length, 1 + x.length + 1⟩, ⟨.word bs!"x", 1 + x.length + 2, 1 + x.length + 3⟩]) (l ++ []) (1 + x.length)
        [⟨.word bs!"x", 1 + x.length + 2, 1 + x.length + 3⟩] :=
      h2 _ (.inl rfl) _ _ _ _ (.close rfl)
    rw [List.append_nil] at this
    rw [Nat.add_comm x.length 1, show x.length + 3 = 1 + x.length + 2 by omega]
    exact .item (n := .math bs!"$" 0 l (1 + x.length)) (by simp [Until.mark]) (.math this) (.item (n := .word _ _) (by simp [Until.mark]) .word .eof)
  · simp only [List.length_append, List.length_cons, List.length_nil, List.cons_append, List.nil_append]

/-! ## Non-vacuity -/

/-- Two formulas in a fraction. -/
example : Formula U bs!"\\frac{x+\\sqrt{2}}{y^{2}}" [.macro (some (1, bs!"\\frac"))
    [.arg 6 [.word 7 bs!"x", .sym 8 bs!"+", .macro (some (9, bs!"\\sqrt")) [.arg 14 [.lit 15 bs!"2"] 16]] 17,
      .arg 18 [.word 19 bs!"y", .sup 20 (.list [.lit 22 bs!"2"])] 24]] :=
  C93_macro bs!"frac" ⟨by decide, by
      intro c hc
      rw [decode_ascii_cons _ (by omega), decode_ascii_cons _ (by omega), decode_ascii_cons _ (by omega), decode_ascii_cons _ (by omega), decode_nil] at hc
      simp only [List.mem_cons, List.not_mem_nil, or_false] at hc
      rcases hc with rfl | rfl | rfl | rfl <;> rfl⟩ ⟨by decide, .inl (by decide +kernel)⟩
    [(bs!"x+\\sqrt{2}", [.word 1 bs!"x", .sym 2 bs!"+", .macro (some (3, bs!"\\sqrt")) [.arg 8 [.lit 9 bs!"2"] 10]]), (bs!"y^{2}", [.word 1 bs!"y", .sup 2 (.list [.lit 4 bs!"2"])])]
    (by decide +kernel) (by
      intro a ha
      simp only [List.mem_cons, List.not_mem_nil, or_false] at ha
      rcases ha with rfl | rfl <;> (unfold Formula; krfl))

/-- Not every string is a formula: one that closes a brace it did not open, one that opens a brace it does not close, one with a dollar sign, one
that ends with a macro that waits for its argument. -/
example : ∀ x ∈ [bs!"}{", bs!"{", bs!"a$b", bs!"\\sqrt"], ∀ l, ¬ Formula U x l := by
  intro x hx l h
  simp only [List.mem_cons, List.not_mem_nil, or_false] at hx
  unfold Formula at h
  rcases hx with rfl | rfl | rfl | rfl
  · have e : parseExpr U (bs!"$" ++ bs!"}{" ++ bs!"$") = .panic .impossible := by krfl
    rw [e] at h; cases h
  · have e : parseExpr U (bs!"$" ++ bs!"{" ++ bs!"$") = .ok (.list [.math bs!"$" 0 [.list [.math bs!"$" 2 [] 0]] 0]) := by krfl
    rw [e] at h; simp at h
  · have e : parseExpr U (bs!"$" ++ bs!"a$b" ++ bs!"$") = .ok (.list [.math bs!"$" 0 [.word 1 bs!"a"] 2, .word 3 bs!"b", .math bs!"$" 4 [] 0]) := by krfl
    rw [e] at h; simp at h
  · have e : parseExpr U (bs!"$" ++ bs!"\\sqrt" ++ bs!"$") = .panic (.expected 123) := by krfl
    rw [e] at h; cases h

/-- The character between two formulas matters: `2` and `_{i}` are formulas, but `2_{i}` is not the one after the other (a number can
contain underscores). -/
theorem C93_fusion : Formula U bs!"2" [.lit 1 bs!"2"] ∧ Formula U bs!"_{i}" [.sub 1 (.list [.word 3 bs!"i"])] ∧
    Formula U (bs!"2" ++ bs!"_{i}") [.lit 1 bs!"2_", .list [.word 4 bs!"i"]] := by
  refine ⟨?_, ?_, ?_⟩ <;> (unfold Formula; krfl)

end Verif.Props
