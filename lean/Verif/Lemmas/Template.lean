import Verif.Lemmas.Concat
import Verif.Spec.Template
/-! # Formulas as parts of other formulas -/

namespace Verif
open Spec
variable {U : Nat → Bool}

/-! ## Lexemes before a neutral character -/

/-- `rest'` begins like `rest`, or with a neutral character. -/
def Follow (rest rest' : List Ch) : Prop := rest.head? = rest'.head? ∨ ∃ c, rest'.head? = some c ∧ c.r ∈ neutral

theorem Follow.all {rest rest' : List Ch} (e : Follow rest rest') {P : Nat → Prop} (hP : ∀ r ∈ neutral, P r)
    (h : ∀ c, rest.head? = some c → P c.r) : ∀ c, rest'.head? = some c → P c.r := by
  intro c hc
  rcases e with e | ⟨d, e, hd⟩
  · exact h c (e.trans hc)
  · rw [hc] at e; cases e; exact hP _ hd

theorem Follow.append {a rest rest' : List Ch} (e : Follow rest rest') : Follow (a ++ rest) (a ++ rest') := by
  cases a with
  | nil => exact e
  | cons => exact .inl rfl

theorem neutral_letter (U : Nat → Bool) : ∀ r ∈ neutral, isLetter U r = false := by
  intro r hr
  have h : ∀ r ∈ neutral, r < 128 ∧ ((65 ≤ r && r ≤ 90) || (97 ≤ r && r ≤ 122)) = false := by decide
  unfold isLetter
  rw [if_pos (h r hr).1]
  exact (h r hr).2

theorem run_follow {p : Nat → Bool} (hp : ∀ r ∈ neutral, p r = false) {a rest rest' : List Ch} (h : Run p a rest) (e : Follow rest rest') : Run p a rest' :=
  ⟨h.1, e.all hp h.2⟩

theorem neutral_decimal : ∀ r ∈ neutral, decimal r = false := by decide
theorem neutral_hex : ∀ r ∈ neutral, hexadecimal r = false := by decide

theorem begins_digits {p : Nat → Bool} {a rest : List Ch} (h : Begins a p rest) : ∀ r ∈ neutral, p r = false := by
  cases h with
  | hex => exact neutral_hex
  | other => exact neutral_decimal
  | digit => exact neutral_decimal

theorem exponent_follow {a rest rest' : List Ch} (h : Exponent a rest) (e : Follow rest rest') : Exponent a rest' := by
  cases h with
  | none h => exact .none (e.all (P := (· ∉ bs!"eEpP")) (by decide) h)
  | some h1 h2 h3 => exact .some h1 (e.append.all (P := (· ∉ bs!"+-")) (by decide) h2) (run_follow neutral_decimal h3 e)
  | signed h1 h2 h3 => exact .signed h1 h2 (run_follow neutral_decimal h3 e)

theorem fraction_follow {p : Nat → Bool} (hp : ∀ r ∈ neutral, p r = false) {a rest rest' : List Ch} (h : Fraction p a rest) (e : Follow rest rest') :
    Fraction p a rest' := by
  cases h with
  | none h => exact .none (e.all (P := (· ≠ ch!".")) (by decide) h)
  | some h1 h2 => exact .some h1 (run_follow hp h2 e)

theorem begins_follow {p : Nat → Bool} {a rest rest' : List Ch} (h : Begins a p rest) (e : Follow rest rest') : Begins a p rest' := by
  cases h with
  | hex h1 h2 => exact .hex h1 h2
  | other h1 h2 => exact .other h1 h2
  | digit h1 h2 => exact .digit h1 fun h0 => e.all (P := (· ∉ bs!"xXoObB")) (by decide) (h2 h0)

theorem number_follow {a rest rest' : List Ch} (h : Number a rest) (e : Follow rest rest') : Number a rest' := by
  cases h with
  | mk h1 h2 h3 h4 =>
    exact .mk (begins_follow h1 e.append) (run_follow (begins_digits h1) h2 e.append) (fraction_follow (begins_digits h1) h3 e.append) (exponent_follow h4 e)
  | dot h1 h2 h3 h4 => exact .dot h1 h2 (run_follow neutral_decimal h3 e.append) (exponent_follow h4 e)

theorem quoted_follow {a rest rest' : List Ch} (h : Quoted a rest) (hr : rest ≠ []) : Quoted a rest' := by
  induction h with
  | eof => exact absurd rfl hr
  | close h => exact .close h
  | guarded h1 h2 h3 ih => exact .guarded h1 h2 (ih hr)
  | @plain c a rest h1 h2 h3 ih =>
    obtain ⟨f, b, rfl⟩ := List.exists_cons_of_ne_nil (quoted_ne h3 hr)
    exact .plain h1 (fun hc d hd => h2 hc d hd) (ih hr)

theorem comment_follow {a rest rest' : List Ch} (h : Comment a rest) (hr : rest ≠ []) : Comment a rest' := by
  induction h with
  | eof => exact absurd rfl hr
  | close h => exact .close h
  | plain h1 h3 ih => exact .plain h1 (ih hr)
  | @quoted q a b rest h1 h2 h3 ih => exact .quoted h1 (quoted_follow h2 (by simp [comment_ne h3 hr])) (ih hr)

theorem name_follow {a rest rest' : List Ch} (h : Name U a rest) (hr : rest ≠ []) (e : Follow rest rest') : Name U a rest' := by
  cases h with
  | nothing => exact absurd rfl hr
  | word h1 h2 => exact .word h1 (run_follow (neutral_letter U) h2 e)
  | number h => exact .number (number_follow h e)
  | quoted h1 h2 => exact .quoted h1 (quoted_follow h2 hr)
  | char h1 h2 h3 => exact .char h1 h2 fun hc => e.all (P := (· ∉ bs!"0123456789")) (by decide) (h3 hc)

theorem lexeme_follow {a rest rest' : List Ch} {k : Lex} (h : Lexeme U a k rest) (hr : rest ≠ []) (e : Follow rest rest') : Lexeme U a k rest' := by
  cases h with
  | word h1 h2 => exact .word h1 (run_follow (neutral_letter U) h2 e)
  | number h => exact .number (number_follow h e)
  | blank h => exact .blank h
  | escaped h1 h2 => exact .escaped h1 h2
  | comment h1 h2 => exact .comment h1 (comment_follow h2 hr)
  | @name b w a rest h1 h2 h3 h4 =>
    obtain ⟨f, d, rfl⟩ := List.exists_cons_of_ne_nil (name_ne h4 hr)
    refine .name h1 (fun c hc => h2 c ?_) h3 (name_follow h4 hr e)
    cases w <;> exact hc
  | quoted h1 h2 => exact .quoted h1 (quoted_follow h2 hr)
  | mark h1 h2 => exact .mark h1 fun hc => e.all (P := (· ∉ bs!"0123456789")) (by decide) (h2 hc)

/-- A lexeme moved. -/
def Spec.Lexed.mv (d : Nat) (x : Lexed) : Lexed := ⟨x.lex, x.start + d, x.stop + d⟩

/-- The lexemes of some characters, before a lexeme that begins after them: they are the lexemes of these characters before
any neutral character, anywhere. -/
theorem lexes_part {o : Nat} {c1 z : List Ch} {A B : List Lexed} {X : Lexed} (hW : ∀ c ∈ c1 ++ z, c.Ok)
    (h : Lexes U o (c1 ++ z) (A ++ X :: B)) (hX : X.start = o + (bytesOf c1).length) :
    (∀ x ∈ A, o ≤ x.start ∧ x.start < X.start) ∧ ∀ d y M', (∃ c, y.head? = some c ∧ c.r ∈ neutral) → Lexes U (o + d + (bytesOf c1).length) y M' →
      Lexes U (o + d) (c1 ++ y) (A.map (Lexed.mv d) ++ M') := by
  induction A generalizing o c1 with
  | nil =>
    refine ⟨by simp, fun d y M' _ hM => ?_⟩
    have hc : ∀ c ∈ c1, isBreak c.r = true := by
      generalize hx : c1 ++ z = x at h
      rw [List.nil_append] at h
      cases h with
      | @more _ w a k rest _ h1 h2 h3 =>
        rw [List.append_assoc] at hx
        have hX' : o + (bytesOf w).length = o + (bytesOf c1).length := hX
        obtain ⟨d, e1, e2⟩ := beginning hx hW (by omega)
        intro c hc
        exact h1 c (by rw [e1]; simp [hc])
    exact (lexes_breaks hc _ _).2 hM
  | cons x A ih =>
    generalize hx : c1 ++ z = cs at h
    rw [List.cons_append] at h
    cases h with
    | @more _ w a k rest _ h1 h2 h3 =>
      have hge := lexes_ge h3 X (by simp)
      obtain ⟨c0, b0, ha, hbr⟩ := lexeme_start h2
      have hWa : ∀ c ∈ w ++ a ++ rest, c.Ok := by rw [← hx]; exact hW
      have hpos := bytes_pos (a := a) (fun c hc => hWa c (by simp [hc])) (by rw [ha]; simp)
      obtain ⟨c2, e1, e2⟩ := beginning (p := w ++ a) (q := rest) (p' := c1) (q' := z) hx.symm hWa (by rw [bytes_append]; omega)
      subst e1 e2
      have hb : (bytesOf (w ++ a ++ c2)).length = (bytesOf w).length + (bytesOf a).length + (bytesOf c2).length := by rw [bytes_append, bytes_append]
      obtain ⟨i1, i2⟩ := ih (o := o + (bytesOf w).length + (bytesOf a).length) (c1 := c2) (fun c hc => hWa c (by simp only [List.mem_append] at hc ⊢; tauto)) h3 (by rw [hX, hb]; omega)
      have hz : c2 ++ z ≠ [] := by
        intro hz
        rw [hz] at h3
        generalize hL : A ++ X :: B = L at h3
        generalize he : ([] : List Ch) = e at h3
        cases h3 with
        | done => simp at hL
        | more _ h4 _ =>
          obtain ⟨_, _, rfl, _⟩ := lexeme_start h4
          simp at he
      refine ⟨?_, fun d y M' hy hM => ?_⟩
      · intro y hy
        rcases List.mem_cons.1 hy with rfl | hy
        · exact ⟨Nat.le_add_right _ _, by show o + (bytesOf w).length < X.start; omega⟩
        · have := i1 y hy; exact ⟨by omega, this.2⟩
      · have haf : Lexeme U a k (c2 ++ y) := lexeme_follow h2 hz (by
          cases c2 with
          | cons => exact .inl rfl
          | nil => exact .inr hy)
        rw [List.append_assoc (w ++ a) c2 y, List.map_cons, List.cons_append]
        have e1 : o + (bytesOf w).length + (bytesOf a).length + d = o + d + (bytesOf w).length + (bytesOf a).length := by omega
        have := i2 d y M' hy (by rw [hb] at hM; rw [show o + (bytesOf w).length + (bytesOf a).length + d + (bytesOf c2).length =
          o + d + ((bytesOf w).length + (bytesOf a).length + (bytesOf c2).length) by omega]; exact hM)
        rw [e1] at this
        have e2 : (⟨k, o + (bytesOf w).length, o + (bytesOf w).length + (bytesOf a).length⟩ : Lexed).mv d =
            ⟨k, o + d + (bytesOf w).length, o + d + (bytesOf w).length + (bytesOf a).length⟩ := by
          show (⟨_, _, _⟩ : Lexed) = _
          congr 1 <;> (dsimp only; omega)
        rw [e2]
        exact .more h1 haf this

/-! ## Items moved -/

theorem shiftL_keep (d : Nat) (n : Node) (l : List Node) : shiftL d (keep n l) = keep (shift d n) (shiftL d l) := by
  cases n <;> simp [keep, shift, shiftL]

/-- Moving a position; 0 is none. -/
def mvEnd (d p : Nat) : Nat := if p = 0 then 0 else p + d

theorem mv_head {d e : Nat} {L : List Lexed} (h : ∀ e', L.head? ≠ some ⟨.mark ch!"[", e, e'⟩) :
    ∀ e', (L.map (Lexed.mv d)).head? ≠ some ⟨.mark ch!"[", e + d, e'⟩ := by
  intro e' he
  cases L with
  | nil => cases he
  | cons x L =>
    obtain ⟨k, a, b⟩ := x
    simp only [List.map_cons, List.head?_cons, Lexed.mv, Option.some.injEq, Lexed.mk.injEq] at he
    obtain ⟨rfl, h1, -⟩ := he
    have : a = e := by omega
    subst this
    exact h b rfl

theorem item1_mv {m L n L1} (h : Item1 m L n L1) (d : Nat) : (∀ x ∈ L, 0 < x.start) → Item1 m (L.map (Lexed.mv d)) (shift d n) (L1.map (Lexed.mv d)) := by
  refine Item1.rec (motive_1 := fun m L n L1 _ => (∀ x ∈ L, 0 < x.start) → Item1 m (L.map (Lexed.mv d)) (shift d n) (L1.map (Lexed.mv d)))
    (motive_2 := fun m u L l p L1 _ => (∀ x ∈ L, 0 < x.start) → Items m u (L.map (Lexed.mv d)) (shiftL d l) (mvEnd d p) (L1.map (Lexed.mv d)))
    (motive_3 := fun m n L l L1 _ => (∀ x ∈ L, 0 < x.start) → Args m n (L.map (Lexed.mv d)) (shiftL d l) (L1.map (Lexed.mv d)))
    ?_ ?_ ?_ ?_ ?_ ?_ ?_ ?_ ?_ ?_ ?_ ?_ ?_ ?_ ?_ ?_ ?_ ?_ ?_ h
  · intros; exact .word
  · intros; exact .number
  · intros; exact .comment
  · intros; exact .blank
  · intros; exact .mathBlank
  · intro m c o e L hc _; exact .symbol hc
  · intro m o e L l p L' _ ih hp; exact .math (ih fun x hx => hp x (by simp [hx]))
  · intro o e L l p L' _ ih hp; exact .group (ih fun x hx => hp x (by simp [hx]))
  · intro m o e e' L l p L' _ ih hp; exact .supGroup (ih fun x hx => hp x (by simp [hx]))
  · intro m o e L n L' _ ih hp; exact .sup (ih fun x hx => hp x (by simp [hx]))
  · intro m o e e' L l p L' _ ih hp; exact .subGroup (ih fun x hx => hp x (by simp [hx]))
  · intro m o e L n L' _ ih hp; exact .sub (ih fun x hx => hp x (by simp [hx]))
  · intro m o e e' L l p L1 args L' h1 h2 ih1 ih2 hp
    obtain ⟨D, e⟩ := items_suffix h1
    exact .root (ih1 fun x hx => hp x (by simp [hx])) (ih2 fun x hx => hp x (by simp [e, hx]))
  · intro m t o e L args L' hk h1 hh ih hp
    exact .macro hk (ih fun x hx => hp x (by simp [hx])) fun ht => mv_head (hh ht)
  · intro m u _; exact .eof
  · intro m u k o e L hk hp
    have : 0 < o := hp _ (by simp : (⟨k, o, e⟩ : Lexed) ∈ _)
    rw [show mvEnd d o = o + d from if_neg (by omega)]
    exact .close hk
  · intro m u x L n L1 l p L' hx h1 h2 ih1 ih2 hp
    obtain ⟨D, -, e⟩ := item1_suffix h1
    rw [shiftL_keep]
    exact .item hx (ih1 hp) (ih2 fun y hy => hp y (by rw [e]; simp [hy]))
  · intro m L _; exact .done
  · intro m n o e L l p L1 args L' h1 h2 ih1 ih2 hp
    obtain ⟨D, e⟩ := items_suffix h1
    exact .more (ih1 fun x hx => hp x (by simp [hx])) (ih2 fun x hx => hp x (by simp [e, hx]))

/-- No item begins with a closing brace. -/
theorem item1_close {m : Bool} {x : Lexed} {L L1 : List Lexed} {n : Node} (h : Item1 m (x :: L) n L1) : x.lex ≠ .mark ch!"}" := by
  intro hx
  cases h <;> simp at hx
  · rename_i h; subst hx; revert h; decide

/-- An item that begins with a bracket is this bracket. -/
theorem item1_bracket {m : Bool} {x : Lexed} {L L1 : List Lexed} {n : Node} (h : Item1 m (x :: L) n L1) (hx : x.lex = .mark ch!"]") : ∃ o, n = .sym o bs!"]" := by
  cases h <;> simp at hx
  · subst hx; exact ⟨_, rfl⟩

/-- The list of items may end with `u`. -/
def MayEnd (l : List Node) (u : Until) : Prop := u = .dollar ∨ u = .brace ∨ (u = .bracket ∧ ∀ o, Node.sym o bs!"]" ∉ l)

/-- The items of a formula, followed by any other items. -/
theorem items_part {A : List Lexed} {X : Lexed} {l : List Node} (hX : 0 < X.start) (hA : ∀ x ∈ A, 0 < x.start ∧ x.start < X.start)
    (h : Items true .dollar (A ++ [X]) l X.start []) (d : Nat) (u : Until) (hu : MayEnd l u) (Y : List Lexed) (l2 : List Node) (p2 : Nat) (L2 : List Lexed)
    (h2 : Items true u Y l2 p2 L2) : Items true u (A.map (Lexed.mv d) ++ Y) (shiftL d l ++ l2) p2 L2 := by
  generalize hn : A.length = n
  induction n using Nat.strongRecOn generalizing A l with
  | _ n ih =>
    generalize hL : A ++ [X] = L at h
    generalize hz : ([] : List Lexed) = z at h
    generalize hp : X.start = p at h
    cases h with
    | eof => simp at hL
    | @close _ _ k o e _ hk =>
      subst hz
      cases A with
      | nil => exact h2
      | cons x A =>
        have := congrArg List.length hL
        simp at this
    | @item _ _ x L0 n1 L1 l1 _ _ hx g1 g2 =>
      subst hz
      obtain ⟨D, hD, e1⟩ := item1_suffix g1
      -- the rest does not end at the end of the input
      have hL1 : L1 ≠ [] := by
        rintro rfl
        cases g2 with
        | eof => omega
      obtain ⟨C, rfl⟩ : ∃ C, L1 = C ++ [X] := by
        rw [← hL] at e1
        rcases List.append_eq_append_iff.1 e1 with ⟨c, h4, h5⟩ | ⟨c, h4, h5⟩
        · cases c with
          | nil => exact ⟨[], by simpa using h5.symm⟩
          | cons d c =>
            rw [List.cons_append] at h5
            injection h5 with h5 h6
            exact absurd (List.append_eq_nil_iff.1 h6.symm).2 hL1
        · exact ⟨c, h5⟩
      have hA' : A = D ++ C := List.append_cancel_right (by rw [hL, e1, List.append_assoc])
      have hlen : C.length < n := by
        have := congrArg List.length hA'
        have := List.length_pos_iff.2 hD
        simp at *
        omega
      have hpos : ∀ y ∈ x :: L0, 0 < y.start := by
        intro y hy
        rw [← hL] at hy
        rcases List.mem_append.1 hy with hy | hy
        · exact (hA y hy).1
        · rw [List.mem_singleton.1 hy]; exact hX
      have hu' : MayEnd l1 u := by
        rcases hu with h | h | ⟨h, h'⟩
        · exact .inl h
        · exact .inr (.inl h)
        · refine .inr (.inr ⟨h, fun o ho => h' o ?_⟩)
          rcases keep_cases n1 l1 with ⟨_, hk⟩ | ⟨_, hk⟩ <;> rw [hk]
          · exact ho
          · exact List.mem_cons_of_mem _ ho
      have hi := ih C.length hlen (A := C) (l := l1) (fun y hy => hA y (by rw [hA']; simp [hy])) (by rw [hp]; exact g2) hu' rfl
      have hm := item1_mv (item1_after g1 (D := D) (C := C) (Z := [X]) (by simp) e1 rfl [X]) d (by
        intro y hy
        rw [← List.append_assoc, ← hA', hL] at hy
        exact hpos y hy)
      rw [List.map_append, List.map_append] at hm
      have hm2 := item1_after hm (D := D.map (Lexed.mv d)) (C := C.map (Lexed.mv d)) (Z := [X].map (Lexed.mv d)) (by simp) rfl rfl Y
      obtain ⟨x0, D0, rfl⟩ := List.exists_cons_of_ne_nil hD
      have hx0 : x0 = x := by
        rw [List.cons_append] at e1; injection e1 with e1; exact e1.symm
      subst hx0
      have hne : u.mark ≠ some (x0.mv d).lex := by
        show u.mark ≠ some x0.lex
        rcases hu with rfl | rfl | ⟨rfl, h'⟩
        · exact hx
        · intro h; injection h with h; exact item1_close g1 h.symm
        · intro h
          injection h with h
          obtain ⟨o, rfl⟩ := item1_bracket g1 h.symm
          exact h' o (by simp [keep])
      rw [hA', List.map_append, List.append_assoc, shiftL_keep]
      have hk : keep (shift d n1) (shiftL d l1) ++ l2 = keep (shift d n1) (shiftL d l1 ++ l2) := by
        cases hs : shift d n1 <;> simp [keep]
      rw [hk]
      exact .item hne hm2 hi

end Verif
