import Verif.Model.Run
import Verif.Spec.Tree
import Verif.Lemmas.Mtex
import Verif.Lemmas.Utf8
import Mathlib.Tactic.Common
/-! # What the walk of mtex.Parse looks at

Two trees that differ in positions only, and on whose symbols the two tests of `handleSymbol` agree, are walked in the
same way. -/

namespace Verif
open Spec
variable {F H : Type} [GoFloat F]
open GoFloat

/-- The test of mtex/parser.go:207-215. -/
def tightB (x : GoString) (p : Nat) (t : GoString) : Bool :=
  setHas (newSet symBinaryOperators) t && (prevChar (x.take p) == bs!"{" || setHas (newSet symLeftDelim) (prevChar (x.take p)))

/-- The tests agree for a symbol or macro name. -/
structure SymAgree (x y : GoString) (p q : Nat) (t : GoString) : Prop where
  tight : tightB x p t = tightB y q t
  dot : t = bs!"." → dotInNumber x (indexDot (x.drop p)) = dotInNumber y (indexDot (y.drop q))

/-- The test agrees for a literal. -/
def LitAgree (x y : GoString) (t : GoString) : Prop := ch!"." ∈ t → dotInNumber x (indexDot x) = dotInNumber y (indexDot y)

mutual
/-- The same tree but for positions, with tests that agree. -/
inductive Alike (x y : GoString) : Node → Node → Prop where
  | nil : Alike x y .nil .nil
  | list {l k} : AlikeL x y l k → Alike x y (.list l) (.list k)
  | macro0 {l k} : AlikeL x y l k → Alike x y (.macro none l) (.macro none k)
  | macro1 {p q t l k} : SymAgree x y p q t → AlikeL x y l k → Alike x y (.macro (some (p, t)) l) (.macro (some (q, t)) k)
  | arg {a b c d l k} : AlikeL x y l k → Alike x y (.arg a l b) (.arg c k d)
  | optArg {a b c d l k} : AlikeL x y l k → Alike x y (.optArg a l b) (.optArg c k d)
  | ident {p q t} : Alike x y (.ident p t) (.ident q t)
  | math {a b c d g h l k} : AlikeL x y l k → Alike x y (.math g a l b) (.math h c k d)
  | word {p q t} : Alike x y (.word p t) (.word q t)
  | lit {p q t} : LitAgree x y t → Alike x y (.lit p t) (.lit q t)
  | sym {p q t} : SymAgree x y p q t → Alike x y (.sym p t) (.sym q t)
  | sub {p q n m} : Alike x y n m → Alike x y (.sub p n) (.sub q m)
  | sup {p q n m} : Alike x y n m → Alike x y (.sup p n) (.sup q m)
/-- The same for lists. -/
inductive AlikeL (x y : GoString) : List Node → List Node → Prop where
  | nil : AlikeL x y [] []
  | cons {n m l k} : Alike x y n m → AlikeL x y l k → AlikeL x y (n :: l) (m :: k)
end

variable {x y : GoString}

theorem walk_alike {S : Type} (vx vy : Visit Unit S) (hv : ∀ n m s, Alike x y n m → vx () n s = vy () m s) {n m : Node}
    (h : Alike x y n m) : ∀ s, walk vx () n s = walk vy () m s := by
  refine Alike.rec (motive_1 := fun n m _ => ∀ s, walk vx () n s = walk vy () m s)
    (motive_2 := fun l k _ => ∀ s, walkList vx () l s = walkList vy () k s) ?_ ?_ ?_ ?_ ?_ ?_ ?_ ?_ ?_ ?_ ?_ ?_ ?_ ?_ ?_ h
  · intro s; rw [walk.eq_1 vx () .nil, walk.eq_1 vy () .nil, hv _ _ s .nil]; rfl
  · intro l k hl ih s; simp only [walk, hv _ _ s (.list hl), ih, fun s => hv _ _ s .nil]
  · intro l k hl ih s; simp only [walk, hv _ _ s (.macro0 hl), ih, fun s => hv _ _ s .nil]
  ·
    intro p q t l k hs hl ih s
    simp only [walk, walkIdent, hv _ _ s (.macro1 hs hl), ih, fun s => hv _ _ s .nil, fun s => hv (.ident p t) (.ident q t) s .ident]
  · intro a b c d l k hl ih s; simp only [walk, hv _ _ s (.arg (a := a) (b := b) (c := c) (d := d) hl), ih, fun s => hv _ _ s .nil]
  · intro a b c d l k hl ih s; simp only [walk, hv _ _ s (.optArg (a := a) (b := b) (c := c) (d := d) hl), ih, fun s => hv _ _ s .nil]
  · intro p q t s; simp only [walk, hv (.ident p t) (.ident q t) s .ident, fun s => hv _ _ s .nil]
  · intro a b c d g h l k hl ih s; simp only [walk, hv _ _ s (.math (a := a) (b := b) (c := c) (d := d) (g := g) (h := h) hl), ih, fun s => hv _ _ s .nil]
  · intro p q t s; simp only [walk, hv (.word p t) (.word q t) s .word, fun s => hv _ _ s .nil]
  · intro p q t hl s; simp only [walk, hv (.lit p t) (.lit q t) s (.lit hl), fun s => hv _ _ s .nil]
  · intro p q t hl s; simp only [walk, hv (.sym p t) (.sym q t) s (.sym hl), fun s => hv _ _ s .nil]
  · intro p q n m hn ih s; rw [walk.eq_1 vx () (.sub p n), walk.eq_1 vy () (.sub q m), hv _ _ s (.sub (p := p) (q := q) hn)]; simp only [ih, fun s => hv _ _ s .nil]
  · intro p q n m hn ih s; rw [walk.eq_1 vx () (.sup p n), walk.eq_1 vy () (.sup q m), hv _ _ s (.sup (p := p) (q := q) hn)]; simp only [ih, fun s => hv _ _ s .nil]
  · intro s; rfl
  · intro n m l k hn hl ih1 ih2 s; simp only [walkList, ih1, ih2]

theorem depth_alike {n m : Node} (h : Alike x y n m) : nodeDepth n = nodeDepth m := by
  refine Alike.rec (motive_1 := fun n m _ => nodeDepth n = nodeDepth m) (motive_2 := fun l k _ => nodesDepth l = nodesDepth k)
    ?_ ?_ ?_ ?_ ?_ ?_ ?_ ?_ ?_ ?_ ?_ ?_ ?_ ?_ ?_ h
  all_goals intros
  all_goals simp_all [nodeDepth, nodesDepth]

/-! ## The TrueType run -/

theorem handleSymbolT_alike (e : TtfEnv H) {p q : Nat} {t : GoString} (h : SymAgree x y p q t) (st : TState F) (math : Bool) :
    handleSymbolT e x p t st math = handleSymbolT e y q t st math := by
  unfold handleSymbolT
  have ht := h.tight
  unfold tightB at ht
  by_cases hd : t = bs!"."
  · have := h.dot hd
    subst hd
    simp only [ht, this]
  · simp only [ht, if_neg hd]

theorem literalCharsT_alike (e : TtfEnv H) (h : dotInNumber x (indexDot x) = dotInNumber y (indexDot y)) (st : TState F) (math : Bool) (l : List Ch) :
    literalCharsT e x st math l = literalCharsT e y st math l := by
  induction l with
  | nil => rfl
  | cons c l ih =>
    have ha : SymAgree x y 0 0 (runeStr c) := ⟨rfl, fun _ => by simpa using h⟩
    rw [literalCharsT, literalCharsT, ih, handleSymbolT_alike e ha]

theorem literalCharsT_free (e : TtfEnv H) (st : TState F) (math : Bool) (l : List Ch) (h : ∀ c ∈ l, runeStr c ≠ bs!".") :
    literalCharsT e x st math l = literalCharsT e y st math l := by
  induction l with
  | nil => rfl
  | cons c l ih =>
    have ha : SymAgree x y 0 0 (runeStr c) := ⟨rfl, fun hc => absurd hc (h c (by simp))⟩
    rw [literalCharsT, literalCharsT, ih fun d hd => h d (by simp [hd]), handleSymbolT_alike e ha]

theorem visitEachT_alike (vx vy : Visit Unit (VT F H)) (hv : ∀ n m s, Alike x y n m → vx () n s = vy () m s) :
    ∀ (l k : List Node), AlikeL x y l k → ∀ s, visitEachT vx l s = visitEachT vy k s
  | [], _, h, s => by cases h; rfl
  | n :: l, _, h, s => by
    cases h with
    | cons hn hl => simp only [visitEachT, hv _ _ s hn, fun s => visitEachT_alike vx vy hv l _ hl s]

theorem handleNodeT_alike (e : TtfEnv H) (vx vy : Visit Unit (VT F H)) (hv : ∀ n m s, Alike x y n m → vx () n s = vy () m s)
    {l k : List Node} (h : AlikeL x y l k) (st : TState F) (math : Bool) : handleNodeT e vx st math l = handleNodeT e vy st math k := by
  funext s
  unfold handleNodeT
  rw [walk_alike vx vy hv (.list h)]

theorem handleT_alike (e : TtfEnv H) (num : GoString → Option F) (hx hy : TState F → Bool → List Node → TM F H (LHead F × List (TNode F)))
    (hh : ∀ st math l k, AlikeL x y l k → hx st math l = hy st math k) (h : Hk) {n m : Node} (ha : Alike x y n m) (hn : (∃ p t, n = .sym p t) ∨ ∃ o l, n = .macro o l) (st : TState F) (math : Bool) :
    handleT e num x hx h n st math = handleT e num y hy h m st math := by
  have hfrac : ∀ {name name' : Option (Nat × GoString)} {l k : List Node} (f : LHead F × List (TNode F) → LHead F × List (TNode F) → TM F H (TNode F)) (g : TM F H (TNode F)), AlikeL x y l k →
      (match (Node.macro name l) with
        | .macro _ (.arg _ l1 _ :: .arg _ l2 _ :: _) => (hx st math l1).bind fun a => (hx st math l2).bind fun b => f a b
        | _ => g) =
      (match (Node.macro name' k) with
        | .macro _ (.arg _ l1 _ :: .arg _ l2 _ :: _) => (hy st math l1).bind fun a => (hy st math l2).bind fun b => f a b
        | _ => g) := by
    intro name name' l k f g hl
    cases hl with
    | nil => rfl
    | cons h1 hl =>
      cases h1 <;> try rfl
      rename_i hl1
      cases hl with
      | nil => rfl
      | cons h2 hl =>
        cases h2 <;> try rfl
        rename_i hl2
        simp only [hh _ _ _ _ hl1, hh _ _ _ _ hl2]
  have hargs : ∀ (h : Hk) (name name' : Option (Nat × GoString)) (l k : List Node), AlikeL x y l k → h ∈ [Hk.hspace, .frac, .dfrac, .tfrac, .binom, .sqrt, .overline] →
      handleT e num x hx h (.macro name l) st math = handleT e num y hy h (.macro name' k) st math := by
    intro h name name' l k hl hm
    simp only [List.mem_cons, List.not_mem_nil, or_false] at hm
    rcases hm with rfl | rfl | rfl | rfl | rfl | rfl | rfl
    · unfold handleT
      cases hl with
      | nil => rfl
      | cons h1 hl =>
        cases h1 <;> try rfl
        rename_i hl1
        cases hl1 with
        | nil => rfl
        | cons h2 hl1 => cases h2 <;> rfl
    · exact hfrac _ _ hl
    · exact hfrac _ _ hl
    · exact hfrac _ _ hl
    · exact hfrac _ _ hl
    · unfold handleT
      cases hl with
      | nil => rfl
      | cons h1 hl =>
        cases h1 with
        | arg hl1 =>
          cases hl with
          | nil => simp only [hh _ _ _ _ hl1]
          | cons h2 hl => rfl
        | optArg hl1 =>
          cases hl with
          | nil => rfl
          | cons h2 hl =>
            cases hl with
            | nil =>
              cases h2 <;> try rfl
              rename_i hl2
              simp only [hh _ _ _ _ hl1, hh _ _ _ _ hl2]
            | cons h3 hl => cases h2 <;> rfl
        | _ => rfl
    · unfold handleT
      cases hl with
      | nil => rfl
      | cons h1 hl =>
        cases h1 <;> try rfl
        rename_i hl1
        simp only [hh _ _ _ _ hl1]
  cases ha with
  | macro0 hl => cases h <;> first | rfl | exact hargs _ _ _ _ _ hl (by decide)
  | macro1 hs hl =>
    cases h <;> first | exact hargs _ _ _ _ _ hl (by decide) | exact handleSymbolT_alike e hs st math | rfl
  | sym hs => cases h <;> first | exact handleSymbolT_alike e hs st math | rfl
  | _ => rcases hn with ⟨_, _, hn⟩ | ⟨_, _, hn⟩ <;> cases hn

theorem mtexVisitT_alike (e : TtfEnv H) (num : GoString → Option F) (fuel : Nat) : ∀ (n m : Node) (s : VT F H), Alike x y n m →
    mtexVisitT e num x fuel () n s = mtexVisitT e num y fuel () m s := by
  induction fuel with
  | zero => intros; rfl
  | succ fuel ih =>
    intro n m s ha
    have hh := fun st math l k (hl : AlikeL x y l k) => handleNodeT_alike e _ _ ih hl st math
    cases ha with
    | list hl => rfl
    | sym hs =>
      simp only [mtexVisitT]
      rename_i t
      cases handlerOf t with
      | none => rfl
      | some h => simp only [handleT_alike e num _ _ hh h (.sym hs) (.inl ⟨_, _, rfl⟩)]
    | word => rfl
    | lit hl =>
      simp only [mtexVisitT]
      rename_i t
      congr 1
      by_cases ht : ch!"." ∈ t
      · exact literalCharsT_alike e (hl ht) _ _ _
      · refine literalCharsT_free e _ _ _ fun c hc hr => ht ?_
        unfold runeStr at hr
        split at hr
        · cases hr
        · rw [← bytesOf_decode t]
          exact List.mem_flatMap.2 ⟨c, hc, by rw [hr]; simp⟩
    | math hl => simp only [mtexVisitT, visitEachT_alike _ _ ih _ _ hl]
    | macro0 hl => rfl
    | macro1 hs hl =>
      simp only [mtexVisitT]
      rename_i t _ _
      cases handlerOf t with
      | none => rfl
      | some h => simp only [handleT_alike e num _ _ hh h (.macro1 hs hl) (.inr ⟨_, _, rfl⟩)]
    | _ => rfl

theorem mtexParseT_alike (U V : Nat → Bool) (e : TtfEnv H) (num : GoString → Option F) (size dpi : F) {n m : Node} (hx : parseExpr U x = .ok n)
    (hy : parseExpr V y = .ok m) (ha : Alike x y n m) : mtexParseT U e num x size dpi = mtexParseT V e num y size dpi := by
  funext s
  simp only [mtexParseT, hx, hy, Res.ok_bind, depth_alike ha, walk_alike _ _ (mtexVisitT_alike e num (nodeDepth m + 1)) ha]

/-! ## The functional model -/

theorem handleSymbol_alike (be : Backend F) {p q : Nat} {t : GoString} (h : SymAgree x y p q t) (st : TState F) (math : Bool) :
    handleSymbol be x p t st math = handleSymbol be y q t st math := by
  unfold handleSymbol
  have ht := h.tight
  unfold tightB at ht
  by_cases hd : t = bs!"."
  · have := h.dot hd
    subst hd
    simp only [ht, this]
  · simp only [ht, if_neg hd]

theorem literalChars_alike (be : Backend F) (h : dotInNumber x (indexDot x) = dotInNumber y (indexDot y)) (st : TState F) (math : Bool) (l : List Ch) :
    literalChars be x st math l = literalChars be y st math l := by
  induction l with
  | nil => rfl
  | cons c l ih =>
    have ha : SymAgree x y 0 0 (runeStr c) := ⟨rfl, fun _ => by simpa using h⟩
    rw [literalChars, literalChars, ih, handleSymbol_alike be ha]

theorem literalChars_free (be : Backend F) (st : TState F) (math : Bool) (l : List Ch) (h : ∀ c ∈ l, runeStr c ≠ bs!".") :
    literalChars be x st math l = literalChars be y st math l := by
  induction l with
  | nil => rfl
  | cons c l ih =>
    have ha : SymAgree x y 0 0 (runeStr c) := ⟨rfl, fun hc => absurd hc (h c (by simp))⟩
    rw [literalChars, literalChars, ih fun d hd => h d (by simp [hd]), handleSymbol_alike be ha]

theorem visitEach_alike (vx vy : Visit Unit (VSt F)) (hv : ∀ n m s, Alike x y n m → vx () n s = vy () m s) :
    ∀ (l k : List Node), AlikeL x y l k → ∀ s, visitEach vx l s = visitEach vy k s
  | [], _, h, s => by cases h; rfl
  | n :: l, _, h, s => by
    cases h with
    | cons hn hl => simp only [visitEach, hv _ _ s hn, fun s => visitEach_alike vx vy hv l _ hl s]

theorem handleNode_alike (be : Backend F) (vx vy : Visit Unit (VSt F)) (hv : ∀ n m s, Alike x y n m → vx () n s = vy () m s)
    {l k : List Node} (h : AlikeL x y l k) (st : TState F) (math : Bool) : handleNode be vx st math l = handleNode be vy st math k := by
  unfold handleNode
  rw [walk_alike vx vy hv (.list h)]

theorem handle_alike (be : Backend F) (num : GoString → Option F) (hx hy : TState F → Bool → List Node → Res (LHead F × List (TNode F)))
    (hh : ∀ st math l k, AlikeL x y l k → hx st math l = hy st math k) (h : Hk) {n m : Node} (ha : Alike x y n m) (hn : (∃ p t, n = .sym p t) ∨ ∃ o l, n = .macro o l) (st : TState F) (math : Bool) :
    handle be num x hx h n st math = handle be num y hy h m st math := by
  have hfrac : ∀ {name name' : Option (Nat × GoString)} {l k : List Node} (f : LHead F × List (TNode F) → LHead F × List (TNode F) → Res (TNode F)) (g : Res (TNode F)), AlikeL x y l k →
      (match (Node.macro name l) with
        | .macro _ (.arg _ l1 _ :: .arg _ l2 _ :: _) => hx st math l1 >>= fun a => hx st math l2 >>= fun b => f a b
        | _ => g) =
      (match (Node.macro name' k) with
        | .macro _ (.arg _ l1 _ :: .arg _ l2 _ :: _) => hy st math l1 >>= fun a => hy st math l2 >>= fun b => f a b
        | _ => g) := by
    intro name name' l k f g hl
    cases hl with
    | nil => rfl
    | cons h1 hl =>
      cases h1 <;> try rfl
      rename_i hl1
      cases hl with
      | nil => rfl
      | cons h2 hl =>
        cases h2 <;> try rfl
        rename_i hl2
        simp only [hh _ _ _ _ hl1, hh _ _ _ _ hl2]
  have hargs : ∀ (h : Hk) (name name' : Option (Nat × GoString)) (l k : List Node), AlikeL x y l k → h ∈ [Hk.hspace, .frac, .dfrac, .tfrac, .binom, .sqrt, .overline] →
      handle be num x hx h (.macro name l) st math = handle be num y hy h (.macro name' k) st math := by
    intro h name name' l k hl hm
    simp only [List.mem_cons, List.not_mem_nil, or_false] at hm
    rcases hm with rfl | rfl | rfl | rfl | rfl | rfl | rfl
    · unfold handle
      cases hl with
      | nil => rfl
      | cons h1 hl =>
        cases h1 <;> try rfl
        rename_i hl1
        cases hl1 with
        | nil => rfl
        | cons h2 hl1 => cases h2 <;> rfl
    · exact hfrac _ _ hl
    · exact hfrac _ _ hl
    · exact hfrac _ _ hl
    · exact hfrac _ _ hl
    · unfold handle
      cases hl with
      | nil => rfl
      | cons h1 hl =>
        cases h1 with
        | arg hl1 =>
          cases hl with
          | nil => simp only [hh _ _ _ _ hl1]
          | cons h2 hl => rfl
        | optArg hl1 =>
          cases hl with
          | nil => rfl
          | cons h2 hl =>
            cases hl with
            | nil =>
              cases h2 <;> try rfl
              rename_i hl2
              simp only [hh _ _ _ _ hl1, hh _ _ _ _ hl2]
            | cons h3 hl => cases h2 <;> rfl
        | _ => rfl
    · unfold handle
      cases hl with
      | nil => rfl
      | cons h1 hl =>
        cases h1 <;> try rfl
        rename_i hl1
        simp only [hh _ _ _ _ hl1]
  cases ha with
  | macro0 hl => cases h <;> first | rfl | exact hargs _ _ _ _ _ hl (by decide)
  | macro1 hs hl =>
    cases h <;> first | exact hargs _ _ _ _ _ hl (by decide) | exact handleSymbol_alike be hs st math | rfl
  | sym hs => cases h <;> first | exact handleSymbol_alike be hs st math | rfl
  | _ => rcases hn with ⟨_, _, hn⟩ | ⟨_, _, hn⟩ <;> cases hn

theorem mtexVisit_alike (be : Backend F) (num : GoString → Option F) (fuel : Nat) : ∀ (n m : Node) (s : VSt F), Alike x y n m →
    mtexVisit be num x fuel () n s = mtexVisit be num y fuel () m s := by
  induction fuel with
  | zero => intros; rfl
  | succ fuel ih =>
    intro n m s ha
    have hh := fun st math l k (hl : AlikeL x y l k) => handleNode_alike be _ _ ih hl st math
    cases ha with
    | list hl => rfl
    | sym hs =>
      simp only [mtexVisit]
      rename_i t
      cases handlerOf t with
      | none => rfl
      | some h => simp only [handle_alike be num _ _ hh h (.sym hs) (.inl ⟨_, _, rfl⟩)]
    | word => rfl
    | lit hl =>
      simp only [mtexVisit]
      rename_i t
      congr 1
      by_cases ht : ch!"." ∈ t
      · exact literalChars_alike be (hl ht) _ _ _
      · refine literalChars_free be _ _ _ fun c hc hr => ht ?_
        unfold runeStr at hr
        split at hr
        · cases hr
        · rw [← bytesOf_decode t]
          exact List.mem_flatMap.2 ⟨c, hc, by rw [hr]; simp⟩
    | math hl => simp only [mtexVisit, visitEach_alike _ _ ih _ _ hl]
    | macro0 hl => rfl
    | macro1 hs hl =>
      simp only [mtexVisit]
      rename_i t _ _
      cases handlerOf t with
      | none => rfl
      | some h => simp only [handle_alike be num _ _ hh h (.macro1 hs hl) (.inr ⟨_, _, rfl⟩)]
    | _ => rfl

theorem collect_alike (be : Backend F) (num : GoString → Option F) (st : TState F) (math : Bool) {n m : Node} (ha : Alike x y n m) :
    collect be num x st math n = collect be num y st math m := by
  simp only [collect, depth_alike ha, walk_alike _ _ (mtexVisit_alike be num (nodeDepth m + 1)) ha]

/-! ## Trees that differ in positions -/

mutual
theorem leaves_bare_len : ∀ n : Node, (leaves (bare n)).length = (leaves n).length
  | .nil => rfl
  | .list l => by simp only [bare, leaves]; exact leavesL_bare_len l
  | .macro none l => by simp only [bare, Option.map_none, leaves]; exact leavesL_bare_len l
  | .macro (some _) l => by simp only [bare, Option.map_some, leaves, List.length_cons, leavesL_bare_len l]
  | .arg _ l _ => by simp only [bare, leaves]; exact leavesL_bare_len l
  | .optArg _ l _ => by simp only [bare, leaves]; exact leavesL_bare_len l
  | .ident _ _ => rfl
  | .math _ _ l _ => by simp only [bare, leaves]; exact leavesL_bare_len l
  | .word _ _ => rfl
  | .lit _ _ => rfl
  | .sym _ _ => rfl
  | .sub _ n => by simp only [bare, leaves]; exact leaves_bare_len n
  | .sup _ n => by simp only [bare, leaves]; exact leaves_bare_len n
theorem leavesL_bare_len : ∀ l : List Node, (leavesL (bareL l)).length = (leavesL l).length
  | [] => rfl
  | n :: l => by simp only [bareL, leavesL, List.length_append, leaves_bare_len n, leavesL_bare_len l]
end

theorem leaves_bare (n m : Node) (h : bare n = bare m) : (leaves n).length = (leaves m).length := by
  rw [← leaves_bare_len n, h, leaves_bare_len m]

theorem forall2_append {α β : Type} {R : α → β → Prop} {a c : List α} {b d : List β} (he : a.length = b.length)
    (h : List.Forall₂ R (a ++ c) (b ++ d)) : List.Forall₂ R a b ∧ List.Forall₂ R c d := by
  induction a generalizing b with
  | nil => cases b with
    | nil => exact ⟨.nil, h⟩
    | cons => simp at he
  | cons u a ih => cases b with
    | nil => simp at he
    | cons v b =>
      cases h with
      | cons h1 h2 => exact ⟨.cons h1 (ih (by simpa using he) h2).1, (ih (by simpa using he) h2).2⟩

/-- No full stop that is a symbol of its own is found to be in a number. -/
def DotsApart (x : GoString) (l : List Node) : Prop := ∀ k ∈ l, ∀ p, (k = .sym p bs!"." ∨ ∃ args, k = .macro (some (p, bs!".")) args) →
  dotInNumber x (indexDot (x.drop p)) = false

theorem DotsApart.mono {l k : List Node} (h : DotsApart x l) (hs : ∀ n ∈ k, n ∈ l) : DotsApart x k := fun n hn => h n (hs n hn)

mutual
theorem alike_of : ∀ (n m : Node), bare n = bare m → List.Forall₂ (fun a b => tightB x a.1 a.2 = tightB y b.1 b.2) (leaves n) (leaves m) →
    (∀ p t, .lit p t ∈ allNodes n → LitAgree x y t) → DotsApart x (allNodes n) → DotsApart y (allNodes m) → Alike x y n m
  | .nil, m, hb, hl, hq, hx, hy => by
    cases m <;> simp only [bare, reduceCtorEq] at hb
    exact .nil
  | .list l, m, hb, hl, hq, hx, hy => by
    cases m <;> simp only [bare, reduceCtorEq, Node.list.injEq] at hb
    exact .list (alikeL_of l _ hb (by simpa only [leaves] using hl) (fun p t h => hq p t (by simp [allNodes, h])) (hx.mono fun k hk => by simp [allNodes, hk]) (hy.mono fun k hk => by simp [allNodes, hk]))
  | .macro o l, m, hb, hl, hq, hx, hy => by
    cases m <;> simp only [bare, reduceCtorEq, Node.macro.injEq] at hb
    rename_i o' k
    obtain ⟨h1, h2⟩ := hb
    have hr : ∀ p t, .lit p t ∈ allNodesL l → LitAgree x y t := fun p t h => hq p t (by simp [allNodes, h])
    rcases o with _ | ⟨p, t⟩
    · rcases o' with _ | ⟨p', t'⟩
      · exact .macro0 (alikeL_of l _ h2 (by simpa only [leaves] using hl) hr (hx.mono fun k hk => by simp [allNodes, hk]) (hy.mono fun k hk => by simp [allNodes, hk]))
      · cases h1
    · rcases o' with _ | ⟨p', t'⟩
      · cases h1
      · simp only [Option.map_some, Option.some.injEq, Prod.mk.injEq, true_and] at h1
        subst h1
        simp only [leaves] at hl
        cases hl with
        | cons hs hl => exact .macro1 ⟨hs, fun e => by subst e; rw [hx (.macro (some (p, bs!".")) l) (by simp [allNodes]) p (.inr ⟨_, rfl⟩), hy (.macro (some (p', bs!".")) k) (by simp [allNodes]) p' (.inr ⟨_, rfl⟩)]⟩ (alikeL_of l _ h2 hl hr (hx.mono fun k hk => by simp [allNodes, hk]) (hy.mono fun k hk => by simp [allNodes, hk]))
  | .arg a l b, m, hb, hl, hq, hx, hy => by
    cases m <;> simp only [bare, reduceCtorEq, Node.arg.injEq] at hb
    exact .arg (alikeL_of l _ hb.2.1 (by simpa only [leaves] using hl) (fun p t h => hq p t (by simp [allNodes, h])) (hx.mono fun k hk => by simp [allNodes, hk]) (hy.mono fun k hk => by simp [allNodes, hk]))
  | .optArg a l b, m, hb, hl, hq, hx, hy => by
    cases m <;> simp only [bare, reduceCtorEq, Node.optArg.injEq] at hb
    exact .optArg (alikeL_of l _ hb.2.1 (by simpa only [leaves] using hl) (fun p t h => hq p t (by simp [allNodes, h])) (hx.mono fun k hk => by simp [allNodes, hk]) (hy.mono fun k hk => by simp [allNodes, hk]))
  | .ident p t, m, hb, hl, hq, hx, hy => by
    cases m <;> simp only [bare, reduceCtorEq, Node.ident.injEq] at hb
    obtain ⟨-, rfl⟩ := hb
    exact .ident
  | .math d a l b, m, hb, hl, hq, hx, hy => by
    cases m <;> simp only [bare, reduceCtorEq, Node.math.injEq] at hb
    exact .math (alikeL_of l _ hb.2.2.1 (by simpa only [leaves] using hl) (fun p t h => hq p t (by simp [allNodes, h])) (hx.mono fun k hk => by simp [allNodes, hk]) (hy.mono fun k hk => by simp [allNodes, hk]))
  | .word p t, m, hb, hl, hq, hx, hy => by
    cases m <;> simp only [bare, reduceCtorEq, Node.word.injEq] at hb
    obtain ⟨-, rfl⟩ := hb
    exact .word
  | .lit p t, m, hb, hl, hq, hx, hy => by
    cases m <;> simp only [bare, reduceCtorEq, Node.lit.injEq] at hb
    obtain ⟨-, rfl⟩ := hb
    exact .lit (hq p _ (by simp [allNodes]))
  | .sym p t, m, hb, hl, hq, hx, hy => by
    cases m <;> simp only [bare, reduceCtorEq, Node.sym.injEq] at hb
    obtain ⟨-, rfl⟩ := hb
    simp only [leaves] at hl
    cases hl with
    | cons hs hl => exact .sym ⟨hs, fun e => by subst e; rw [hx _ (by simp [allNodes]) p (.inl rfl), hy _ (by simp [allNodes]) _ (.inl rfl)]⟩
  | .sub p n, m, hb, hl, hq, hx, hy => by
    cases m <;> simp only [bare, reduceCtorEq, Node.sub.injEq] at hb
    exact .sub (alike_of n _ hb.2 (by simpa only [leaves] using hl) (fun p t h => hq p t (by simp [allNodes, h])) (hx.mono fun k hk => by simp [allNodes, hk]) (hy.mono fun k hk => by simp [allNodes, hk]))
  | .sup p n, m, hb, hl, hq, hx, hy => by
    cases m <;> simp only [bare, reduceCtorEq, Node.sup.injEq] at hb
    exact .sup (alike_of n _ hb.2 (by simpa only [leaves] using hl) (fun p t h => hq p t (by simp [allNodes, h])) (hx.mono fun k hk => by simp [allNodes, hk]) (hy.mono fun k hk => by simp [allNodes, hk]))
theorem alikeL_of : ∀ (l k : List Node), bareL l = bareL k → List.Forall₂ (fun a b => tightB x a.1 a.2 = tightB y b.1 b.2) (leavesL l) (leavesL k) →
    (∀ p t, .lit p t ∈ allNodesL l → LitAgree x y t) → DotsApart x (allNodesL l) → DotsApart y (allNodesL k) → AlikeL x y l k
  | [], k, hb, hl, hq, hx, hy => by
    cases k <;> simp only [bareL, reduceCtorEq] at hb
    exact .nil
  | n :: l, k, hb, hl, hq, hx, hy => by
    cases k <;> simp only [bareL, reduceCtorEq, List.cons.injEq] at hb
    rename_i m k
    simp only [leavesL] at hl
    have he : (leaves n).length = (leaves m).length := leaves_bare n m hb.1
    obtain ⟨h1, h2⟩ := forall2_append he hl
    exact .cons (alike_of n m hb.1 h1 (fun p t h => hq p t (by simp [allNodesL, h])) (hx.mono fun k hk => by simp [allNodesL, hk]) (hy.mono fun k hk => by simp [allNodesL, hk])) (alikeL_of l k hb.2 h2 (fun p t h => hq p t (by simp [allNodesL, h])) (hx.mono fun k hk => by simp [allNodesL, hk]) (hy.mono fun k hk => by simp [allNodesL, hk]))
end

end Verif
