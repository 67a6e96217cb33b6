import Verif.Props.Depends
/-!
# C100: lines are set side by side

What mtex.Parse makes of sources put together (C89): it returns exactly if it does for each of them, and the box is as wide as the
boxes of the parts and the kern between them, as high as the higher and as deep as the deeper.
-/

namespace Verif.Props
open Verif Verif.Spec GoFloat
variable {U : Nat → Bool}

section
variable {F : Type} [GoFloat F]

mutual
theorem drawable_shift (K : GoString → GoString → Bool → Bool) (X : GoString → Bool) (num : GoString → Option F) (d : Nat) (typ : GoString)
    (m dr : Bool) : ∀ n, drawable K X num typ m dr (shift d n) = drawable K X num typ m dr n
  | .nil => rfl
  | .list l => by simp only [shift, drawable, drawableAll_shift K X num d typ m false l]
  | .sym .. => rfl
  | .word .. => rfl
  | .lit .. => rfl
  | .ident .. => by simp only [shift, drawable]
  | .math _ _ l _ => by simp only [shift, drawable, drawableAll_shift K X num d _ true true l]
  | .macro none args => by simp only [shift, drawable, Option.map]
  | .macro (some (p, name)) args => by
    simp only [shift, drawable, Option.map, drawableArgs_shift K X num d typ m args]
    generalize drawableArgs K X num typ m args = os
    cases role name <;> simp only [drawableMacro]
    · rcases args with _ | ⟨a, _ | ⟨b, _ | ⟨c, l⟩⟩⟩ <;> simp only [shiftL] <;> (try cases a) <;> simp only [shift] <;> (rename_i l _; cases l) <;> try rfl
      all_goals (rename_i n _; cases n <;> rfl)
    all_goals
      rcases args with _ | ⟨a, _ | ⟨b, _ | ⟨c, l⟩⟩⟩ <;> simp only [shiftL] <;> (try cases a) <;> (try cases b) <;> (try simp only [shift]) <;>
        (rcases os with _ | ⟨x, _ | ⟨y, os⟩⟩) <;> rfl
  | .arg .. => by simp only [shift, drawable]
  | .optArg .. => by simp only [shift, drawable]
  | .sub .. => by simp only [shift, drawable]
  | .sup .. => by simp only [shift, drawable]
theorem drawableAll_shift (K : GoString → GoString → Bool → Bool) (X : GoString → Bool) (num : GoString → Option F) (d : Nat) (typ : GoString)
    (m dr : Bool) : ∀ l, drawableAll K X num typ m dr (shiftL d l) = drawableAll K X num typ m dr l
  | [] => rfl
  | n :: l => by simp only [shiftL, drawableAll, drawable_shift K X num d typ m dr n, drawableAll_shift K X num d typ m dr l]
theorem drawableArgs_shift (K : GoString → GoString → Bool → Bool) (X : GoString → Bool) (num : GoString → Option F) (d : Nat) (typ : GoString)
    (m : Bool) : ∀ l, drawableArgs K X num typ m (shiftL d l) = drawableArgs K X num typ m l
  | [] => rfl
  | n :: l => by
    cases n <;> simp only [shiftL, shift, drawableArgs, drawableArgs_shift K X num d typ m l, drawableAll_shift K X num d typ m false]
end

theorem drawableAll_append (K : GoString → GoString → Bool → Bool) (X : GoString → Bool) (num : GoString → Option F) (typ : GoString)
    (m dr : Bool) (l k : List Node) : drawableAll K X num typ m dr (l ++ k) = (drawableAll K X num typ m dr l && drawableAll K X num typ m dr k) := by
  induction l with
  | nil => rfl
  | cons n l ih => simp only [List.cons_append, drawableAll, ih, Bool.and_assoc]

/-- **C100** Sources that are put together can be drawn exactly if each of them can: mtex.Parse returns for `a`, a line break and
`b` exactly if it does for `a` and for `b`. -/
theorem C100_returns (be : Backend F) (num : GoString → Option F) (a b : GoString) (la : List Node) (size dpi : F)
    (ha : Complete U a la) (ha0 : parseExpr U a = .ok (.list la)) (hbom : ¬ bom <+: b)
    (K : GoString → GoString → Bool → Bool) (hK : ∀ c f d m, be.known c f d m = K c f.typ m)
    (X : GoString → Bool) (hX : ∀ f d, (be.xheight f d).isSome = X f.typ)
    (hm : K bs!"m" bs!"it" true = true) (he : K bs!"=" bs!"it" true = true) :
    (∃ r, mtexParse U be num (a ++ bs!"\n" ++ b) size dpi = .ok r) ↔
      (∃ r, mtexParse U be num a size dpi = .ok r) ∧ ∃ r, mtexParse U be num b size dpi = .ok r := by
  rw [(C58_returns_iff U be num _ size dpi K hK X hX hm he).1, (C58_returns_iff U be num a size dpi K hK X hX hm he).1,
    (C58_returns_iff U be num b size dpi K hK X hX hm he).1]
  have key : ∀ lb, drawable K X num bs!"rm" false false (.list (la ++ shiftL (a.length + 1) lb)) =
      (drawable K X num bs!"rm" false false (.list la) && drawable K X num bs!"rm" false false (.list lb)) := fun lb => by
    simp only [drawable, Bool.false_or, drawableAll_append, drawableAll_shift]
  constructor
  · rintro ⟨root, h1, h2⟩
    obtain ⟨lb, h3, rfl⟩ := (C89_lines a b la ha hbom root).1 h1
    rw [key, Bool.and_eq_true] at h2
    exact ⟨⟨_, ha0, h2.1⟩, _, h3, h2.2⟩
  · rintro ⟨⟨r1, h1, h2⟩, r2, h3, h4⟩
    rw [ha0] at h1; injection h1 with h1; subst h1
    obtain ⟨-, lb, -, -, rfl⟩ := (C83_grammar b _).1 h3
    exact ⟨_, (C89_lines a b la ha hbom _).2 ⟨lb, h3, rfl⟩, by rw [key, h2, h4]; rfl⟩

end

/-! ## The box -/

/-- The kern between a glyph and the one on its right, as the backend tells it; nothing is kerned but glyphs. -/
def kernBetween (be : Backend XR) (left right : Option (TNode XR)) : XR :=
  match left with
  | some (.char c) | some (.accent c) => match right with
    | some (.char d) | some (.accent d) => be.kern c.font c.c d.font d.c c.dpi
    | _ => zero
  | _ => zero

theorem zero_is : (zero : XR) = .fin 0 := by
  show XR.fin (0 / 1) = .fin 0
  norm_num

theorem eq_zero {x : XR} (h : eq x zero = true) : x = .fin 0 := by
  rw [zero_is] at h
  cases x <;> first | cases h | (simp at h; rw [h])

theorem foldl_width (l : List (TNode XR)) (x : XR) : l.foldl (fun x n => x + n.width) x = x + naturalWidth l := by
  unfold naturalWidth
  induction l generalizing x with
  | nil => rw [List.foldl_nil, List.foldl_nil, zero_is, XR.add_zero']
  | cons n l ih => rw [List.foldl_cons, List.foldl_cons, ih, ih (zero + n.width), zero_is, XR.zero_add', XR.add_assoc']

theorem natural_cons (n : TNode XR) (l : List (TNode XR)) : naturalWidth (n :: l) = n.width + naturalWidth l := by
  rw [naturalWidth, List.foldl_cons, foldl_width, zero_is, XR.zero_add']

/-- The width of a list with its kerns, the last of which is that with `nx`. -/
def kernedWidth (be : Backend XR) (nx : Option (TNode XR)) : List (TNode XR) → XR
  | [] => .fin 0
  | n :: l => n.width + (n.kerning be (l.head?.or nx) + kernedWidth be nx l)

theorem natural_kerned (be : Backend XR) (l : List (TNode XR)) : naturalWidth (insertKerns be l) = kernedWidth be none l := by
  induction l with
  | nil => exact zero_is
  | cons n l ih =>
    rw [insertKerns, kernedWidth, Option.or_none]
    by_cases h : eq (n.kerning be l.head?) zero = true
    · rw [h]
      simp only [Bool.not_true, Bool.false_eq_true, if_false]
      rw [natural_cons, ih, eq_zero h, XR.zero_add']
    · rw [Bool.not_eq_true] at h
      rw [h]
      simp only [Bool.not_false, if_true]
      rw [natural_cons, natural_cons, ih]
      rfl

theorem kernedWidth_append (be : Backend XR) (p q : List (TNode XR)) : kernedWidth be none (p ++ q) = kernedWidth be q.head? p + kernedWidth be none q := by
  induction p with
  | nil => rw [List.nil_append, kernedWidth, XR.zero_add']
  | cons n p ih =>
    rw [List.cons_append, kernedWidth, kernedWidth, ih, Option.or_none, List.head?_append]
    simp only [XR.add_assoc']

theorem kerning_between (be : Backend XR) (n : TNode XR) (nx : Option (TNode XR)) :
    n.kerning be nx = n.kerning be none + kernBetween be (some n) nx := by
  cases n <;> simp only [TNode.kerning, CharD.kerning, kernBetween] <;>
    (cases nx with
      | none => simp only [zero_is, XR.add_zero']
      | some m => cases m <;> simp only [zero_is, XR.add_zero'])

theorem kernedWidth_next (be : Backend XR) (p : List (TNode XR)) (nx : Option (TNode XR)) :
    kernedWidth be nx p = kernedWidth be none p + kernBetween be p.getLast? nx := by
  induction p with
  | nil =>
    show XR.fin 0 = .fin 0 + zero
    rw [zero_is, XR.add_zero']
  | cons n p ih =>
    cases p with
    | nil =>
      simp only [kernedWidth, List.head?_nil, Option.none_or, List.getLast?_singleton, XR.add_zero']
      rw [kerning_between be n nx, XR.add_assoc']
    | cons m p =>
      rw [kernedWidth, ih, kernedWidth.eq_def be none (n :: m :: p)]
      simp only [List.head?_cons, Option.some_or, List.getLast?_cons_cons, XR.add_assoc']

theorem xmax_comm (a b : XR) : GoFloat.max a b = GoFloat.max b a := by
  cases a <;> cases b <;> first | rfl | (rw [XR.fin_max, XR.fin_max, max_comm])
theorem xmax_low (a : XR) : GoFloat.max a .ninf = a ∧ GoFloat.max .ninf a = a := by
  cases a <;> exact ⟨rfl, rfl⟩
theorem xmax_assoc (a b c : XR) : GoFloat.max (GoFloat.max a b) c = GoFloat.max a (GoFloat.max b c) := by
  cases a <;> cases b <;> cases c <;> first | rfl | (simp only [XR.fin_max, max_assoc]; done) | (simp only [XR.fin_max]; rfl) | (simp only [(xmax_low _).1, (xmax_low _).2])

/-- Nothing yet. -/
def noDims : Dims XR := { (Dims.zero : Dims XR) with a := .ninf, b := .ninf }

theorem hsum_max (l : List (TNode XR)) (p : Dims XR) :
    (hsum l p).a = GoFloat.max p.a (hsum l noDims).a ∧ (hsum l p).b = GoFloat.max p.b (hsum l noDims).b := by
  induction l generalizing p with
  | nil => exact ⟨(xmax_low _).1.symm, (xmax_low _).1.symm⟩
  | cons n l ih =>
    rw [hsum_cons, hsum_cons]
    have h := hpackDims_ab n p
    have h' := hpackDims_ab n noDims
    rw [(ih (hpackDims n p)).1, (ih (hpackDims n p)).2, (ih (hpackDims n noDims)).1, (ih (hpackDims n noDims)).2]
    cases hr : reach n with
    | none =>
      simp only [hr, Prod.mk.injEq] at h h'
      rw [h.1, h.2, h'.1, h'.2]
      exact ⟨by rw [show noDims.a = .ninf from rfl, (xmax_low _).2], by rw [show noDims.b = .ninf from rfl, (xmax_low _).2]⟩
    | some q =>
      simp only [hr, Prod.mk.injEq] at h h'
      rw [h.1, h.2, h'.1, h'.2]
      exact ⟨by rw [show noDims.a = .ninf from rfl, (xmax_low _).2, xmax_assoc], by rw [show noDims.b = .ninf from rfl, (xmax_low _).2, xmax_assoc]⟩

theorem hsum_append (l k : List (TNode XR)) : (hsum (l ++ k) noDims).a = GoFloat.max (hsum l noDims).a (hsum k noDims).a ∧
    (hsum (l ++ k) noDims).b = GoFloat.max (hsum l noDims).b (hsum k noDims).b := by
  have : hsum (l ++ k) noDims = hsum k (hsum l noDims) := List.foldl_append ..
  rw [this]
  exact hsum_max k _

theorem hsum_kerned (be : Backend XR) (l : List (TNode XR)) : (hsum (insertKerns be l) noDims).a = (hsum l noDims).a ∧
    (hsum (insertKerns be l) noDims).b = (hsum l noDims).b := by
  induction l with
  | nil => exact ⟨rfl, rfl⟩
  | cons n l ih =>
    rw [insertKerns]
    have e : ∀ k, hsum (n :: newKern k :: insertKerns be l) noDims = hsum (insertKerns be l) (hpackDims (newKern k) (hpackDims n noDims)) := fun _ => rfl
    have hk : ∀ k (p : Dims XR), (hpackDims (newKern k) p).a = p.a ∧ (hpackDims (newKern k) p).b = p.b := fun _ _ => ⟨rfl, rfl⟩
    split
    · rw [e, (hsum_max _ _).1, (hsum_max _ _).2, (hk _ _).1, (hk _ _).2, ih.1, ih.2, hsum_cons]
      exact ⟨(hsum_max _ _).1.symm, (hsum_max _ _).2.symm⟩
    · rw [hsum_cons, hsum_cons, (hsum_max _ _).1, (hsum_max _ _).2, ih.1, ih.2]
      exact ⟨(hsum_max _ _).1.symm, (hsum_max _ _).2.symm⟩

/-- The dimensions of the list of nodes, kerned. -/
theorem hbody_dims (be : Backend XR) (l : List (TNode XR)) : (hbody be l).1.box.width = kernedWidth be none l ∧
    (hbody be l).1.box.height = GoFloat.max (.fin 0) (hsum l noDims).a ∧ (hbody be l).1.box.depth = GoFloat.max (.fin 0) (hsum l noDims).b := by
  refine ⟨?_, ?_, ?_⟩
  · rw [hbody, (C40_hpack_width _ _ _).2, natural_kerned, zero_is, XR.zero_add']
  · rw [hbody, hpack_eq]
    simp only [(finishGlue_box _ _ _ _).1]
    rw [(hsum_max _ _).1, (hsum_kerned be l).1, show (Dims.zero : Dims XR).a = .fin 0 from zero_is]
  · rw [hbody, hpack_eq]
    simp only [(finishGlue_box _ _ _ _).1]
    rw [(hsum_max _ _).2, (hsum_kerned be l).2, show (Dims.zero : Dims XR).b = .fin 0 from zero_is]

theorem xmax_zero (a b : XR) : GoFloat.max (.fin 0) (GoFloat.max a b) = GoFloat.max (GoFloat.max (.fin 0) a) (GoFloat.max (.fin 0) b) := by
  have h0 : GoFloat.max (.fin 0 : XR) (.fin 0) = .fin 0 := by simp
  rw [xmax_assoc, ← xmax_assoc a, xmax_comm a (.fin 0), xmax_assoc (.fin 0) a b, ← xmax_assoc (.fin 0) (.fin 0), h0]

/-- **C100** The box of sources that are put together, in exact arithmetic: it is made of the nodes `p` of the first and `q` of the second, it
is as wide as their boxes and the kern between the last node of the first and the first node of the second; it is as high as the
higher of the two, and as deep as the deeper. -/
theorem C100_box (be : Backend XR) (num : GoString → Option XR) (a b : GoString) (la : List Node) (size dpi : XR)
    (ha : Complete U a la) (ha0 : parseExpr U a = .ok (.list la)) (hbom : ¬ bom <+: b) (hda : PlainDots a) (hdb : PlainDots b)
    {ra rb : LHead XR × List (TNode XR)} (h1 : mtexParse U be num a size dpi = .ok ra) (h2 : mtexParse U be num b size dpi = .ok rb) :
    ∃ r p q, mtexParse U be num (a ++ bs!"\n" ++ b) size dpi = .ok r ∧
      Kerned (TNode.kerning be) p ra.2 ∧ Kerned (TNode.kerning be) q rb.2 ∧ Kerned (TNode.kerning be) (p ++ q) r.2 ∧
      r.1.box.width = ra.1.box.width + kernBetween be p.getLast? q.head? + rb.1.box.width ∧
      r.1.box.height = GoFloat.max ra.1.box.height rb.1.box.height ∧
      r.1.box.depth = GoFloat.max ra.1.box.depth rb.1.box.depth := by
  unfold mtexParse at h1 h2
  rw [ha0, Res.ok_bind] at h1
  obtain ⟨p, hp, h1⟩ := Res.bind_eq_ok.1 h1
  obtain ⟨root, hb, h2⟩ := Res.bind_eq_ok.1 h2
  obtain ⟨q, hq, h2⟩ := Res.bind_eq_ok.1 h2
  injection h1 with h1; injection h2 with h2
  subst h1; subst h2
  obtain ⟨-, lb, -, -, rfl⟩ := (C83_grammar b _).1 hb
  obtain ⟨t, ht, hc⟩ := C91_lines U be num (initState size dpi) a b la lb ha hb hbom hda hdb
  rw [hp, hq, Res.ok_bind, Res.ok_bind] at hc
  refine ⟨hbody be (p ++ q), p, q, ?_, kerned_insert be p, kerned_insert be q, kerned_insert be _, ?_, ?_, ?_⟩
  · rw [mtexParse, ht, Res.ok_bind, hc]; rfl
  · rw [(hbody_dims be _).1, (hbody_dims be _).1, (hbody_dims be _).1, kernedWidth_append, kernedWidth_next]
  · rw [(hbody_dims be _).2.1, (hbody_dims be _).2.1, (hbody_dims be _).2.1, (hsum_append p q).1, xmax_zero]
  · rw [(hbody_dims be _).2.2, (hbody_dims be _).2.2, (hbody_dims be _).2.2, (hsum_append p q).2, xmax_zero]

/-! ## Concrete cases -/

/-- A formula with a fraction, and a word after it. -/
def exFirst : GoString := bs!"$\\frac{x}{2}$ a"

theorem exFirst_complete : Complete exU exFirst [.math bs!"$" 0 [.macro (some (1, bs!"\\frac")) [.arg 6 [.word 7 bs!"x"] 8, .arg 9 [.lit 10 bs!"2"] 11]] 12,
    .sym 13 bs!" ", .word 14 bs!"a"] := by unfold Complete; krfl

theorem exParse_of {x : GoString} (h : (exGlyphs x).isSome = true) : ∃ r, exParse x = .ok r := by
  unfold exGlyphs at h
  generalize exParse x = y at h
  cases y with
  | ok r => exact ⟨r, rfl⟩
  | panic _ => cases h
  | fuel => cases h

theorem exDrawn : (exGlyphs exFirst).isSome = true ∧ (exGlyphs bs!"b").isSome = true := by decide +kernel

theorem exFirst_parse : parseExpr exU exFirst = .ok (.list [.math bs!"$" 0 [.macro (some (1, bs!"\\frac")) [.arg 6 [.word 7 bs!"x"] 8, .arg 9 [.lit 10 bs!"2"] 11]] 12,
    .sym 13 bs!" ", .word 14 bs!"a"]) := by krfl

/-- The hypotheses are met, and both sources are drawn. -/
example : ∃ r ra rb k, exParse exFirst = .ok ra ∧ exParse bs!"b" = .ok rb ∧ exParse (exFirst ++ bs!"\n" ++ bs!"b") = .ok r ∧
    r.1.box.width = ra.1.box.width + k + rb.1.box.width := by
  obtain ⟨ra, h1⟩ := exParse_of exDrawn.1
  obtain ⟨rb, h2⟩ := exParse_of exDrawn.2
  obtain ⟨r, p, q, h3, -, -, -, h4, -⟩ := C100_box exBe exNum exFirst bs!"b" _ (.fin 10) (.fin 72) exFirst_complete exFirst_parse (by decide)
    (.inl (by decide)) (.inl (by decide)) h1 h2
  exact ⟨r, ra, rb, _, h1, h2, h3, h4⟩

/-- a font that kerns a 2 after a 1 -/
def exKerned : Backend XR := { exBe with kern := fun _ a _ b _ => if a = bs!"1" ∧ b = bs!"2" then .fin (-3) else .fin 0 }
/-- the width of the box -/
def exWidth (x : GoString) : Option XR := match mtexParse exU exKerned exNum x (.fin 10) (.fin 72) with
  | .ok (h, _) => some h.box.width
  | _ => none
/-- **C100** The kern between the last digit of the first line and the first of the second counts. -/
theorem C100_kern : exWidth bs!"1" = some (.fin 10) ∧ exWidth bs!"2" = some (.fin 10) ∧ exWidth bs!"1\n2" = some (.fin 17) := by
  decide +kernel

end Verif.Props
