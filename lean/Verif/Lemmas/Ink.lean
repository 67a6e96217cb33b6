import Verif.Lemmas.Drawable
/-! # The glyphs of the boxes built by mtex -/

set_option linter.unusedSectionVars false

namespace Verif
variable {F : Type} [GoFloat F]
open GoFloat Spec

mutual
/-- No accents, no character ever grown. -/
def lowN : TNode F → Prop
  | .char c => c.size ≤ 0
  | .accent _ => False
  | .list _ _ cs => lowAll cs
  | _ => True
/-- All of them. -/
def lowAll : List (TNode F) → Prop
  | [] => True
  | n :: l => lowN n ∧ lowAll l
end

theorem glyphsAll_append (a b : List (TNode F)) : glyphsAll (a ++ b) = glyphsAll a ++ glyphsAll b := by
  induction a with
  | nil => rfl
  | cons n l ih => simp [glyphsAll, ih]

theorem lowAll_append {a b : List (TNode F)} : lowAll (a ++ b) ↔ lowAll a ∧ lowAll b := by
  induction a with
  | nil => simp [lowAll]
  | cons n l ih => simp [lowAll, ih, and_assoc]

/-- A glyph in script size. -/
def scaleGlyph (g : Font F × GoString × F) : Font F × GoString × F := ({ g.1 with size := g.1.size * shrinkFactor }, g.2)

mutual
theorem glyphs_shrink (be : Backend F) : ∀ (n : TNode F), lowN n →
    glyphs (n.shrink be) = (glyphs n).map scaleGlyph ∧ lowN (n.shrink be)
  | .box _, _ => ⟨rfl, trivial⟩
  | .char c, h => by
    have h' : c.size ≤ 0 := h
    have e : c.size - 1 < numSizeLevels := by unfold numSizeLevels; omega
    simp only [TNode.shrink, glyphs, CharD.shrink, e, if_true, lowN]
    exact ⟨rfl, by omega⟩
  | .accent _, h => absurd h id
  | .list .plain hd cs, h => by
    obtain ⟨-, h2⟩ := glyphsAll_shrink be cs h
    exact ⟨rfl, h2⟩
  | .list .h hd cs, h => by
    obtain ⟨h1, h2⟩ := glyphsAll_shrink be cs h
    exact ⟨by simp only [TNode.shrink, glyphs, h1], h2⟩
  | .list .v hd cs, h => by
    obtain ⟨h1, h2⟩ := glyphsAll_shrink be cs h
    exact ⟨by simp only [TNode.shrink, glyphs, h1], h2⟩
  | .rule _, _ => ⟨rfl, trivial⟩
  | .glue _, _ => ⟨rfl, trivial⟩
  | .kern _, _ => ⟨rfl, trivial⟩
theorem glyphsAll_shrink (be : Backend F) : ∀ (l : List (TNode F)), lowAll l →
    glyphsAll (shrinkAll be l) = (glyphsAll l).map scaleGlyph ∧ lowAll (shrinkAll be l)
  | [], _ => ⟨rfl, trivial⟩
  | n :: l, h => by
    obtain ⟨h1, h2⟩ := glyphs_shrink be n h.1
    obtain ⟨h3, h4⟩ := glyphsAll_shrink be l h.2
    exact ⟨by simp [shrinkAll, glyphsAll, h1, h3], h2, h4⟩
end

theorem glyphs_insertKerns (be : Backend F) (l : List (TNode F)) :
    glyphsAll (insertKerns be l) = glyphsAll l ∧ (lowAll (insertKerns be l) ↔ lowAll l) := by
  induction l with
  | nil => exact ⟨rfl, Iff.rfl⟩
  | cons n l ih =>
    rw [insertKerns]
    split <;> simp [glyphsAll, lowAll, ih.1, ih.2, newKern, glyphs, lowN]

theorem glyphs_hlistOf (be : Backend F) (l : List (TNode F)) (k : Bool) :
    glyphs (hlistOf be l k) = glyphsAll l ∧ (lowN (hlistOf be l k) ↔ lowAll l) := by
  unfold hlistOf
  cases k
  · exact ⟨rfl, Iff.rfl⟩
  · exact glyphs_insertKerns be l

/-- The nodes print what is prescribed. -/
def Draws (name : GoString) (dpi : F) (l : List (TNode F)) (is : List (Ink F)) : Prop :=
  List.Forall₂ (Prints name dpi) (glyphsAll l) is ∧ lowAll l

variable {name : GoString} {dpi : F}

theorem Draws.nil : Draws name dpi ([] : List (TNode F)) [] := ⟨.nil, trivial⟩

theorem Draws.append {a b : List (TNode F)} {is js : List (Ink F)} (h : Draws name dpi a is) (h' : Draws name dpi b js) :
    Draws name dpi (a ++ b) (is ++ js) :=
  ⟨by rw [glyphsAll_append]; exact List.rel_append h.1 h'.1, lowAll_append.2 ⟨h.2, h'.2⟩⟩

theorem Draws.cons {n : TNode F} {b : List (TNode F)} {is js : List (Ink F)} (h : Draws name dpi [n] is)
    (h' : Draws name dpi b js) : Draws name dpi (n :: b) (is ++ js) := h.append h'

/-- A node that prints nothing. -/
theorem Draws.blank {n : TNode F} {b : List (TNode F)} {js : List (Ink F)} (h : glyphs n = []) (hl : lowN n)
    (h' : Draws name dpi b js) : Draws name dpi (n :: b) js :=
  ⟨by rw [glyphsAll, h]; exact h'.1, hl, h'.2⟩

theorem Draws.hlist {be : Backend F} {l : List (TNode F)} {k : Bool} {is : List (Ink F)} (h : Draws name dpi l is) :
    Draws name dpi [hlistOf be l k] is :=
  ⟨by simpa [glyphsAll, (glyphs_hlistOf be l k).1] using h.1, ⟨(glyphs_hlistOf be l k).2.2 h.2, trivial⟩⟩

theorem Draws.hl {be : Backend F} {l : List (TNode F)} {is : List (Ink F)} (h : Draws name dpi l is) :
    Draws name dpi [hl be l] is := by rw [hl_eq]; exact h.hlist

/-- Wrapping in a list. -/
theorem Draws.wrapH {hd : LHead F} {l : List (TNode F)} {is : List (Ink F)} (h : Draws name dpi l is) :
    Draws name dpi [.list .h hd l] is := ⟨by simpa [glyphsAll, glyphs] using h.1, h.2, trivial⟩
theorem Draws.wrapV {hd : LHead F} {l : List (TNode F)} {is : List (Ink F)} (h : Draws name dpi l is) :
    Draws name dpi [.list .v hd l] is := ⟨by simpa [glyphsAll, glyphs] using h.1, h.2, trivial⟩
theorem Draws.unwrapH {hd : LHead F} {l : List (TNode F)} {is : List (Ink F)} (h : Draws name dpi [.list .h hd l] is) :
    Draws name dpi l is := ⟨by simpa [glyphsAll, glyphs] using h.1, h.2.1⟩

theorem prints_script {g : Font F × GoString × F} {i : Ink F} (h : Prints name dpi g i) :
    Prints name dpi (scaleGlyph g) i.script := by
  obtain ⟨h1, h2, h3, h4, h5⟩ := h
  refine ⟨h1, h2, fun s hs => ?_, h4, h5⟩
  simp only [Ink.script, Option.map_eq_some_iff] at hs
  obtain ⟨a, ha, rfl⟩ := hs
  show g.1.size * shrinkFactor = _
  rw [h3 a ha]; rfl

theorem forall₂_script {gs : List (Font F × GoString × F)} {is : List (Ink F)} (h : List.Forall₂ (Prints name dpi) gs is) :
    List.Forall₂ (Prints name dpi) (gs.map scaleGlyph) (is.map Ink.script) := by
  induction h with
  | nil => exact .nil
  | cons h _ ih => exact .cons (prints_script h) ih

theorem Draws.shrink {be : Backend F} {n : TNode F} {is : List (Ink F)} (h : Draws name dpi [n] is) :
    Draws name dpi [n.shrink be] (is.map Ink.script) := by
  obtain ⟨h1, h2⟩ := glyphs_shrink be n h.2.1
  refine ⟨?_, h2, trivial⟩
  have := forall₂_script h.1
  simpa [glyphsAll, h1] using this

theorem newChar_good {be : Backend F} {c : GoString} {st : TState F} {m : Bool} {ch : CharD F}
    (h : newChar be c st m = .ok ch) : Draws st.font.name st.dpi [.char ch] [⟨st.font.typ, c, some st.font.size⟩] := by
  unfold newChar at h
  split at h
  · simp only [Res.ok.injEq] at h
    subst h
    refine ⟨.cons ⟨rfl, rfl, fun s hs => Option.some.inj hs, rfl, rfl⟩ .nil, Int.le_refl 0, trivial⟩
  · cases h

theorem makeSpace_good {be : Backend F} {st : TState F} {w : F} {n : TNode F} (h : makeSpace be st w = .ok n) :
    glyphs n = [] ∧ lowN n := by
  unfold makeSpace at h
  dsimp only at h
  split at h
  · simp only [Res.ok.injEq] at h; subst h; exact ⟨rfl, trivial⟩
  · cases h

theorem blank_good {n : TNode F} (h : glyphs n = [] ∧ lowN n) : Draws name dpi [n] [] := Draws.nil.blank h.1 h.2

theorem handleSymbol_good {be : Backend F} {x : GoString} {pos : Nat} {t : GoString} {st : TState F} {m : Bool} {n : TNode F}
    (h : handleSymbol be x pos t st m = .ok n) :
    Draws st.font.name st.dpi [n] [⟨st.font.typ, t, some st.font.size⟩] := by
  unfold handleSymbol at h
  obtain ⟨ch, hc, h⟩ := Res.bind_eq_ok.1 h
  have g := newChar_good hc
  split at h
  · dsimp only at h
    split at h
    · simp only [Res.ok.injEq] at h; subst h; exact g
    · obtain ⟨k1, e1, h⟩ := Res.bind_eq_ok.1 h
      obtain ⟨k2, e2, h⟩ := Res.bind_eq_ok.1 h
      simp only [Res.ok.injEq] at h; subst h
      exact Draws.hlist (Draws.blank (makeSpace_good e1).1 (makeSpace_good e1).2 (by
        simpa using g.cons (blank_good (makeSpace_good e2))))
  · split at h
    · split at h
      · split at h
        · simp only [Res.ok.injEq] at h; subst h; exact g
        · obtain ⟨k1, e1, h⟩ := Res.bind_eq_ok.1 h
          simp only [Res.ok.injEq] at h; subst h
          exact Draws.hlist (by simpa using g.cons (blank_good (makeSpace_good e1)))
      · cases h
    · simp only [Res.ok.injEq] at h; subst h; exact g

theorem handleSpace_good {be : Backend F} {t : GoString} {st : TState F} {n : TNode F} (h : handleSpace be t st = .ok n) :
    Draws name dpi [n] [] := by
  unfold handleSpace at h
  split at h
  · exact blank_good (makeSpace_good h)
  · cases h

theorem newChars_good {be : Backend F} {st : TState F} {m : Bool} : ∀ {l : List Ch} {r : List (TNode F)},
    newChars be st m l = .ok r →
      Draws st.font.name st.dpi r ((l.map runeStr).map fun c => ⟨st.font.typ, c, some st.font.size⟩)
  | [], r, h => by simp only [newChars, Res.ok.injEq] at h; subst h; exact Draws.nil
  | c :: l, r, h => by
    rw [newChars] at h
    obtain ⟨ch, hc, h⟩ := Res.bind_eq_ok.1 h
    obtain ⟨r', hr, h⟩ := Res.bind_eq_ok.1 h
    simp only [Res.ok.injEq] at h; subst h
    exact (newChar_good hc).cons (newChars_good hr)

theorem literalChars_good {be : Backend F} {x : GoString} {st : TState F} {m : Bool} : ∀ {l : List Ch} {r : List (TNode F)},
    literalChars be x st m l = .ok r →
      Draws st.font.name st.dpi r ((l.map runeStr).map fun c => ⟨st.font.typ, c, some st.font.size⟩)
  | [], r, h => by simp only [literalChars, Res.ok.injEq] at h; subst h; exact Draws.nil
  | c :: l, r, h => by
    rw [literalChars] at h
    obtain ⟨ch, hc, h⟩ := Res.bind_eq_ok.1 h
    obtain ⟨r', hr, h⟩ := Res.bind_eq_ok.1 h
    simp only [Res.ok.injEq] at h; subst h
    exact (handleSymbol_good hc).cons (literalChars_good hr)

theorem handleFunction_good {be : Backend F} {t : GoString} {st : TState F} {m : Bool} {n : TNode F}
    (h : handleFunction be t st m = .ok n) :
    Draws st.font.name st.dpi [n] ((chars (t.drop 1)).map fun c => ⟨bs!"rm", c, some st.font.size⟩) := by
  unfold handleFunction at h
  obtain ⟨r, hr, h⟩ := Res.bind_eq_ok.1 h
  simp only [Res.ok.injEq] at h; subst h
  exact Draws.hlist (newChars_good hr)

theorem autoHeightChar_good {be : Backend F} {c : GoString} {hh d : F} {st : TState F} {k : F} {n : TNode F}
    (h : autoHeightChar be c hh d st k = .ok n) : Draws st.font.name st.dpi [n] [⟨st.font.typ, c, none⟩] := by
  replace h := autoHeightChar_ok h
  unfold autoHeightBody at h
  obtain ⟨ch, hc, h⟩ := Res.bind_eq_ok.1 h
  have weak : ∀ {nm : GoString} {dpi' : F} {ty : GoString} {sz : F} {ch : CharD F} {hd : LHead F},
      Draws nm dpi' [.char ch] [⟨ty, c, some sz⟩] →
      Draws nm dpi' [.list .h hd (insertKerns be [.char ch])] [⟨ty, c, none⟩] := by
    intro nm dpi' ty sz ch hd g
    have g' : Draws nm dpi' [.char ch] [⟨ty, c, none⟩] := by
      refine ⟨?_, g.2⟩
      rcases g.1 with _ | ⟨p, q⟩
      exact .cons ⟨p.1, p.2.1, fun s hs => by simp at hs, p.2.2.2.1, p.2.2.2.2⟩ .nil
    exact Draws.wrapH ⟨by rw [(glyphs_insertKerns be _).1]; exact g'.1, (glyphs_insertKerns be _).2.2 g'.2⟩
  dsimp only at h
  split at h
  · obtain ⟨ch', hc', h⟩ := Res.bind_eq_ok.1 h
    simp only [Res.ok.injEq] at h; subst h
    have g := newChar_good hc'
    exact weak g
  · simp only [Res.ok.injEq] at h; subst h
    exact weak (newChar_good hc)

theorem ruled_good {be : Backend F} {st : TState F} {body : TNode F} {hh d : F} {n : TNode F} {is : List (Ink F)}
    (g : Draws name dpi [body] is) (h : ruled be st body hh d = .ok n) : Draws name dpi [n] is := by
  unfold ruled at h
  obtain ⟨gl, -, h⟩ := Res.bind_eq_ok.1 h
  obtain ⟨hd, -, h⟩ := Res.bind_eq_ok.1 h
  obtain ⟨hd', -, h⟩ := Res.bind_eq_ok.1 h
  simp only [Res.ok.injEq] at h; subst h
  exact Draws.wrapV (Draws.blank rfl trivial (Draws.blank rfl trivial g))

theorem centredTo_good {n : TNode F} {w : F} {is : List (Ink F)} (g : Draws name dpi [n] is) :
    Draws name dpi (centredTo n w).2 is :=
  Draws.blank rfl trivial (by simpa using g.cons (blank_good (n := .glue ssGlue) ⟨rfl, trivial⟩))

theorem genfrac_good {be : Backend F} {delims : Bool} {rule : F} {display : Bool} {a b n : TNode F} {st : TState F}
    {is js : List (Ink F)} (ga : Draws st.font.name st.dpi [a] is) (gb : Draws st.font.name st.dpi [b] js)
    (h : genfrac be delims rule display a b st = .ok n) :
    Draws st.font.name st.dpi [n]
      ((if delims then [⟨st.font.typ, bs!"(", none⟩] else []) ++
        (if display then is ++ js else (is ++ js).map Ink.script) ++
        (if delims then [⟨st.font.typ, bs!")", none⟩] else [])) := by
  unfold genfrac at h
  dsimp only at h
  obtain ⟨hd, -, h⟩ := Res.bind_eq_ok.1 h
  have g : ∀ w, Draws st.font.name st.dpi
      [.list .h (centredTo (if display then a else a.shrink be) w).1 (centredTo (if display then a else a.shrink be) w).2,
        vbox zero (be.underline st.font st.dpi * ofInt 2), hrule be st rule, vbox zero (be.underline st.font st.dpi * ofInt 2),
        .list .h (centredTo (if display then b else b.shrink be) w).1 (centredTo (if display then b else b.shrink be) w).2]
      (if display then is ++ js else (is ++ js).map Ink.script) := by
    intro w
    cases display
    · simp only [Bool.false_eq_true, if_false, List.map_append]
      exact (Draws.wrapH (centredTo_good ga.shrink)).cons (Draws.blank rfl trivial (Draws.blank rfl trivial
        (Draws.blank rfl trivial (Draws.wrapH (centredTo_good gb.shrink)))))
    · simp only [if_true]
      exact (Draws.wrapH (centredTo_good ga)).cons (Draws.blank rfl trivial (Draws.blank rfl trivial
        (Draws.blank rfl trivial (Draws.wrapH (centredTo_good gb)))))
  split at h
  · have gbox : ∀ w hd', Draws st.font.name st.dpi [hlistOf be [.list .v hd' _, hbox (ofInt 2 * be.underline st.font st.dpi)] true] _ :=
      fun w hd' => Draws.hlist (by
        simpa using (Draws.wrapV (hd := hd') (g w)).cons
          (blank_good (n := hbox (ofInt 2 * be.underline st.font st.dpi)) ⟨rfl, trivial⟩))
    cases delims
    · simp only [Bool.false_eq_true, if_false, Res.ok.injEq] at h ⊢
      subst h
      simpa using gbox _ _
    · simp only [if_true] at h ⊢
      unfold autoSizedDelimiter at h
      dsimp only at h
      obtain ⟨l, hl, h⟩ := Res.bind_eq_ok.1 h
      obtain ⟨r, hr, h⟩ := Res.bind_eq_ok.1 h
      simp only [Res.ok.injEq] at h; subst h
      refine Draws.hlist (((autoHeightChar_good hl).cons ?_).append (autoHeightChar_good hr))
      simpa using gbox _ _
  · cases h

theorem buildSqrt_good {be : Backend F} {root : Option (TNode F)} {hd : LHead F} {cs : List (TNode F)} {st : TState F}
    {n : TNode F} {is js : List (Ink F)} (ga : ∀ r, root = some r → Draws st.font.name st.dpi [r] is)
    (hn : root = none → is = []) (gb : Draws st.font.name st.dpi cs js)
    (h : buildSqrt be root hd cs st = .ok n) :
    Draws st.font.name st.dpi [n] ((is.map Ink.script).map Ink.script ++ ⟨st.font.typ, bs!"\\__sqrt__", none⟩ :: js) := by
  unfold buildSqrt at h
  dsimp only at h
  obtain ⟨check, hc, h⟩ := Res.bind_eq_ok.1 h
  obtain ⟨rhs, hr, h⟩ := Res.bind_eq_ok.1 h
  obtain ⟨hd', -, h⟩ := Res.bind_eq_ok.1 h
  simp only [Res.ok.injEq] at h; subst h
  have gr := ruled_good (Draws.hlist (Draws.blank (n := hbox (ofInt 2 * be.underline st.font st.dpi)) rfl trivial ((Draws.wrapH (hd := hd) gb).cons
    (blank_good (n := hbox (ofInt 2 * be.underline st.font st.dpi)) ⟨rfl, trivial⟩)))) hr
  simp only [List.append_nil] at gr
  refine Draws.hlist (Draws.cons (Draws.wrapV (Draws.hlist ?_)) (Draws.blank rfl trivial ((autoHeightChar_good hc).cons gr)))
  cases root with
  | none => rw [hn rfl]; exact blank_good ⟨rfl, trivial⟩
  | some r => exact (ga r rfl).shrink.shrink

theorem buildOverline_good {be : Backend F} {hd : LHead F} {cs : List (TNode F)} {st : TState F}
    {n : TNode F} {js : List (Ink F)} (gb : Draws name dpi cs js)
    (h : buildOverline be hd cs st = .ok n) : Draws name dpi [n] js := by
  unfold buildOverline at h
  dsimp only at h
  obtain ⟨rhs, hr, h⟩ := Res.bind_eq_ok.1 h
  simp only [Res.ok.injEq] at h; subst h
  exact Draws.hlist (ruled_good (Draws.hlist (Draws.wrapH gb)) hr)

section
variable {be : Backend F} {num : GoString → Option F} {x : GoString}

/-- The result, if any, prints what is prescribed. -/
def DrawsRes (name : GoString) (dpi : F) (r : Res (List (TNode F))) (is : List (Ink F)) : Prop :=
  ∀ l, r = .ok l → Draws name dpi l is

theorem goodRes_panic {p : Panic} {is : List (Ink F)} : DrawsRes name dpi (.panic p) is := fun _ h => by cases h

theorem goodRes_two {args : List Node} {rs : List (Res (List (TNode F)))} {ks : List (List (Ink F))} {n : TNode F}
    {f : List (TNode F) → List (TNode F) → Res (TNode F)} {e : Panic} (h : List.Forall₂ (DrawsRes name dpi) rs ks)
    (hok : (match args, rs with
      | .arg .. :: .arg .. :: _, r1 :: r2 :: _ => r1 >>= fun a => r2 >>= fun b => f a b
      | _, _ => .panic e) = .ok n) :
    ∃ a b is js, Draws name dpi a is ∧ Draws name dpi b js ∧ f a b = .ok n ∧ (ks.take 2).flatten = is ++ js := by
  split at hok
  · rcases h with _ | ⟨h1, _ | ⟨h2, h3⟩⟩
    obtain ⟨a, ha, hok⟩ := Res.bind_eq_ok.1 hok
    obtain ⟨b, hb, hok⟩ := Res.bind_eq_ok.1 hok
    exact ⟨a, b, _, _, h1 a ha, h2 b hb, hok, by simp⟩
  · cases hok

theorem hbody_good {l : List (TNode F)} {is : List (Ink F)} (g : Draws name dpi l is) : Draws name dpi (hbody be l).2 is :=
  ⟨by rw [hbody, (glyphs_insertKerns be l).1]; exact g.1, by rw [hbody]; exact (glyphs_insertKerns be l).2.2 g.2⟩

theorem build_good (st : TState F) (math : Bool) (k : Hk) (pos : Nat) (t : GoString)
    (hk : handlerOf t = some k) (args : List Node) (rs : List (Res (List (TNode F)))) (ks : List (List (Ink F)))
    (hlen : args.length = ks.length)
    (h : List.Forall₂ (DrawsRes st.font.name st.dpi) rs ks) (n : TNode F)
    (hn : build be num x st math k pos t args rs = .ok n) :
    Draws st.font.name st.dpi [n] (inkMacro st.font.typ st.font.size t ks (role t)) := by
  have hr := role_handler t
  rw [hk] at hr
  rw [hr]
  cases k <;> simp only [roleOfHandler, Hk.role, inkMacro] <;> unfold build at hn <;> dsimp only at hn
  case space => exact handleSpace_good hn
  case symbol => exact handleSymbol_good hn
  case function => exact handleFunction_good hn
  case hspace =>
    split at hn
    · split at hn
      · exact blank_good (makeSpace_good hn)
      · cases hn
    · cases hn
  case frac | tfrac =>
    obtain ⟨a, b, is, js, ga, gb, e, hks⟩ := goodRes_two h hn
    rw [hks]
    simpa using genfrac_good ga.hl gb.hl e
  case dfrac =>
    obtain ⟨a, b, is, js, ga, gb, e, hks⟩ := goodRes_two h hn
    rw [hks]
    simpa using genfrac_good ga.hl gb.hl e
  case binom =>
    obtain ⟨a, b, is, js, ga, gb, e, hks⟩ := goodRes_two h hn
    rw [hks]
    simpa using genfrac_good ga.hl gb.hl e
  case sqrt =>
    split at hn
    · rcases h with _ | ⟨h1, _ | ⟨h2, h3⟩⟩
      obtain ⟨a, ha, hn⟩ := Res.bind_eq_ok.1 hn
      obtain ⟨b, hb, hn⟩ := Res.bind_eq_ok.1 hn
      exact buildSqrt_good (fun r hr => by cases hr; exact (h1 a ha).hl) (fun e => by cases e) (hbody_good (h2 b hb)) hn
    · rcases h with _ | ⟨h1, h2⟩
      rcases h2 with _ | ⟨h3, h4⟩
      · obtain ⟨b, hb, hn⟩ := Res.bind_eq_ok.1 hn
        simpa using buildSqrt_good (is := []) (fun r hr => by cases hr) (fun _ => rfl) (hbody_good (h1 b hb)) hn
      · simp at hlen
    · cases hn
  case overline =>
    split at hn
    · rcases h with _ | ⟨h1, h2⟩
      obtain ⟨b, hb, hn⟩ := Res.bind_eq_ok.1 hn
      simpa using buildOverline_good (hbody_good (h1 b hb)) hn
    · cases hn

theorem inkArgs_length (typ : GoString) (size : F) (math : Bool) : ∀ l : List Node,
    l.length = (inkArgs typ size math l).length
  | [] => rfl
  | n :: l => by
    have := inkArgs_length typ size math l
    cases n <;> simp [inkArgs, this]

theorem goodRes_one {st : TState F} {r : Res (TNode F)} {is : List (Ink F)}
    (h : ∀ n, r = .ok n → Draws st.font.name st.dpi [n] is) : DrawsRes st.font.name st.dpi (r >>= fun n => .ok [n]) is := by
  intro l hl
  obtain ⟨n, hn, e⟩ := Res.bind_eq_ok.1 hl
  simp only [Res.ok.injEq] at e; subst e
  exact h n hn

theorem goodRes_append {r s : Res (List (TNode F))} {is js : List (Ink F)} (h : DrawsRes name dpi r is)
    (h' : DrawsRes name dpi s js) : DrawsRes name dpi (r >>= fun a => s >>= fun b => .ok (a ++ b)) (is ++ js) := by
  intro l hl
  obtain ⟨a, ha, hl⟩ := Res.bind_eq_ok.1 hl
  obtain ⟨b, hb, hl⟩ := Res.bind_eq_ok.1 hl
  simp only [Res.ok.injEq] at hl; subst hl
  exact (h a ha).append (h' b hb)

theorem sym_good (p : Nat) (t : GoString) (st : TState F) (math d : Bool) :
    DrawsRes st.font.name st.dpi (visitN be num x st math (.sym p t)) (ink st.font.typ st.font.size math d (.sym p t)) := by
  simp only [visitN, ink]
  cases math
  · simp only [Bool.false_eq_true, if_false, Bool.false_and]
    intro l hl
    obtain ⟨c, hc, hl⟩ := Res.bind_eq_ok.1 hl
    simp only [Res.ok.injEq] at hl; subst hl
    exact newChar_good hc
  · simp only [if_true, Bool.true_and]
    refine goodRes_one fun n hn => ?_
    cases hk : handlerOf t with
    | none => rw [hk] at hn; cases hn
    | some k =>
      rw [hk] at hn
      cases k <;> try (cases hn)
      case space => rw [blank_of_handler hk]; exact handleSpace_good hn
      case symbol =>
        have : blankNames.contains t = false := by
          cases hb : blankNames.contains t
          · rfl
          · unfold handlerOf at hk
            rw [lookup_contains, spaceWidth_names, hb, if_pos rfl] at hk
            cases hk
        rw [this]
        exact handleSymbol_good hn

theorem word_good (p : Nat) (t : GoString) (st : TState F) (math d : Bool) :
    DrawsRes st.font.name st.dpi (visitN be num x st math (.word p t)) (ink st.font.typ st.font.size math d (.word p t)) := by
  simp only [visitN, ink]
  intro l hl
  obtain ⟨c, hc, hl⟩ := Res.bind_eq_ok.1 hl
  simp only [Res.ok.injEq] at hl; subst hl
  exact Draws.hlist (newChars_good hc)

theorem lit_good (p : Nat) (t : GoString) (st : TState F) (math d : Bool) :
    DrawsRes st.font.name st.dpi (visitN be num x st math (.lit p t)) (ink st.font.typ st.font.size math d (.lit p t)) := by
  simp only [visitN, ink]
  intro l hl
  exact literalChars_good hl

mutual
theorem visit_good : ∀ (n : Node) (st : TState F) (math : Bool),
    DrawsRes st.font.name st.dpi (visitN be num x st math n) (ink st.font.typ st.font.size math true n)
  | .list l, st, math => by
    simp only [visitN, ink, if_true]; intro l hl; cases hl; exact Draws.nil
  | .nil, st, math => by simp only [visitN, ink]; intro l hl; cases hl; exact Draws.nil
  | .sym p t, st, math => sym_good p t st math true
  | .word p t, st, math => word_good p t st math true
  | .lit p t, st, math => lit_good p t st math true
  | .math d a l b, st, math => by
    simp only [visitN, ink]
    exact visitAll_good l (st.withType mathDefault) true
  | .macro none _, _, _ => by simp only [visitN]; exact goodRes_panic
  | .macro (some (p, name)) args, st, math => by
    simp only [visitN, ink]
    cases hk : handlerOf name with
    | none => exact goodRes_panic
    | some k =>
      exact goodRes_one fun n hn => build_good st math k p name hk args _ _ (inkArgs_length ..) (walkArgs_good args st math) n hn
  | .arg .., _, _ => by simp only [visitN]; exact goodRes_panic
  | .optArg .., _, _ => by simp only [visitN]; exact goodRes_panic
  | .ident .., _, _ => by simp only [visitN]; exact goodRes_panic
  | .sub .., _, _ => by simp only [visitN]; exact goodRes_panic
  | .sup .., _, _ => by simp only [visitN]; exact goodRes_panic
theorem visitAll_good : ∀ (l : List Node) (st : TState F) (math : Bool),
    DrawsRes st.font.name st.dpi (visitAll be num x st math l) (inkAll st.font.typ st.font.size math true l)
  | [], st, math => by simp only [visitAll, inkAll]; intro l hl; cases hl; exact Draws.nil
  | n :: l, st, math => by
    simp only [visitAll, inkAll]
    exact goodRes_append (visit_good n st math) (visitAll_good l st math)
theorem walk_good : ∀ (n : Node) (st : TState F) (math : Bool),
    DrawsRes st.font.name st.dpi (walkN be num x st math n) (ink st.font.typ st.font.size math false n)
  | .list l, st, math => by
    simp only [walkN, ink, Bool.false_eq_true, if_false]; exact walkAll_good l st math
  | .nil, st, math => by simp only [walkN]; exact goodRes_panic
  | .sym p t, st, math => by rw [walkN]; exact sym_good p t st math false
  | .word p t, st, math => by rw [walkN]; exact word_good p t st math false
  | .lit p t, st, math => by rw [walkN]; exact lit_good p t st math false
  | .math d a l b, st, math => by
    simp only [walkN, ink]
    exact visitAll_good l (st.withType mathDefault) true
  | .macro none _, _, _ => by simp only [walkN, visitN]; exact goodRes_panic
  | .macro (some (p, name)) args, st, math => by
    simp only [walkN, visitN, ink]
    cases hk : handlerOf name with
    | none => exact goodRes_panic
    | some k =>
      exact goodRes_one fun n hn => build_good st math k p name hk args _ _ (inkArgs_length ..) (walkArgs_good args st math) n hn
  | .arg .., _, _ => by simp only [walkN]; exact goodRes_panic
  | .optArg .., _, _ => by simp only [walkN]; exact goodRes_panic
  | .ident .., _, _ => by simp only [walkN]; exact goodRes_panic
  | .sub .., _, _ => by simp only [walkN]; exact goodRes_panic
  | .sup .., _, _ => by simp only [walkN]; exact goodRes_panic
theorem walkAll_good : ∀ (l : List Node) (st : TState F) (math : Bool),
    DrawsRes st.font.name st.dpi (walkAll be num x st math l) (inkAll st.font.typ st.font.size math false l)
  | [], st, math => by simp only [walkAll, inkAll]; intro l hl; cases hl; exact Draws.nil
  | n :: l, st, math => by
    simp only [walkAll, inkAll]
    exact goodRes_append (walk_good n st math) (walkAll_good l st math)
theorem walkArgs_good : ∀ (l : List Node) (st : TState F) (math : Bool),
    List.Forall₂ (DrawsRes st.font.name st.dpi) (walkArgs be num x st math l) (inkArgs st.font.typ st.font.size math l)
  | [], st, math => by simp only [walkArgs, inkArgs]; exact .nil
  | .arg _ l _ :: as, st, math => by
    simp only [walkArgs, inkArgs, walkArg]
    exact .cons (walkAll_good l st math) (walkArgs_good as st math)
  | .optArg _ l _ :: as, st, math => by
    simp only [walkArgs, inkArgs, walkArg]
    exact .cons (walkAll_good l st math) (walkArgs_good as st math)
  | .nil :: as, st, math => by
    simp only [walkArgs, inkArgs, walkArg]; exact .cons goodRes_panic (walkArgs_good as st math)
  | .list _ :: as, st, math => by
    simp only [walkArgs, inkArgs, walkArg]; exact .cons goodRes_panic (walkArgs_good as st math)
  | .macro _ _ :: as, st, math => by
    simp only [walkArgs, inkArgs, walkArg]; exact .cons goodRes_panic (walkArgs_good as st math)
  | .ident _ _ :: as, st, math => by
    simp only [walkArgs, inkArgs, walkArg]; exact .cons goodRes_panic (walkArgs_good as st math)
  | .math _ _ _ _ :: as, st, math => by
    simp only [walkArgs, inkArgs, walkArg]; exact .cons goodRes_panic (walkArgs_good as st math)
  | .word _ _ :: as, st, math => by
    simp only [walkArgs, inkArgs, walkArg]; exact .cons goodRes_panic (walkArgs_good as st math)
  | .lit _ _ :: as, st, math => by
    simp only [walkArgs, inkArgs, walkArg]; exact .cons goodRes_panic (walkArgs_good as st math)
  | .sym _ _ :: as, st, math => by
    simp only [walkArgs, inkArgs, walkArg]; exact .cons goodRes_panic (walkArgs_good as st math)
  | .sub _ _ :: as, st, math => by
    simp only [walkArgs, inkArgs, walkArg]; exact .cons goodRes_panic (walkArgs_good as st math)
  | .sup _ _ :: as, st, math => by
    simp only [walkArgs, inkArgs, walkArg]; exact .cons goodRes_panic (walkArgs_good as st math)
end

end
end Verif
