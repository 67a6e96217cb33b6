import Verif.Props.Paint
import Verif.Props.Mtex
/-! # C72: overlines and radicals -/

namespace Verif.Props
open Verif Verif.Spec GoFloat XR

/-- A line above a body (drawn by `\overline` and by `\sqrt`), in a box that reaches `H` above the
baseline and `D` below it.  `t` is the thickness of lines, `e` a 1200th of font size times resolution. -/
theorem ruled_paint (be : Backend XR) (st : TState XR) (nd : LHead XR) (cs : List (TNode XR)) (w h d t e H D : ℚ)
    (hm : Measured nd w h d) (ht : be.underline st.font st.dpi = .fin t) (ht0 : 0 < t) (he : st.font.size * st.dpi / ofInt 1200 = .fin e)
    (hD : d ≤ D) (hw : 0 ≤ w) (hH : t + h < H + e) (hx : H + e - t - h ≤ 1000000000) :
    ∃ hb cs', ∃ r : Int, ruled be st (.list .h nd cs) (.fin H) (.fin D) = .ok (.list .v hb cs') ∧
      hb.box = ⟨0, .fin w, .fin (H + e), .fin d⟩ ∧ hb.shift = .fin 0 ∧ |(r : ℚ) - (H + e - t - h)| ≤ 1 / 2 ∧
      ∀ o x b, paintH o x (.fin b) (.list .v hb cs') =
        [.rect x (.fin (b - H - e + t)) (x + .fin w) (.fin (b - H - e + 2 * t))] ++
        paintH o x (.fin (b + (r - (H + e - t - h)))) (.list .h nd cs) := by
  obtain ⟨h1, h2, h3, h4, h5, h6⟩ := hm
  have hneg : lt (ofInt (-1) : XR) zero = true := by decide +kernel
  have hrule_eq : hrule be st (ofInt (-1)) = .rule ⟨0, pinf, .fin (1 / 2 * t), .fin (1 / 2 * t)⟩ := by
    simp [hrule, newRule, newBox, hneg, ht, ofRat, inf]
  have hg : (newGlue bs!"fill" : Res (GlueD XR)) = .ok ⟨0, zero, ofInt 1, 2, zero, 0⟩ := by decide +kernel
  unfold ruled
  rw [hg, Res.ok_bind, he, hrule_eq]
  dsimp only
  have hall : vpackAll [.rule ⟨0, pinf, .fin (1 / 2 * t), .fin (1 / 2 * t)⟩, .glue ⟨0, zero, ofInt 1, 2, zero, 0⟩, .list .h nd cs] Dims.zero =
      .ok ⟨.fin (t + h), .fin w, .fin d, addAt (fun _ => zero) 2 (ofInt 1), addAt (fun _ => zero) 0 zero⟩ := by
    have hinf : isInf (pinf : XR) = true := rfl
    simp only [vpackAll, vpackDims, Res.ok_bind, Dims.zero, h1, h2, h3, hinf, if_true, zero_fin, fin_add, fin_isInf, Bool.false_eq_true, if_false,
      fin_max, max_eq_right hw]
    congr 3; ring
  have hvp1 : ∃ v : LHead XR, vpack LHead.zero [.rule ⟨0, pinf, .fin (1 / 2 * t), .fin (1 / 2 * t)⟩, .glue ⟨0, zero, ofInt 1, 2, zero, 0⟩, .list .h nd cs]
      zero true inf = .ok v ∧ v.box.size = 0 ∧ v.shift = .fin 0 := by
    unfold vpack
    rw [hall, Res.ok_bind]
    refine ⟨_, rfl, ?_, ?_⟩
    · rw [(finishGlue_box _ _ _ _).1]; rfl
    · rw [(finishGlue_box _ _ _ _).2]; simp [LHead.zero]
  obtain ⟨v, hv, v1, v2⟩ := hvp1
  rw [hv, Res.ok_bind]
  have hnlt : lt (.fin D : XR) (.fin d) = false := by simp [hD]
  have hvp2 : vpack v [.rule ⟨0, pinf, .fin (1 / 2 * t), .fin (1 / 2 * t)⟩, .glue ⟨0, zero, ofInt 1, 2, zero, 0⟩, .list .h nd cs]
      (.fin H + .fin e) false (.fin D) =
      .ok ⟨⟨0, .fin w, .fin (H + e), .fin d⟩, .fin 0, .fin (H + e - t - h), 1, 2⟩ := by
    unfold vpack
    rw [hall, Res.ok_bind]
    have hs0 : eq (.fin (H + e - t - h) : XR) zero = false := by
      rw [zero_fin]; simp only [fin_eq, decide_eq_false_iff_not]; intro h0; linarith
    have hp : pos (.fin (H + e - t - h) : XR) = true := by
      unfold pos; rw [zero_fin]; simp only [fin_lt, decide_eq_true_eq]; linarith
    have hsub : (.fin H + .fin e - .fin (t + h) : XR) = .fin (H + e - t - h) := by
      rw [fin_add, fin_sub]; congr 1; ring
    have ho : determineOrder (addAt (fun _ => zero) 2 (ofInt 1) : Fin 4 → XR) = 2 := by decide +kernel
    have ht2 : (addAt (fun _ => zero) 2 (ofInt 1) : Fin 4 → XR) 2 = .fin 1 := by decide +kernel
    have hd1 : (.fin (H + e - t - h) / .fin 1 : XR) = .fin (H + e - t - h) := by rw [fin_div _ _ one_ne_zero, div_one]
    have hz1 : eq (.fin 1 : XR) zero = false := by decide +kernel
    simp only [hnlt, Bool.false_eq_true, if_false, hsub]
    unfold finishGlue
    rw [hs0, hp]
    simp only [Bool.false_eq_true, if_false, if_true]
    unfold setGlue
    simp only [ho, ht2, hz1, hd1, Bool.not_false, if_true, v1, v2, fin_add]
  rw [hvp2, Res.ok_bind]
  refine ⟨_, _, glueOffset (⟨⟨0, .fin w, .fin (H + e), .fin d⟩, .fin 0, .fin (H + e - t - h), 1, 2⟩ : LHead XR)
    [.rule ⟨0, pinf, .fin (1 / 2 * t), .fin (1 / 2 * t)⟩, .glue ⟨0, zero, ofInt 1, 2, zero, 0⟩], rfl, rfl, rfl, ?_, ?_⟩
  · have hz : |(H + e - t - h)| ≤ 1000000000 := by rw [abs_of_pos (by linarith)]; exact hx
    have : glueOffset (⟨⟨0, .fin w, .fin (H + e), .fin d⟩, .fin 0, .fin (H + e - t - h), 1, 2⟩ : LHead XR)
        [.rule ⟨0, pinf, .fin (1 / 2 * t), .fin (1 / 2 * t)⟩, .glue ⟨0, zero, ofInt 1, 2, zero, 0⟩] =
        GoFloat.round (clamp (.fin (H + e - t - h) : XR)) := by
      simp [glueOffset, gluesOf, stretchTotal]
    rw [this]
    exact round_clamp hz
  · intro o x b
    generalize hr : glueOffset (⟨⟨0, .fin w, .fin (H + e), .fin d⟩, .fin 0, .fin (H + e - t - h), 1, 2⟩ : LHead XR)
      [.rule ⟨0, pinf, .fin (1 / 2 * t), .fin (1 / 2 * t)⟩, .glue ⟨0, zero, ofInt 1, 2, zero, 0⟩] = r
    have hvr : vspace (.rule ⟨0, pinf, fin (1 / 2 * t), fin (1 / 2 * t)⟩ : TNode XR) = .fin t := by
      simp [vspace, TNode.height, TNode.depth, pos, ht0, ← two_mul]
    have hpos : (pos (fin (1 / 2 * t) + fin (1 / 2 * t)) && pos (fin (1 / 2 * t))) = true := by
      simp [pos, ht0]
    have hii : isInf (pinf : XR) = true := rfl
    have hv0 : vadvance (⟨⟨0, .fin w, .fin (H + e), .fin d⟩, .fin 0, .fin (H + e - t - h), 1, 2⟩ : LHead XR) [] = .fin 0 := by
      rw [vadvance_none _ _ rfl]; simp
    have hv2 : vadvance (⟨⟨0, .fin w, .fin (H + e), .fin d⟩, .fin 0, .fin (H + e - t - h), 1, 2⟩ : LHead XR)
        [.rule ⟨0, pinf, .fin (1 / 2 * t), .fin (1 / 2 * t)⟩, .glue ⟨0, zero, ofInt 1, 2, zero, 0⟩] = .fin (t + r) := by
      rw [vadvance, hr]
      simp only [List.foldl_cons, List.foldl_nil, hvr]
      simp only [vspace, zero_fin, fin_add]
      have : (ofInt r : XR) = .fin r := by show XR.fin _ = _; simp
      rw [this, fin_add]; congr 1; ring
    simp only [paintH, paintVs, paintV, List.append_nil, List.nil_append, List.singleton_append, List.cons_append]
    rw [hpos, if_pos rfl, hii, if_pos rfl, hv0]
    rw [hv2, h4, h2]
    simp only [fin_add, fin_sub, add_zero']
    rw [List.singleton_append]
    congr 1
    · congr 2 <;> ring
    · congr 2; ring

/-- A list in a list of its own. -/
theorem wrap_list (be : Backend XR) (k : LKind) (nd : LHead XR) (cs : List (TNode XR)) (w h d : ℚ) (h1 : nd.box.width = .fin w)
    (h2 : nd.box.height = .fin h) (h3 : nd.box.depth = .fin d) (h4 : nd.shift = .fin 0) (h5 : 0 ≤ h) (h6 : 0 ≤ d) :
    ∃ hb, hlistOf be [.list k nd cs] true = .list .h hb [.list k nd cs] ∧ Measured hb w h d ∧ hb.box.size = 0 ∧
      ∀ o o' x b, paintH o x b (.list .h hb [.list k nd cs]) = paintH o' x b (.list k nd cs) := by
  have hik : insertKerns be [.list k nd cs] = [.list k nd cs] := by simp [insertKerns, TNode.kerning]
  have hp : ([.list k nd cs] : List (TNode XR)).foldl (fun p n => hpackDims n p) Dims.zero =
      { (Dims.zero : Dims XR) with x := .fin w, a := .fin h, b := .fin d } := by
    simp [hpackDims, h1, h2, h3, h4, h5, h6, Dims.zero]
  have hb := hpack_box LHead.zero _ zero true _ hp
  have e : hlistOf be [.list k nd cs] true = .list .h (hpack LHead.zero [.list k nd cs] zero true) [.list k nd cs] := by
    unfold hlistOf
    simp only [if_true, hik]
  refine ⟨_, e, ⟨?_, ?_, ?_, ?_, h5, h6⟩, ?_, ?_⟩
  · rw [hb.1]; simp
  · rw [hb.1]
  · rw [hb.1]
  · rw [hb.2]; simp [LHead.zero]
  · rw [hb.1]; rfl
  · intro o o' x b
    have hsh : (hpack LHead.zero [.list k nd cs] zero true).shift = .fin 0 := by rw [hb.2]; simp [LHead.zero]
    have ha : advance (hpack LHead.zero [.list k nd cs] zero true) [] = .fin 0 := by rw [advance_none _ _ rfl]; simp [naturalWidth]
    rw [paintH]
    simp only [paintHs, List.append_nil, ha, hsh, add_zero']
    cases k <;> simp only [paintH]

/-- **C72** `\overline` draws a line of the width of its argument and the thickness of lines `t`, whose lower
edge is `t + e` above the top of the argument (`e` a 1200th of the font size times the resolution), and then
the argument, moved up or down by at most half a point.  The box has the width and depth of the argument and
is higher by `3t + e`. -/
theorem C72_overline (be : Backend XR) (st : TState XR) (nd : LHead XR) (cs : List (TNode XR)) (w h d t e : ℚ)
    (hm : Measured nd w h d) (ht : be.underline st.font st.dpi = .fin t) (ht0 : 0 < t) (he : st.font.size * st.dpi / ofInt 1200 = .fin e)
    (he0 : 0 ≤ e) (hw : 0 ≤ w) (hx : 2 * t + e ≤ 1000000000) :
    ∃ hb cs', ∃ q : ℚ, buildOverline be nd cs st = .ok (.list .h hb cs') ∧ Measured hb w (h + 3 * t + e) d ∧ |q| ≤ 1 / 2 ∧
      ∀ o x b, paintH o x (.fin b) (.list .h hb cs') =
        [.rect x (.fin (b - h - 2 * t - e)) (x + .fin w) (.fin (b - h - t - e))] ++
        paintH o x (.fin (b + q)) (.list .h nd cs) := by
  obtain ⟨b1, e1, m1, -, p1⟩ := wrap_list be .h nd cs w h d hm.width hm.height hm.depth hm.shift hm.above hm.below
  obtain ⟨b2, c2, r, e2, m2, s2, hr, p2⟩ := ruled_paint be st b1 [.list .h nd cs] w h d t e (h + 3 * t) d m1 ht ht0 he le_rfl hw
    (by linarith) (by linarith)
  obtain ⟨b3, e3, m3, -, p3⟩ := wrap_list be .v b2 c2 w (h + 3 * t + e) d (by rw [m2]) (by rw [m2]) (by rw [m2]) s2
    (by have := hm.above; linarith) hm.below
  refine ⟨b3, [.list .v b2 c2], r - (h + 3 * t + e - t - h), ?_, m3, hr, ?_⟩
  · unfold buildOverline
    simp only [ht, hm.height, hm.depth, hm.shift, e1]
    have i3 : (ofInt 3 : XR) = .fin 3 := by show XR.fin _ = _; simp
    rw [i3, fin_sub, fin_mul, fin_add, fin_add, sub_zero, add_zero, e2, Res.ok_bind, e3]
  · intro o x b
    rw [p3 o o, p2 o, p1 o o]
    congr 2
    congr 2 <;> ring


theorem fin_of_add {a b : XR} {q : ℚ} (h : a + b = .fin q) : ∃ p r, a = .fin p ∧ b = .fin r := by
  cases a <;> cases b <;> first | exact ⟨_, _, rfl, rfl⟩ | exact XR.noConfusion h

theorem fin_of_sub {a b : XR} {q : ℚ} (h : a - b = .fin q) : ∃ p r, a = .fin p ∧ b = .fin r := by
  cases a <;> cases b <;> first | exact ⟨_, _, rfl, rfl⟩ | exact XR.noConfusion h

/-- A list between two empty boxes of width `p`. -/
theorem padded_list (be : Backend XR) (nd : LHead XR) (cs : List (TNode XR)) (w h d p : ℚ) (hm : Measured nd w h d) :
    ∃ hb cs', hlistOf be [hbox (.fin p), .list .h nd cs, hbox (.fin p)] true = .list .h hb cs' ∧ Measured hb (w + 2 * p) h d ∧
      ∀ o o' x b, paintH o x b (.list .h hb cs') = paintH o' (x + .fin p) b (.list .h nd cs) := by
  obtain ⟨h1, h2, h3, h4, h5, h6⟩ := hm
  have hik : insertKerns be [hbox (.fin p), .list .h nd cs, hbox (.fin p)] = [hbox (.fin p), .list .h nd cs, hbox (.fin p)] := by
    simp [insertKerns, TNode.kerning, hbox]
  have hp : ([hbox (.fin p), .list .h nd cs, hbox (.fin p)] : List (TNode XR)).foldl (fun p n => hpackDims n p) Dims.zero =
      { (Dims.zero : Dims XR) with x := .fin (w + 2 * p), a := .fin h, b := .fin d } := by
    simp [hpackDims, h1, h2, h3, h4, h5, h6, Dims.zero, hbox, newBox]
    ring
  have hb := hpack_box LHead.zero _ zero true _ hp
  have e : hlistOf be [hbox (.fin p), .list .h nd cs, hbox (.fin p)] true =
      .list .h (hpack LHead.zero [hbox (.fin p), .list .h nd cs, hbox (.fin p)] zero true) [hbox (.fin p), .list .h nd cs, hbox (.fin p)] := by
    unfold hlistOf
    simp only [if_true, hik]
  have hsh : (hpack LHead.zero [hbox (.fin p), .list .h nd cs, hbox (.fin p)] zero true).shift = .fin 0 := by rw [hb.2]; simp [LHead.zero]
  refine ⟨_, _, e, ⟨?_, ?_, ?_, hsh, h5, h6⟩, ?_⟩
  · rw [hb.1]; simp
  · rw [hb.1]
  · rw [hb.1]
  · intro o o' x b
    have ha : advance (hpack LHead.zero [hbox (.fin p), .list .h nd cs, hbox (.fin p)] zero true) [.box (newBox (.fin p) zero zero)] = .fin p := by
      rw [advance_none _ _ rfl]; simp [naturalWidth, TNode.width, newBox]
    simp only [hbox] at hsh ha ⊢
    simp only [paintH, paintHs, List.append_nil, List.nil_append, ha, hsh, add_zero']

/-- A radical, whose sign reaches from `H` above the baseline to `d` below it and is `cw` wide, with an index
`rb` of width `wr` (or with an empty box in its place). -/
theorem radical_paint (be : Backend XR) (root : Option (TNode XR)) (st : TState XR) (nd : LHead XR) (cs : List (TNode XR))
    (ch : LHead XR) (cc : List (TNode XR)) (rb : LHead XR) (rc : List (TNode XR))
    (w h d t e cw wr hr dr : ℚ)
    (hm : Measured nd w h d) (ht : be.underline st.font st.dpi = .fin t) (ht0 : 0 < t) (he : st.font.size * st.dpi / ofInt 1200 = .fin e)
    (he0 : 0 ≤ e) (hw : 0 ≤ w) (hx : 4 * t + e ≤ 1000000000)
    (hc : autoHeightChar be bs!"\\__sqrt__" (.fin (h + 5 * t)) (.fin d) st zero = .ok (.list .h ch cc))
    (hcw : ch.box.width = .fin cw) (hch : ch.box.height - ch.shift = .fin (h + 5 * t)) (hcd : ch.box.depth + ch.shift = .fin d)
    (hroot : hlistOf be [match root with | none => hbox (.fin cw * ofRat 5 10) | some r => (r.shrink be).shrink be] true = .list .h rb rc)
    (hmr : Measured rb wr hr dr) (hwr : 0 ≤ wr) :
    ∃ hb cs', ∃ q : ℚ, buildSqrt be root nd cs st = .ok (.list .h hb cs') ∧
      Measured hb (wr + cw / 2 + w + 4 * t) (max (hr + 6 / 10 * (h + 5 * t)) (h + 5 * t + e)) (max (dr - 6 / 10 * (h + 5 * t)) d) ∧ |q| ≤ 1 / 2 ∧
      ∀ o x b, paintH o (.fin x) (.fin b) (.list .h hb cs') =
        paintH o (.fin x) (.fin (b - 6 / 10 * (h + 5 * t))) (.list .h rb rc) ++
        paintH o (.fin (x + wr - cw / 2)) (.fin b) (.list .h ch cc) ++
        [.rect (.fin (x + wr + cw / 2)) (.fin (b - h - 4 * t - e)) (.fin (x + wr + cw / 2 + w + 4 * t)) (.fin (b - h - 3 * t - e))] ++
        paintH o (.fin (x + wr + cw / 2 + 2 * t)) (.fin (b + q)) (.list .h nd cs) := by
  obtain ⟨b1, c1, e1, m1, p1⟩ := padded_list be nd cs w h d (2 * t) hm
  obtain ⟨b2, c2, r, e2, m2, s2, hr', p2⟩ := ruled_paint be st b1 c1 (w + 2 * (2 * t)) h d t e (h + 5 * t) d m1 ht ht0 he le_rfl
    (by linarith) (by linarith) (by linarith)
  obtain ⟨r1, r2, r3, r4, r5, r6⟩ := hmr
  have hvp : ∃ v : LHead XR, vpack LHead.zero [.list .h rb rc] zero true inf = .ok v ∧ v.box = ⟨0, .fin wr, .fin hr, .fin dr⟩ := by
    unfold vpack
    simp only [vpackAll, vpackDims, Res.ok_bind, Dims.zero, r1, r2, r3, r4]
    refine ⟨_, rfl, ?_⟩
    rw [(finishGlue_box _ _ _ _).1]
    have hlt : XR.lt pinf (.fin dr) = false := rfl
    simp [LHead.zero, inf, GoFloat.lt, hlt, hwr]
  obtain ⟨v, hv, hvb⟩ := hvp
  obtain ⟨chh, chs, eh, es⟩ := fin_of_sub hch
  obtain ⟨chd, -, ed, -⟩ := fin_of_add hcd
  rw [eh, es, fin_sub, XR.fin.injEq] at hch
  rw [ed, es, fin_add, XR.fin.injEq] at hcd
  have h0 := hm.above
  have d0 := hm.below
  have hp : ([.list .v (v.setShift (.fin (-(6 / 10 * (h + 5 * t))))) [.list .h rb rc], newKern (.fin (-(cw / 2))), .list .h ch cc, .list .v b2 c2] :
      List (TNode XR)).foldl (fun p n => hpackDims n p) Dims.zero = { (Dims.zero : Dims XR) with
        x := .fin (wr + cw / 2 + w + 4 * t), a := .fin (max (hr + 6 / 10 * (h + 5 * t)) (h + 5 * t + e)), b := .fin (max (dr - 6 / 10 * (h + 5 * t)) d) } := by
    simp only [List.foldl_cons, List.foldl_nil, hpackDims, LHead.setShift, hvb, m2, s2, newKern, Dims.zero, zero_fin, fin_isInf, Bool.or_self,
        Bool.false_eq_true, if_false, fin_sub, fin_add, fin_max, eh, es, ed, hch, hcd, hcw, sub_zero, add_zero, Dims.mk.injEq, XR.fin.injEq, and_true]
    refine ⟨by ring, ?_, ?_⟩
    · rw [max_eq_right (a := (0:ℚ)) (by linarith), max_assoc, max_eq_right (a := h + 5 * t) (by linarith), sub_neg_eq_add]
    · rw [max_comm 0, max_assoc, max_assoc, max_self, max_eq_right d0, ← sub_eq_add_neg]
  have hb := hpack_box LHead.zero _ zero true _ hp
  have hik : insertKerns be [.list .v (v.setShift (.fin (-(6 / 10 * (h + 5 * t))))) [.list .h rb rc], newKern (.fin (-(cw / 2))), .list .h ch cc, .list .v b2 c2] =
      [.list .v (v.setShift (.fin (-(6 / 10 * (h + 5 * t))))) [.list .h rb rc], newKern (.fin (-(cw / 2))), .list .h ch cc, .list .v b2 c2] := by
    simp [insertKerns, TNode.kerning, newKern]
  have i5 : (ofInt 5 : XR) = .fin 5 := by show XR.fin _ = _; simp
  have i2 : (ofInt 2 : XR) = .fin 2 := by show XR.fin _ = _; simp
  have i6 : (ofRat 6 10 : XR) = .fin (6 / 10) := by show XR.fin _ = _; norm_num
  have i55 : (ofRat 5 10 : XR) = .fin (5 / 10) := by show XR.fin _ = _; norm_num
  generalize hH : hpack (F := XR) _ _ _ _ = hB at hb
  have hsh : hB.shift = .fin 0 := by rw [hb.2]; simp [LHead.zero]
  refine ⟨hB, [.list .v (v.setShift (.fin (-(6 / 10 * (h + 5 * t))))) [.list .h rb rc], newKern (.fin (-(cw / 2))), .list .h ch cc, .list .v b2 c2],
    r - (h + 5 * t + e - t - h), ?_, ⟨?_, ?_, ?_, hsh, ?_, ?_⟩, hr', ?_⟩
  · unfold buildSqrt
    cases root <;>
    · simp only [i55, fin_mul] at hroot
      simp only [ht, hm.height, hm.depth, hm.shift, i5, fin_sub, fin_mul, fin_add, sub_zero, add_zero, hc, Res.ok_bind, TNode.height, TNode.depth, TNode.width,
        eh, es, ed, hcw, hch, hcd, i2, e1, e2, hroot, hv, i6, i55, fin_neg]
      rw [show -(h + 5 * t) * (6 / 10) = -(6 / 10 * (h + 5 * t)) by ring, show -cw * (5 / 10) = -(cw / 2) by ring]
      unfold hlistOf
      simp only [if_true, hik, hH]
  · rw [hb.1]; simp
  · rw [hb.1]
  · rw [hb.1]
  · exact le_max_of_le_right (by linarith)
  · exact le_max_of_le_right d0
  · intro o x b
    have ha0 : advance hB [] = .fin 0 := by rw [advance_none _ _ rfl]; simp [naturalWidth]
    have ha2 : advance hB [.list .v (v.setShift (.fin (-(6 / 10 * (h + 5 * t))))) [.list .h rb rc], newKern (.fin (-(cw / 2)))] = .fin (wr - cw / 2) := by
      rw [advance_none _ _ rfl]; simp [naturalWidth, TNode.width, LHead.setShift, hvb, newKern]; ring
    have ha3 : advance hB [.list .v (v.setShift (.fin (-(6 / 10 * (h + 5 * t))))) [.list .h rb rc], newKern (.fin (-(cw / 2))), .list .h ch cc] =
        .fin (wr + cw / 2) := by
      rw [advance_none _ _ rfl]; simp [naturalWidth, TNode.width, LHead.setShift, hvb, newKern, hcw]; ring
    have hv0 : vadvance (v.setShift (.fin (-(6 / 10 * (h + 5 * t))))) [] = .fin 0 := by rw [vadvance_none _ _ rfl]; simp
    have hq := p2 hB (.fin (x + wr + cw / 2)) b
    rw [p1 hB o] at hq
    have e0 : paintH o (.fin x) (.fin b) (.list .h hB [.list .v (v.setShift (.fin (-(6 / 10 * (h + 5 * t))))) [.list .h rb rc], newKern (.fin (-(cw / 2))), .list .h ch cc, .list .v b2 c2]) =
        paintH hB (.fin x + .fin 0) (.fin b + .fin 0) (.list .v (v.setShift (.fin (-(6 / 10 * (h + 5 * t))))) [.list .h rb rc]) ++
        (paintH hB (.fin x + .fin (wr - cw / 2)) (.fin b + .fin 0) (.list .h ch cc) ++
        paintH hB (.fin x + .fin (wr + cw / 2)) (.fin b + .fin 0) (.list .v b2 c2)) := by
      rw [paintH, hsh]
      simp only [paintHs, List.append_nil, List.nil_append, List.cons_append, ha0, ha2, ha3]
      congr 1
    have ev : ∀ x b : ℚ, paintH hB (.fin x) (.fin b) (.list .v (v.setShift (.fin (-(6 / 10 * (h + 5 * t))))) [.list .h rb rc]) =
        paintH o (.fin x) (.fin (b - 6 / 10 * (h + 5 * t))) (.list .h rb rc) := by
      intro x b
      simp only [paintH, paintVs, paintV, hv0, List.append_nil, r2, r4]
      simp only [LHead.setShift, hvb, fin_add, fin_sub, add_zero]
      congr 2; ring
    have ec : ∀ x b : XR, paintH hB x b (.list .h ch cc) = paintH o x b (.list .h ch cc) := fun x b => by simp only [paintH]
    rw [e0]
    simp only [fin_add, add_zero, ev, ec]
    rw [show x + (wr + cw / 2) = x + wr + cw / 2 by ring, hq, show x + (wr - cw / 2) = x + wr - cw / 2 by ring]
    simp only [List.append_assoc, fin_add]
    congr 4
    congr 2 <;> ring

/-- **C72** `\sqrt{body}` draws the radical sign at the left end, then the line, which begins where the sign ends and
covers the body and `2t` on either side, then the body, moved up or down by at most half a point.  The sign reaches
from `5t` above the body to the depth of the body; the lower edge of the line is `3t + e` above the body. -/
theorem C72_sqrt (be : Backend XR) (name typ : GoString) (dpi : XR) (s i g : ℚ) (nd : LHead XR) (cs : List (TNode XR))
    (ch : LHead XR) (cc : List (TNode XR)) (w h d t e cw : ℚ)
    (hp : Proportional be bs!"\\__sqrt__" name typ dpi i g) (hn : name ≠ []) (hs : s ≠ 0) (hi : 0 ≤ i) (hgi : i ≤ g) (hg : 0 < g)
    (hm : Measured nd w h d) (ht : be.underline ⟨name, typ, .fin s⟩ dpi = .fin t) (ht0 : 0 < t) (he : .fin s * dpi / ofInt 1200 = XR.fin e)
    (he0 : 0 ≤ e) (hw : 0 ≤ w) (hx : 4 * t + e ≤ 1000000000)
    (hc : autoHeightChar be bs!"\\__sqrt__" (.fin (h + 5 * t)) (.fin d) ⟨⟨name, typ, .fin s⟩, dpi⟩ zero = .ok (.list .h ch cc))
    (hcw : ch.box.width = .fin cw) (hcw0 : 0 ≤ cw) :
    ch.box.height - ch.shift = .fin (h + 5 * t) ∧ ch.box.depth + ch.shift = .fin d ∧
    ∃ hb cs', ∃ q : ℚ, buildSqrt be none nd cs ⟨⟨name, typ, .fin s⟩, dpi⟩ = .ok (.list .h hb cs') ∧
      Measured hb (cw + w + 4 * t) (h + 5 * t + e) d ∧ |q| ≤ 1 / 2 ∧
      ∀ o x b, paintH o (.fin x) (.fin b) (.list .h hb cs') =
        paintH o (.fin x) (.fin b) (.list .h ch cc) ++
        [.rect (.fin (x + cw)) (.fin (b - h - 4 * t - e)) (.fin (x + cw + w + 4 * t)) (.fin (b - h - 3 * t - e))] ++
        paintH o (.fin (x + cw + 2 * t)) (.fin (b + q)) (.list .h nd cs) := by
  have h0 := hm.above
  have d0 := hm.below
  obtain ⟨ch', cc', hc', h1, h2⟩ := C56_box be bs!"\\__sqrt__" name typ dpi s i g (h + 5 * t) d hp hn hs hi hgi hg (by linarith)
  rw [← zero_fin, hc] at hc'
  cases hc'
  have i55 : (ofRat 5 10 : XR) = .fin (5 / 10) := by show XR.fin _ = _; norm_num
  have hik : insertKerns be [hbox (.fin cw * ofRat 5 10)] = [hbox (.fin cw * ofRat 5 10)] := by
    simp [insertKerns, TNode.kerning, hbox]
  have hP : ([hbox (.fin cw * ofRat 5 10)] : List (TNode XR)).foldl (fun p n => hpackDims n p) Dims.zero =
      { (Dims.zero : Dims XR) with x := .fin (cw / 2), a := .fin 0, b := .fin 0 } := by
    rw [i55]
    simp [hpackDims, Dims.zero, hbox, newBox]
    ring
  have hb := hpack_box LHead.zero _ zero true _ hP
  have e0 : hlistOf be [hbox (.fin cw * ofRat 5 10)] true =
      .list .h (hpack LHead.zero [hbox (.fin cw * ofRat 5 10)] zero true) [hbox (.fin cw * ofRat 5 10)] := by
    unfold hlistOf
    simp only [if_true, hik]
  have hmr : Measured (hpack LHead.zero [hbox (.fin cw * ofRat 5 10)] zero true) (cw / 2) 0 0 := by
    refine ⟨?_, ?_, ?_, ?_, le_rfl, le_rfl⟩
    · rw [hb.1]; simp
    · rw [hb.1]
    · rw [hb.1]
    · rw [hb.2]; simp [LHead.zero]
  obtain ⟨hB, cs', q, r1, r2, r3, r4⟩ := radical_paint be none ⟨⟨name, typ, .fin s⟩, dpi⟩ nd cs ch cc _ _ w h d t e cw (cw / 2) 0 0 hm ht ht0 he he0 hw hx
    hc hcw h1 h2 e0 hmr (by linarith)
  refine ⟨h1, h2, hB, cs', q, r1, ?_, r3, ?_⟩
  · rw [max_eq_right (by linarith), max_eq_right (by linarith), show cw / 2 + cw / 2 = cw by ring] at r2
    exact r2
  · intro o x b
    rw [r4]
    have e2 : ∀ x b, paintH o x b (.list .h (hpack LHead.zero [hbox (.fin cw * ofRat 5 10)] zero true) [hbox (.fin cw * ofRat 5 10)]) = [] := by
      intro x b
      simp only [hbox, paintH, paintHs, List.append_nil]
    rw [e2, List.nil_append, show x + cw / 2 - cw / 2 = x by ring, show x + cw / 2 + cw / 2 = x + cw by ring]

/-- **C72** `\sqrt[index]{body}`: the index, which is shrunk twice, is drawn first, on a baseline raised by six tenths
of the height of the radical sign; the sign begins where the index ends, less half the width of the sign. -/
theorem C72_root (be : Backend XR) (name typ : GoString) (dpi : XR) (s i g : ℚ) (nd : LHead XR) (cs : List (TNode XR))
    (ch : LHead XR) (cc : List (TNode XR)) (rn : LHead XR) (rc : List (TNode XR)) (root : TNode XR) (w h d t e cw wr hr dr : ℚ)
    (hp : Proportional be bs!"\\__sqrt__" name typ dpi i g) (hn : name ≠ []) (hs : s ≠ 0) (hi : 0 ≤ i) (hgi : i ≤ g) (hg : 0 < g)
    (hm : Measured nd w h d) (ht : be.underline ⟨name, typ, .fin s⟩ dpi = .fin t) (ht0 : 0 < t) (he : .fin s * dpi / ofInt 1200 = XR.fin e)
    (he0 : 0 ≤ e) (hw : 0 ≤ w) (hx : 4 * t + e ≤ 1000000000)
    (hc : autoHeightChar be bs!"\\__sqrt__" (.fin (h + 5 * t)) (.fin d) ⟨⟨name, typ, .fin s⟩, dpi⟩ zero = .ok (.list .h ch cc))
    (hcw : ch.box.width = .fin cw)
    (hroot : (root.shrink be).shrink be = .list .h rn rc) (hmr : Measured rn wr hr dr) (hwr : 0 ≤ wr) :
    ∃ hb cs', ∃ q : ℚ, buildSqrt be (some root) nd cs ⟨⟨name, typ, .fin s⟩, dpi⟩ = .ok (.list .h hb cs') ∧
      Measured hb (wr + cw / 2 + w + 4 * t) (max (hr + 6 / 10 * (h + 5 * t)) (h + 5 * t + e)) (max (dr - 6 / 10 * (h + 5 * t)) d) ∧ |q| ≤ 1 / 2 ∧
      ∀ o x b, paintH o (.fin x) (.fin b) (.list .h hb cs') =
        paintH o (.fin x) (.fin (b - 6 / 10 * (h + 5 * t))) (.list .h rn rc) ++
        paintH o (.fin (x + wr - cw / 2)) (.fin b) (.list .h ch cc) ++
        [.rect (.fin (x + wr + cw / 2)) (.fin (b - h - 4 * t - e)) (.fin (x + wr + cw / 2 + w + 4 * t)) (.fin (b - h - 3 * t - e))] ++
        paintH o (.fin (x + wr + cw / 2 + 2 * t)) (.fin (b + q)) (.list .h nd cs) := by
  have h0 := hm.above
  have d0 := hm.below
  obtain ⟨ch', cc', hc', h1, h2⟩ := C56_box be bs!"\\__sqrt__" name typ dpi s i g (h + 5 * t) d hp hn hs hi hgi hg (by linarith)
  rw [← zero_fin, hc] at hc'
  cases hc'
  obtain ⟨b1, e1, m1, -, p1⟩ := wrap_list be .h rn rc wr hr dr hmr.width hmr.height hmr.depth hmr.shift hmr.above hmr.below
  rw [← hroot] at e1
  obtain ⟨hB, cs', q, r1, r2, r3, r4⟩ := radical_paint be (some root) ⟨⟨name, typ, .fin s⟩, dpi⟩ nd cs ch cc _ _ w h d t e cw wr hr dr hm ht ht0 he he0 hw hx
    hc hcw h1 h2 e1 m1 hwr
  refine ⟨hB, cs', q, r1, r2, r3, ?_⟩
  intro o x b
  rw [r4, hroot, p1 o o]

/-! ## The macros that make these boxes -/

/-- **C66** `\frac{num}{den}` and `\tfrac{num}{den}` are text-style fractions, `\dfrac{num}{den}` a display-style fraction,
with a bar of the thickness of lines; `\binom{num}{den}` is a text-style fraction with a bar of thickness 0 between
parentheses.  The parts are what the arguments give, with kerning. -/
theorem C66_macros {F : Type} [GoFloat F] (be : Backend F) (num : GoString → Option F) (x : GoString) (st : TState F) (m : Bool)
    (p i1 i2 i3 i4 : Nat) (l1 l2 : List Node) (name : GoString) (delims : Bool) (rule : F) (display : Bool)
    (hn : (name, delims, rule, display) ∈ [(bs!"\\frac", false, be.underline st.font st.dpi, false),
      (bs!"\\tfrac", false, be.underline st.font st.dpi, false), (bs!"\\dfrac", false, be.underline st.font st.dpi, true),
      (bs!"\\binom", true, zero, false)]) :
    collect be num x st m (.macro (some (p, name)) [.arg i1 l1 i2, .arg i3 l2 i4]) =
      collect be num x st m (.list l1) >>= fun u => collect be num x st m (.list l2) >>= fun v =>
        genfrac be delims rule display (hlistOf be u true) (hlistOf be v true) st >>= fun n => .ok [n] := by
  have h1 : handlerOf bs!"\\frac" = some .frac := by decide +kernel
  have h2 : handlerOf bs!"\\tfrac" = some .tfrac := by decide +kernel
  have h3 : handlerOf bs!"\\dfrac" = some .dfrac := by decide +kernel
  have h4 : handlerOf bs!"\\binom" = some .binom := by decide +kernel
  simp only [collect_eq]
  simp only [List.mem_cons, Prod.mk.injEq, List.not_mem_nil, or_false] at hn
  rcases hn with ⟨rfl, rfl, rfl, rfl⟩ | ⟨rfl, rfl, rfl, rfl⟩ | ⟨rfl, rfl, rfl, rfl⟩ | ⟨rfl, rfl, rfl, rfl⟩ <;>
    simp only [walkN, visitN, h1, h2, h3, h4, build, walkArgs, walkArg, hl_eq, res_bind_assoc]

/-- **C72** `\sqrt{body}`, `\sqrt[index]{body}` and `\overline{body}` are made from what the arguments give, with kerning. -/
theorem C72_macros {F : Type} [GoFloat F] (be : Backend F) (num : GoString → Option F) (x : GoString) (st : TState F) (m : Bool)
    (p i1 i2 i3 i4 : Nat) (l1 l2 : List Node) :
    (collect be num x st m (.macro (some (p, bs!"\\sqrt")) [.arg i1 l1 i2]) =
      collect be num x st m (.list l1) >>= fun u => buildSqrt be none (hbody be u).1 (hbody be u).2 st >>= fun n => .ok [n]) ∧
    (collect be num x st m (.macro (some (p, bs!"\\sqrt")) [.optArg i1 l1 i2, .arg i3 l2 i4]) =
      collect be num x st m (.list l1) >>= fun u => collect be num x st m (.list l2) >>= fun v =>
        buildSqrt be (some (hlistOf be u true)) (hbody be v).1 (hbody be v).2 st >>= fun n => .ok [n]) ∧
    (collect be num x st m (.macro (some (p, bs!"\\overline")) [.arg i1 l1 i2]) =
      collect be num x st m (.list l1) >>= fun u => buildOverline be (hbody be u).1 (hbody be u).2 st >>= fun n => .ok [n]) ∧
    (∀ u, hlistOf be u true = .list .h (hbody be u).1 (hbody be u).2) := by
  have h1 : handlerOf bs!"\\sqrt" = some .sqrt := by decide +kernel
  have h2 : handlerOf bs!"\\overline" = some .overline := by decide +kernel
  simp only [collect_eq]
  refine ⟨?_, ?_, ?_, fun _ => rfl⟩ <;>
    simp only [walkN, visitN, h1, h2, build, walkArgs, walkArg, hl_eq, res_bind_assoc]

/-! ## Concrete cases -/

example : Proportional exLin bs!"\\__sqrt__" bs!"default" bs!"rm" (.fin 72) (3 / 4) 1 := by
  intro s; refine ⟨rfl, ?_, ?_, ?_⟩ <;> simp [exLin, mul_comm]
example : Measured (hbody exLin [exChar bs!"A"]).1 10 0 0 := by constructor <;> decide +kernel
example : (match autoHeightChar exLin bs!"\\__sqrt__" (.fin (0 + 5 * 1)) (.fin 0) exSt zero with
    | .ok (.list .h hd _) => some hd.box.width
    | _ => none) = some (.fin 5) := by decide +kernel
/-- `\sqrt{A}` at (0, 0): the sign, the line, the body -/
example : (match buildSqrt exLin none (hbody exLin [exChar bs!"A"]).1 (hbody exLin [exChar bs!"A"]).2 exSt with
    | .ok n => (paintH LHead.zero (.fin 0) (.fin 0) n).map exCorner
    | _ => []) = [(.fin 0, .fin (-5 / 4), false), (.fin 5, .fin (-23 / 5), true), (.fin 7, .fin (2 / 5), false)] := by decide +kernel
/-- `\overline{A}` at (0, 0): the line, the body -/
example : (match buildOverline exLin (hbody exLin [exChar bs!"A"]).1 (hbody exLin [exChar bs!"A"]).2 exSt with
    | .ok n => (paintH LHead.zero (.fin 0) (.fin 0) n).map exCorner
    | _ => []) = [(.fin 0, .fin (-13 / 5), true), (.fin 0, .fin (2 / 5), false)] := by decide +kernel

end Verif.Props
