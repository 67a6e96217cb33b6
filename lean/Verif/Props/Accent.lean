import Verif.Props.Ship
/-! # C95: accents fill their boxes; rules run along their lists -/

namespace Verif.Props
open Verif Spec GoFloat XR

/-- The node after a history of `Shrink` (true) and `Grow` (false). -/
def resized {F : Type} [GoFloat F] (be : Backend F) (n : TNode F) : List Bool → TNode F
  | [] => n
  | true :: l => resized be (n.shrink be) l
  | false :: l => resized be (n.grow be) l

theorem resized_accent {F : Type} [GoFloat F] (be : Backend F) (l : List Bool) : ∀ (c : CharD F),
    c = c.updateAccent be → ∃ c', resized be (.accent c) l = .accent c' ∧ c' = c'.updateAccent be ∧ c'.c = c.c ∧ c'.dpi = c.dpi ∧ c'.math = c.math ∧
      c'.font.name = c.font.name ∧ c'.font.typ = c.font.typ := by
  induction l with
  | nil => intro c h; exact ⟨c, rfl, h, rfl, rfl, rfl, rfl, rfl⟩
  | cons b l ih =>
    intro c h
    cases b with
    | true =>
      obtain ⟨c', h1, h2, h3, h4, h5, h6, h7⟩ := ih (c.shrink.updateAccent be) rfl
      refine ⟨c', by rw [resized, TNode.shrink]; exact h1, h2, ?_, ?_, ?_, ?_, ?_⟩ <;>
        first
        | (rw [h3]; simp only [CharD.shrink, CharD.updateAccent]; split <;> rfl)
        | (rw [h4]; simp only [CharD.shrink, CharD.updateAccent]; split <;> rfl)
        | (rw [h5]; simp only [CharD.shrink, CharD.updateAccent]; split <;> rfl)
        | (rw [h6]; simp only [CharD.shrink, CharD.updateAccent]; split <;> rfl)
        | (rw [h7]; simp only [CharD.shrink, CharD.updateAccent]; split <;> rfl)
    | false =>
      obtain ⟨c', h1, h2, h3, h4, h5, h6, h7⟩ := ih (c.grow.updateAccent be) rfl
      exact ⟨c', by rw [resized, TNode.grow]; exact h1, h2, h3, h4, h5, h6, h7⟩

/-- **C95** Whatever `Shrink` and `Grow` have been called on an accent, it is an accent with the same text, face, resolution and mode; its metrics
are those of the backend for the font size it now has, its dimensions are those of the ink of the glyph, and it has no depth. -/
theorem C95_box {F : Type} [GoFloat F] (be : Backend F) (t : GoString) (st : TState F) (math : Bool) (a : CharD F)
    (h : newAccent be t st math = .ok a) (l : List Bool) :
    ∃ c size, resized be (.accent a) l = .accent c ∧ c.c = t ∧ c.font = { st.font with size := size } ∧ c.dpi = st.dpi ∧
      c.metrics = be.metrics t { st.font with size := size } st.dpi math ∧
      (TNode.accent c).width = c.metrics.xmax - c.metrics.xmin ∧ (TNode.accent c).height = c.metrics.ymax - c.metrics.ymin ∧
      (TNode.accent c).depth = zero := by
  unfold newAccent at h
  split at h
  · cases h
    obtain ⟨c, h1, h2, h3, h4, h5, h6, h7⟩ := resized_accent be l ((rawChar t st math).updateAccent be) rfl
    have hf : c.font = { st.font with size := c.font.size } := by
      have e6 : c.font.name = st.font.name := h6
      have e7 : c.font.typ = st.font.typ := h7
      cases hc : c.font
      rw [hc] at e6 e7
      simp only at e6 e7
      rw [e6, e7]
    have h3' : c.c = t := h3
    have h4' : c.dpi = st.dpi := h4
    have h5' : c.math = math := h5
    refine ⟨c, c.font.size, h1, h3', hf, h4', ?_, ?_, ?_, ?_⟩
    · rw [← hf, h2]; simp only [CharD.updateAccent]; rw [h3', h4', h5']
    · show c.width = _; rw [h2]; rfl
    · show c.height = _; rw [h2]; rfl
    · show c.depth = _; rw [h2]; rfl
  · cases h

theorem back_left (p : XR) (a b : ℚ) : p - .fin a + .fin b = p + .fin (b - a) := by
  cases p with
  | fin r => show XR.fin _ = XR.fin _; congr 1; ring
  | _ => rfl

theorem back_up (p : XR) (a b : ℚ) : p + .fin a - .fin b = p + .fin (a - b) := by
  cases p with
  | fin r => show XR.fin _ = XR.fin _; congr 1; ring
  | _ => rfl

theorem sub_fin_neg (p : XR) (a : ℚ) : p + .fin a = p - .fin (-a) := by
  cases p with
  | fin r => show XR.fin _ = XR.fin _; congr 1; ring
  | _ => rfl

/-- **C95** Drawn as a child of a list, an accent fills its box with ink: the glyph is placed so that its ink, which reaches from `xmin` to `xmax` and
from `ymin` to `ymax` about its origin, begins at the pen, ends where the accent's width ends, stands on the base line and is as high as the accent. -/
theorem C95_ink (be : Backend XR) (t : GoString) (st : TState XR) (math : Bool) (acc : CharD XR) (hacc : newAccent be t st math = .ok acc)
    (hist : List Bool) (c : CharD XR) (hc : resized be (.accent acc) hist = .accent c)
    (x0 x1 y0 y1 : ℚ) (m1 : c.metrics.xmin = .fin x0) (m2 : c.metrics.xmax = .fin x1) (m3 : c.metrics.ymin = .fin y0) (m4 : c.metrics.ymax = .fin y1)
    (ox oy : XR) (hd : LHead XR) (a b : List (TNode XR)) (s : ShipSt XR) (cs' : List (TNode XR))
    (h : shipCall ox oy hd (a ++ .accent c :: b) = .ok (s, cs')) :
    ∃ sa a' B gx gy, shipCall ox oy hd a = .ok (sa, a') ∧ s.ops = sa.ops ++ [.glyph gx gy c.font t st.dpi] ++ B ∧
      gx + .fin x0 = ox + advance hd a ∧
      gx + .fin x1 = ox + advance hd a + (TNode.accent c).width ∧
      gy - .fin y0 = oy + hd.box.height + (TNode.accent c).depth ∧
      gy - .fin y1 = oy + hd.box.height - (TNode.accent c).height := by
  obtain ⟨c', size, e1, e2, e3, e4, -, e6, e7, e8⟩ := C95_box be t st math acc hacc hist
  rw [hc] at e1; cases e1
  obtain ⟨sa, a', sn, n', B, ha, hn, ho⟩ := C55_child ox oy hd a b (.accent c) rfl s cs' h
  have hl := (C55_leaf _ _ _ _ _ _ hn).2.1 c rfl
  rw [e2, e4] at hl
  refine ⟨sa, a', B, _, _, ha, by rw [ho, hl], ?_, ?_, ?_, ?_⟩
  · rw [m1, back_left, sub_self, add_zero']
  · rw [e6, m1, m2, back_left, fin_sub]
  · rw [e8, m3, back_up, sub_self, zero_fin]
  · rw [e7, m3, m4, back_up, sub_fin_neg, neg_sub, fin_sub]

/-- A font with one accent, the ink of which is away from its origin. -/
def exHat : Backend XR where
  kern _ _ _ _ _ := .fin 0
  metrics _ f _ _ := ⟨f.size, f.size, f.size, f.size * .fin (1 / 10), f.size * .fin (4 / 10), f.size * .fin (6 / 10), f.size * .fin (8 / 10), f.size⟩
  known _ _ _ _ := true
  xheight _ _ := none
  underline _ _ := .fin 1

def exHatState : TState XR := ⟨⟨bs!"default", bs!"it", .fin 10⟩, .fin 72⟩

/-- Made at 10 points and shrunk once, the accent is 2.1 wide and 1.4 high; after a blank of 5 its glyph is drawn at 4.3, its ink from 5 to 7.1. -/
example : ∃ a c, newAccent exHat bs!"^" exHatState true = .ok a ∧ resized exHat (.accent a) [true] = .accent c ∧
    c.width = .fin (21 / 10) ∧ c.height = .fin (7 / 5) ∧ c.metrics.xmin = .fin (7 / 10) ∧
    (∃ s cs', shipCall (.fin 0) (.fin 0) (hpack LHead.zero [newKern (.fin 5), .accent c] zero true) [newKern (.fin 5), .accent c] = .ok (s, cs') ∧
      s.ops = [.glyph (.fin (43 / 10)) (.fin (28 / 5)) c.font bs!"^" (.fin 72)]) :=
  ⟨_, _, rfl, rfl, by decide +kernel, by decide +kernel, by decide +kernel, _, _, rfl, by decide +kernel⟩

/-! ## Rules -/

/-- **C95** A rule made by `HRule` takes the thickness asked for, half of it above and half of it below its base line, or, if that is negative, the
thickness of the font's underline; its width is left to the list it is in. -/
theorem C95_hrule (be : Backend XR) (st : TState XR) (t u : ℚ) (hu : be.underline st.font st.dpi = .fin u) :
    (hrule be st (.fin t)).height + (hrule be st (.fin t)).depth = .fin (if t < 0 then u else t) ∧
    (hrule be st (.fin t)).height = (hrule be st (.fin t)).depth ∧ isInf (hrule be st (.fin t)).width = true := by
  have e : (if lt (XR.fin t) zero then be.underline st.font st.dpi else .fin t) = .fin (if t < 0 then u else t) := by
    rw [hu, zero_fin, fin_lt]; by_cases h : t < 0 <;> simp [h]
  refine ⟨?_, rfl, rfl⟩
  show ofRat 1 2 * _ + ofRat 1 2 * _ = _
  rw [e]
  generalize (if t < 0 then u else t) = v
  show XR.fin ((1 : ℤ) / (2 : ℕ) * v + (1 : ℤ) / (2 : ℕ) * v) = _
  congr 1; push_cast; ring

/-- **C95** A child of a vertical list made by `HRule` is drawn, with its thickness, from the left edge of the list over its whole width. -/
theorem C95_hrule_drawn (be : Backend XR) (s : TState XR) (t : ℚ) (ht : 0 < t) (ox oy : XR) (hd nd : LHead XR) (a b : List (TNode XR)) (st : ShipSt XR)
    (cs' : List (TNode XR)) (h : shipCall ox oy hd [.list .v nd (a ++ hrule be s (.fin t) :: b)] = .ok (st, cs')) :
    ∃ sa a' B, ∃ y : XR, shipCall ox oy hd [.list .v nd a] = .ok (sa, a') ∧
      st.ops = sa.ops ++ [.rect ox y (ox + nd.box.width) (y + .fin t)] ++ B ∧ y = topOf oy hd nd + vadvance nd a + .fin t := by
  have e : hrule be s (.fin t) = .rule ⟨0, inf, .fin (1 / 2 * t), .fin (1 / 2 * t)⟩ := by
    have : lt (XR.fin t) zero = false := by rw [zero_fin, fin_lt]; simp [ht.le]
    simp only [hrule, newRule, newBox, this]
    show (TNode.rule ⟨0, inf, XR.fin ((1 : ℤ) / (2 : ℕ) * t), XR.fin ((1 : ℤ) / (2 : ℕ) * t)⟩ : TNode XR) = _
    norm_num
  rw [e] at h
  have hh : (XR.fin (1 / 2 * t) + XR.fin (1 / 2 * t)) = .fin t := by rw [fin_add]; congr 1; ring
  obtain ⟨sa, a', B, h1, h2, h3⟩ := C57_vrule ox oy hd nd a b _ st cs' h (by
    show (pos (XR.fin (1 / 2 * t) + XR.fin (1 / 2 * t)) && pos (XR.fin (1 / 2 * t))) = true
    rw [hh]; simp only [pos, zero_fin, fin_lt, Bool.and_eq_true, decide_eq_true_eq]; exact ⟨ht, by linarith⟩)
  refine ⟨sa, a', B, topOf oy hd nd + vadvance nd a + .fin t, h1, h2.trans ?_, rfl⟩
  have hv : topOf oy hd nd + vadvance nd (a ++ [.rule ⟨0, inf, .fin (1 / 2 * t), .fin (1 / 2 * t)⟩]) = topOf oy hd nd + vadvance nd a + .fin t := by
    rw [h3, ← add_assoc']
    show _ + (XR.fin (1 / 2 * t) + XR.fin (1 / 2 * t)) = _
    rw [hh]
  rw [hv]
  show _ ++ [Draw.rect ox _ (ox + nd.box.width) (_ + (XR.fin (1 / 2 * t) + XR.fin (1 / 2 * t)))] ++ B = _
  rw [hh]

theorem hpackDims_extents {p q : Dims XR} (n : TNode XR) (h : p.a = q.a ∧ p.b = q.b) :
    (hpackDims n p).a = (hpackDims n q).a ∧ (hpackDims n p).b = (hpackDims n q).b := by
  cases n <;> simp only [hpackDims] <;> (try split) <;> simp [h.1, h.2]

theorem foldl_extents (l : List (TNode XR)) : ∀ {p q : Dims XR}, p.a = q.a ∧ p.b = q.b →
    (l.foldl (fun p n => hpackDims n p) p).a = (l.foldl (fun p n => hpackDims n p) q).a ∧
    (l.foldl (fun p n => hpackDims n p) p).b = (l.foldl (fun p n => hpackDims n p) q).b := by
  induction l with
  | nil => intro p q h; exact h
  | cons n l ih => intro p q h; exact ih (hpackDims_extents n h)

theorem extents_agree {n : TNode XR} (hn : ∀ p, (hpackDims n p).a = p.a ∧ (hpackDims n p).b = p.b) (a b : List (TNode XR)) :
    ((a ++ n :: b).foldl (fun p n => hpackDims n p) Dims.zero).a = ((a ++ b).foldl (fun p n => hpackDims n p) Dims.zero).a ∧
    ((a ++ n :: b).foldl (fun p n => hpackDims n p) Dims.zero).b = ((a ++ b).foldl (fun p n => hpackDims n p) Dims.zero).b := by
  rw [List.foldl_append, List.foldl_append, List.foldl_cons]
  exact foldl_extents b (hn _)

/-- **C95** A child of a list made by `VRule` is as wide as the font's underline is thick, makes the list no higher and no deeper, and is drawn as high as
the list is (from where the list ends below: see C57). -/
theorem C95_vrule (be : Backend XR) (s : TState XR) (u H D : ℚ) (hu : be.underline s.font s.dpi = .fin u) (u0 : 0 < u) (ox oy : XR) (hd : LHead XR)
    (hH : hd.box.height = .fin H) (hD : hd.box.depth = .fin D) (H0 : 0 < H) (a b : List (TNode XR)) (st : ShipSt XR)
    (cs' : List (TNode XR)) (h : shipCall ox oy hd (a ++ vrule be s :: b) = .ok (st, cs')) :
    (vrule be s).width = .fin u ∧
    (∀ hd0 w add, (hpack hd0 (a ++ vrule be s :: b) w add).box.height = (hpack hd0 (a ++ b) w add).box.height ∧
      (hpack hd0 (a ++ vrule be s :: b) w add).box.depth = (hpack hd0 (a ++ b) w add).box.depth) ∧
    ∃ sa a' B, shipCall ox oy hd a = .ok (sa, a') ∧
      st.ops = sa.ops ++ [.rect (ox + advance hd a) (oy + .fin H + .fin D) (ox + advance hd a + .fin u) (oy + .fin H + .fin D + .fin H)] ++ B := by
  refine ⟨hu, ?_, ?_⟩
  · intro hd0 w add
    have key := extents_agree (n := vrule be s) (fun p => by simp [vrule, newRule, newBox, hpackDims, show isInf (inf : XR) = true from rfl]) a b
    simp only [hpack, finishGlue_box]
    exact key
  · obtain ⟨sa, a', sn, n', B, ha, hn, ho⟩ := C55_child ox oy hd a b (vrule be s) rfl st cs' h
    refine ⟨sa, a', B, ha, ?_⟩
    rw [ho]
    congr 2
    obtain ⟨st0, e, rfl⟩ := ship_loop hn
    obtain ⟨s2, n2, q2, l2, en, el, rfl⟩ := hLoop_cons e
    rw [hLoop] at el; cases el
    simp only [vrule, newRule, newBox] at en
    rw [hNode, hu] at en
    simp only [hH, hD, show isInf (inf : XR) = true from rfl, if_true, pos, zero_fin, fin_lt, u0, H0, decide_true, Bool.and_self] at en
    cases en
    simp only [ShipSt.pop, ShipSt.push, renderRule, zero_fin, zero_add', List.nil_append, List.cons.injEq, Draw.rect.injEq, and_true, true_and, hH]
    exact ⟨by ac_rfl, by ac_rfl⟩

/-- A list with an accent and a rule. -/
def exRuled : List (TNode XR) := [.accent ((rawChar bs!"^" exHatState true).updateAccent exHat), vrule exHat exHatState]

example : ∃ s cs', shipCall (.fin 0) (.fin 0) (hpack LHead.zero exRuled zero true) exRuled = .ok (s, cs') ∧
    s.ops.getLast? = some (.rect (.fin 3) (.fin 2) (.fin 4) (.fin 4)) := by
  have h : (match shipCall (.fin 0) (.fin 0) (hpack LHead.zero exRuled zero true) exRuled with
    | .ok (s, _) => decide (s.ops.getLast? = some (Draw.rect (.fin 3) (.fin 2) (.fin 4) (.fin 4)))
    | _ => false) = true := by decide +kernel
  split at h
  · rename_i s cs' e
    exact ⟨s, cs', e, of_decide_eq_true h⟩
  · cases h

end Verif.Props
