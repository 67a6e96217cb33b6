import Verif.Spec.Picture
import Verif.Props.Draw
import Verif.Props.AcrossRender
/-! # C88: the image holds the whole formula -/

namespace Verif.Props
open Verif Verif.Spec GoFloat XR
variable {H E : Type}

theorem paints_of {dpi page wide s : ℚ} (hd : 0 ≤ dpi) {op : COp XR H} (h1 : OpAcross 0 (72 * wide) op)
    (h2 : OpInside (-s) (72 * page + s) op) :
    ∃ l t r b : ℚ, Paints dpi l t r b op ∧ 0 ≤ l ∧ l ≤ r ∧ r ≤ wide * dpi ∧ -(s * dpi / 72) ≤ t ∧ b ≤ page * dpi + s * dpi / 72 := by
  have h72 : ∀ a b : ℚ, a ≤ b → a * dpi / 72 ≤ b * dpi / 72 := fun a b h =>
    div_le_div_of_nonneg_right (mul_le_mul_of_nonneg_right h hd) (by norm_num)
  cases op with
  | rect x1 y1 x2 y2 =>
    obtain ⟨a, a', rfl, rfl, g1, g2, g3⟩ := h1
    obtain ⟨c, c', rfl, rfl, g4, g5, g6⟩ := h2
    refine ⟨_, _, _, _, ⟨a, a', c, c', rfl, rfl, rfl, rfl, rfl, rfl, rfl, rfl⟩, ?_, h72 _ _ g2, ?_, ?_, ?_⟩
    · have := h72 _ _ g1; linarith
    · have := h72 _ _ g3; linarith
    · have := h72 _ _ g4; linarith
    · have := h72 _ _ g6; linarith
  | glyph x y g =>
    obtain ⟨a, w, rfl, hw, g1, g2, g3⟩ := h1
    obtain ⟨c, top, bot, rfl, ht, hb, g4, g5⟩ := h2
    refine ⟨_, _, _, _, ⟨a, c, w, top, bot, rfl, rfl, hw, ht, hb, rfl, rfl, rfl, rfl⟩, ?_, h72 _ _ (by linarith), ?_, ?_, ?_⟩
    · have := h72 _ _ g1; linarith
    · have := h72 _ _ g3; linarith
    · have := h72 _ _ g4; linarith
    · have := h72 _ _ g5; linarith

/-- **C88** The image that mtex.Render makes with drawimg of formulas in which nothing goes back holds all that is drawn: the
image is a whole number of pixels wide and high, and has one mark for every operation; what the operation paints lies between
the left and the right edge, and between the upper and the lower edge up to half a point for every radical or overline around
it (a bar is rounded to a whole number of points, C72). -/
theorem C88_whole (U : Nat → Bool) (e : TtfEnv H) (num : GoString → Option XR) (x : GoString) (size dpi : ℚ) (lib : ImgLib XR H E)
    (hk : e.KernFine) (hT : SoundTables e size) (hr : RadicalCrosses e) (hn : ∀ t v, num t = some v → IsNum v)
    (h0 : 0 < size) (h1 : size ≤ 1000000000) (hd : 0 ≤ dpi)
    (root : Node) (hp : parseExpr U x = .ok root) (hm : OnlyMath root) (hf : Forward num root) (err : Option E)
    (h : (mtexRenderImg U e num x (.fin size) (.fin dpi) lib).1 = .ok err) :
    ∃ (W Hh : ℤ) (ops : List (COp XR H)),
      images (mtexRenderImg U e num x (.fin size) (.fin dpi) lib).2 = [⟨.fin W, .fin Hh, ops.map (markOf (.fin dpi))⟩] ∧
      ∀ op ∈ ops, ∃ l t r b : ℚ, Paints dpi l t r b op ∧ 0 ≤ l ∧ l ≤ r ∧ r ≤ W ∧
        -(barNesting root / 2 * dpi / 72) ≤ t ∧ b ≤ Hh + barNesting root / 2 * dpi / 72 := by
  have ht : TallGlyphs e := fun c hc f m ft rn idx b h1 h2 h3 => ne_of_lt (hT.upright c hc f m ft rn idx b h1 h2 h3)
  unfold mtexRenderImg at h ⊢
  cases hc : renderT U e num x (.fin size) (.fin dpi) with
  | panic p => rw [hc] at h; cases h
  | fuel => rw [hc] at h; cases h
  | ok c =>
    rw [hc] at h
    dsimp only at h ⊢
    have hdpi : c.dpi = .fin dpi := by
      unfold renderT at hc
      obtain ⟨⟨⟨nd, cs⟩, s⟩, -, hc⟩ := Res.bind_eq_ok.1 hc
      obtain ⟨⟨st, cs'⟩, -, hc⟩ := Res.bind_eq_ok.1 hc
      obtain ⟨⟨u, s'⟩, -, hc⟩ := Res.bind_eq_ok.1 hc
      cases hc
      rfl
    obtain ⟨wide, ew, hw⟩ := C82_render U e num x size _ hk hT hn h0 root hp hm hf c hc
    obtain ⟨page, eh, hh⟩ := C76_render U e num x size _ hk ht hr hn h0 h1 root hp hm c hc
    by_cases hfa : CanDraw lib c
    · obtain ⟨-, i2⟩ := C75_image lib c hfa
      refine ⟨⌈wide * dpi⌉, ⌈page * dpi⌉, c.ops, ?_, ?_⟩
      · rw [i2, hdpi, ew, eh, fin_mul, fin_mul]
        rfl
      · intro op hop
        obtain ⟨l, t, r, b, g1, g2, g3, g4, g5, g6⟩ := paints_of hd (hw op hop) (hh op hop)
        have c1 := Int.le_ceil (wide * dpi)
        have c2 := Int.le_ceil (page * dpi)
        exact ⟨l, t, r, b, g1, g2, g3, by linarith, g5, by linarith⟩
    · obtain ⟨⟨p, hp⟩, -⟩ := C75_noFace lib c hfa
      rw [hp] at h
      cases h

/-! ## A concrete case -/

/-- What each operation paints at 144 dots per inch, with the example fonts: left, upper, right and lower edge. -/
def exPainted (x : GoString) : Option (List (XR × XR × XR × XR)) :=
  match renderT exU exEnv exNum x (.fin 10) (.fin 144) with
  | .ok c => some (c.ops.map fun
    | .rect a p b q => (px (.fin 144) a, px (.fin 144) p, px (.fin 144) b, px (.fin 144) q)
    | .glyph a y g => (px (.fin 144) a, px (.fin 144) (y - g.metrics.ymax), px (.fin 144) (a + g.metrics.advance), px (.fin 144) (y - g.metrics.ymin)))
  | _ => none
/-- an image of 7 by 16 pixels with five marks ... -/
example : (images (mtexRenderImg exU exEnv exNum bs!"$\\frac{1}{\\sqrt{x}}$" (.fin 10) (.fin 144) exImg).2).map
    (fun i => (i.w, i.h, i.marks.length)) = [(.fin 7, .fin 16, 5)] := by decide +kernel
/-- ... which lie between 0 and 7 and between 0 and 16 (the hypotheses on the fonts: see the examples of C76 and C82) -/
example : exPainted bs!"$\\frac{1}{\\sqrt{x}}$" = some [(.fin 2, .fin 0, .fin (786775/393216), .fin (343/384)),
    (.fin 0, .fin (1783/384), .fin (14371/4096), .fin (2263/384)), (.fin 0, .fin (76639/9600), .fin (105/16384), .fin (139639/9600)),
    (.fin (105/16384), .fin (3079/384), .fin (14371/4096), .fin (3415/384)),
    (.fin (28777/16384), .fin (4615/384), .fin (7203/4096), .fin (5455/384))] := by decide +kernel

end Verif.Props
