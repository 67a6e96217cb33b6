import Verif.Lemmas.Exact
import Verif.Model.Mtex
import Verif.Props.Ship
/-!
# C56: characters adapted to a height and a depth -/

namespace Verif.Spec
open Verif

/-- The backend has the character and its metrics are proportional to the font size: at size `s`, the glyph reaches from `i * s`
above the baseline (its top) to `(g - i) * s` below. -/
def Proportional (be : Backend XR) (c : GoString) (name typ : GoString) (dpi : XR) (i g : ℚ) : Prop :=
  ∀ s : ℚ, be.known c ⟨name, typ, .fin s⟩ dpi true = true ∧ be.xheight ⟨name, typ, .fin s⟩ dpi ≠ none ∧
    (be.metrics c ⟨name, typ, .fin s⟩ dpi true).iceberg = .fin (i * s) ∧
    (be.metrics c ⟨name, typ, .fin s⟩ dpi true).height = .fin (g * s)

end Verif.Spec

namespace Verif.Props
open Verif Verif.Spec GoFloat XR

theorem insertKerns_char (be : Backend XR) (c : CharD XR) :
    insertKerns be [.char c] = [.char c] ∨ ∃ k, insertKerns be [.char c] = [.char c, .kern k] := by
  simp only [insertKerns]
  split
  · exact .inr ⟨_, rfl⟩
  · exact .inl rfl

theorem hpack_char (be : Backend XR) (c : CharD XR) (ht d : ℚ) (hh : c.height = .fin ht) (hd : c.depth = .fin d) :
    (hpack LHead.zero (insertKerns be [.char c]) zero true).box.height = .fin (Max.max 0 ht) ∧
    (hpack LHead.zero (insertKerns be [.char c]) zero true).box.depth = .fin (Max.max 0 d) := by
  have e : ∀ (hd : LHead XR) x st sh, (finishGlue hd x st sh).box = hd.box := by
    intro hd x st sh; unfold finishGlue setGlue; split
    · rfl
    · split <;> dsimp only <;> split <;> rfl
  have key : ∀ l : List (TNode XR), l = [.char c] ∨ (∃ k, l = [.char c, .kern k]) →
      (hpack LHead.zero l zero true).box.height = .fin (Max.max 0 ht) ∧
      (hpack LHead.zero l zero true).box.depth = .fin (Max.max 0 d) := by
    rintro l (rfl | ⟨k, rfl⟩) <;> simp [hpack, e, hpackDims, Dims.zero, hh, hd, max_comm]
  exact key _ (insertKerns_char be c)

/-- What AutoHeightChar makes of a glyph with proportional metrics when it may choose the size. -/
theorem autoHeightChar_exact (be : Backend XR) (c : GoString) (name typ : GoString) (dpi : XR) (s i g h d : ℚ)
    (hp : Proportional be c name typ dpi i g) (hn : name ≠ []) (hs : s ≠ 0) (hg : g ≠ 0) :
    ∃ (hd : LHead XR) (ch : CharD XR) (cs : List (TNode XR)),
      autoHeightChar be c (.fin h) (.fin d) ⟨⟨name, typ, .fin s⟩, dpi⟩ (.fin 0) = .ok (.list .h hd cs) ∧
      cs = insertKerns be [.char ch] ∧
      ch.c = c ∧ ch.font = ⟨name, typ, .fin ((h + d) / g)⟩ ∧
      ch.height = .fin (i * ((h + d) / g)) ∧ ch.depth = .fin ((g - i) * ((h + d) / g)) ∧
      hd.shift = .fin (d - (g - i) * ((h + d) / g)) ∧
      hd.box.height = .fin (Max.max 0 (i * ((h + d) / g))) ∧ hd.box.depth = .fin (Max.max 0 ((g - i) * ((h + d) / g))) := by
  obtain ⟨k1, k0, k2, k3⟩ := hp s
  have hgs : g * s ≠ 0 := mul_ne_zero hg hs
  have e1 : (i * s - (i * s - g * s) : ℚ) = g * s := by ring
  have hsize : s * ((h + d) / (g * s)) = (h + d) / g := by field_simp
  obtain ⟨q1, -, q2, q3⟩ := hp ((h + d) / g)
  rw [autoHeightChar_eq k0]
  unfold autoHeightBody newChar
  simp only [k1, if_true, Res.ok_bind, rawChar, CharD.updateMetrics, k2, k3, hn, ne_eq, not_false_eq_true,
    zero_fin, fin_eq, decide_true, fin_add, fin_sub, fin_neg]
  have e2 : (i * s + -(i * s - g * s) : ℚ) = g * s := by ring
  simp only [e2, fin_div _ _ hgs]
  simp only [fin_mul, hsize, q1, if_true, Res.ok_bind, q2, q3, fin_sub, fin_neg]
  have e3 : ((g - i) * ((h + d) / g) : ℚ) = -(i * ((h + d) / g) - g * ((h + d) / g)) := by ring
  rw [e3]
  refine ⟨_, _, _, rfl, rfl, rfl, rfl, rfl, rfl, rfl, ?_⟩
  dsimp only
  rw [← zero_fin]
  exact hpack_char be _ _ _ rfl rfl

/-- **C56** With proportional metrics (and exact arithmetic), the glyph drawn by AutoHeightChar(c, h, d, state, 0)
reaches exactly `h` above and `d` below the baseline of the surrounding list, and is drawn in a font of the size
that makes it so tall. -/
theorem C56_glyph (be : Backend XR) (c : GoString) (name typ : GoString) (dpi : XR) (s i g h d : ℚ)
    (hp : Proportional be c name typ dpi i g) (hn : name ≠ []) (hs : s ≠ 0) (hg : g ≠ 0) :
    ∃ (hd : LHead XR) (ch : CharD XR) (cs : List (TNode XR)),
      autoHeightChar be c (.fin h) (.fin d) ⟨⟨name, typ, .fin s⟩, dpi⟩ (.fin 0) = .ok (.list .h hd cs) ∧
      .char ch ∈ cs ∧ ch.c = c ∧ ch.font = ⟨name, typ, .fin ((h + d) / g)⟩ ∧
      ch.height - hd.shift = .fin h ∧ ch.depth + hd.shift = .fin d := by
  obtain ⟨hd, ch, cs, h1, h2, h3, h4, h5, h6, h7, -⟩ := autoHeightChar_exact be c name typ dpi s i g h d hp hn hs hg
  refine ⟨hd, ch, cs, h1, ?_, h3, h4, ?_, ?_⟩
  · rw [h2]; rcases insertKerns_char be ch with e | ⟨k, e⟩ <;> rw [e] <;> simp
  · rw [h5, h7, fin_sub]; congr 1; field_simp; ring
  · rw [h6, h7, fin_add]; congr 1; ring

/-- **C56** If the glyph extends both above and below the baseline, and something is asked for, the box itself has
the extents asked for. -/
theorem C56_box (be : Backend XR) (c : GoString) (name typ : GoString) (dpi : XR) (s i g h d : ℚ)
    (hp : Proportional be c name typ dpi i g) (hn : name ≠ []) (hs : s ≠ 0) (hi : 0 ≤ i) (hgi : i ≤ g) (hg : 0 < g)
    (hd0 : 0 ≤ h + d) :
    ∃ (hd : LHead XR) (cs : List (TNode XR)),
      autoHeightChar be c (.fin h) (.fin d) ⟨⟨name, typ, .fin s⟩, dpi⟩ (.fin 0) = .ok (.list .h hd cs) ∧
      hd.box.height - hd.shift = .fin h ∧ hd.box.depth + hd.shift = .fin d := by
  obtain ⟨hd, ch, cs, h1, -, -, -, -, -, h7, h8, h9⟩ :=
    autoHeightChar_exact be c name typ dpi s i g h d hp hn hs hg.ne'
  have hf : 0 ≤ (h + d) / g := div_nonneg hd0 hg.le
  refine ⟨hd, cs, h1, ?_, ?_⟩
  · rw [h8, h7, fin_sub, max_eq_right (mul_nonneg hi hf)]; congr 1; field_simp; ring
  · rw [h9, h7, fin_add, max_eq_right (mul_nonneg (by linarith) hf)]; congr 1; ring

/-- **C56** A glyph wholly above the baseline (such as a quotation mark) is still drawn where asked, but the box is
then deeper than asked for. -/
theorem C56_raised (be : Backend XR) (c : GoString) (name typ : GoString) (dpi : XR) (s i g h d : ℚ)
    (hp : Proportional be c name typ dpi i g) (hn : name ≠ []) (hs : s ≠ 0) (hi : g < i) (hg : 0 < g) (hd0 : 0 < h + d) :
    ∃ (hd : LHead XR) (cs : List (TNode XR)) (q : ℚ),
      autoHeightChar be c (.fin h) (.fin d) ⟨⟨name, typ, .fin s⟩, dpi⟩ (.fin 0) = .ok (.list .h hd cs) ∧
      hd.box.height - hd.shift = .fin h ∧ hd.box.depth + hd.shift = .fin q ∧ d < q := by
  obtain ⟨hd, ch, cs, h1, -, -, -, -, -, h7, h8, h9⟩ :=
    autoHeightChar_exact be c name typ dpi s i g h d hp hn hs hg.ne'
  have hf : 0 < (h + d) / g := div_pos hd0 hg
  have hneg : (g - i) * ((h + d) / g) < 0 := mul_neg_of_neg_of_pos (by linarith) hf
  refine ⟨hd, cs, d - (g - i) * ((h + d) / g), h1, ?_, ?_, by linarith⟩
  · rw [h8, h7, fin_sub, max_eq_right (mul_nonneg (by linarith) hf.le)]; congr 1; field_simp; ring
  · rw [h9, h7, fin_add, max_eq_left hneg.le]; congr 1; ring

/-- **C56** A flat glyph makes the font size infinite. -/
theorem C56_flat (be : Backend XR) (c : GoString) (name typ : GoString) (dpi : XR) (s i h d : ℚ)
    (hp : Proportional be c name typ dpi i 0) (hn : name ≠ []) (hs : 0 < s) (hd : 0 < h + d) (n : TNode XR)
    (hr : autoHeightChar be c (.fin h) (.fin d) ⟨⟨name, typ, .fin s⟩, dpi⟩ (.fin 0) = .ok n) :
    ∃ (lh : LHead XR) (ch : CharD XR) (cs : List (TNode XR)), n = .list .h lh cs ∧ .char ch ∈ cs ∧ ch.font.size = .pinf := by
  obtain ⟨k1, k0, k2, k3⟩ := hp s
  replace hr := autoHeightChar_ok hr
  unfold autoHeightBody newChar at hr
  simp only [k1, if_true, Res.ok_bind, rawChar, CharD.updateMetrics, k2, k3, hn, ne_eq, not_false_eq_true,
    zero_fin, fin_eq, decide_true, fin_add, fin_sub, fin_neg] at hr
  have e2 : (i * s + -(i * s - 0 * s) : ℚ) = 0 := by ring
  have e4 : (fin (h + d) / fin 0 : XR) = .pinf := by
    rw [div_def]
    simp only [XR.div, if_true, signInf, hd.ne', if_false, not_lt.2 hd.le]
  have e5 : (fin s * .pinf : XR) = .pinf := by
    rw [mul_def]
    simp only [XR.mul, signInf, hs.ne', if_false, not_lt.2 hs.le]
  simp only [e2, e4, e5] at hr
  split at hr
  · simp only [Res.ok_bind, Res.ok.injEq] at hr
    have key : ∀ ch : CharD XR, .char ch ∈ insertKerns be [.char ch] := by
      intro ch
      rcases insertKerns_char be ch with e | ⟨k, e⟩ <;> rw [e] <;> exact List.mem_cons_self
    exact ⟨_, _, _, hr.symm, key _, rfl⟩
  · cases hr

/-- a backend with proportional metrics -/
def exLin : Backend XR where
  kern _ _ _ _ _ := .fin 0
  metrics _ f _ _ := ⟨f.size, f.size, f.size, .fin 0, f.size, .fin 0, f.size * .fin (3 / 4), f.size * .fin (3 / 4)⟩
  known _ _ _ _ := true
  xheight _ _ := some (.fin 1)
  underline _ _ := .fin 1
example : Proportional exLin bs!"(" bs!"default" bs!"rm" (.fin 72) (3 / 4) 1 := by
  intro s; refine ⟨rfl, ?_, ?_, ?_⟩ <;> simp [exLin, mul_comm]
example : (match autoHeightChar exLin bs!"(" (.fin 30) (.fin 10) ⟨⟨bs!"default", bs!"rm", .fin 12⟩, .fin 72⟩ (.fin 0) with
    | .ok (.list .h hd _) => some (hd.box.height, hd.box.depth, hd.shift)
    | _ => none) = some (.fin 30, .fin 10, .fin 0) := by decide +kernel

end Verif.Props
