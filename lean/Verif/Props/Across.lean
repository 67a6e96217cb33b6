import Verif.Lemmas.AcrossParse
import Verif.Props.Contain
/-! # C82: what is drawn stays between the left and the right of the box -/

namespace Verif.Props
open Verif Verif.Spec GoFloat XR

/-- For the modes `G`, of which text mode may be left out if the document has only formulas -/
theorem across {U : Nat → Bool} {be : Backend XR} {A : Advances} {G : Bool → Prop} {num : GoString → Option XR} {x : GoString} {size dpi ox : ℚ} {oy : XR}
    (hb : Numeric be) (hA : Advancing be A G size) (hs : 0 < size) (hd : 0 < dpi)
    (hG : G true) {root : Node} (hp : parseExpr U x = .ok root) (hf : Forward num root) (hm : G false ∨ OnlyMath root) {nd : LHead XR} {cs : List (TNode XR)}
    (h : mtexParse U be num x (.fin size) (.fin dpi) = .ok (nd, cs)) :
    ∃ w : ℚ, nd.box.width = .fin w ∧ 0 ≤ w ∧ ∃ st cs', shipCall (.fin ox) oy nd cs = .ok (st, cs') ∧ ∀ d ∈ st.ops, Across A G ox (ox + w) d := by
  have hps : IsPos (.fin size : XR) := ⟨size, hs, rfl⟩
  have hpd : IsPos (.fin dpi : XR) := ⟨dpi, hd, rfl⟩
  obtain ⟨st, e⟩ := C67_shippable U be num x _ _ nd cs h (.fin ox) oy
  obtain ⟨l, hl, el⟩ := (goes_closed hb hA hs hd hG).parse (fun q h => ⟨q, h, rfl⟩) ⟨rfl, rfl, rfl⟩ h hp hf hm
  have hg : Goes be A G (.fin dpi) size (.list .h nd cs) := by
    have := hlist_goes hb hA hpd.num hl
    rw [show nd = (hbody be l).1 from congrArg Prod.fst el, show cs = (hbody be l).2 from congrArg Prod.snd el]
    exact this
  have hc : cs = insertKerns be l := congrArg Prod.snd el
  have hd' : nd = hpack LHead.zero (insertKerns be l) zero true := congrArg Prod.fst el
  obtain ⟨w, w0, hw⟩ := hg.list_width
  refine ⟨w, hw, w0, st, _, e, ?_⟩
  rw [C70_paint (.fin ox) oy nd cs st _ e]
  obtain ⟨h1, h2, -⟩ := hg
  rw [NumT] at h1
  have hrow : Row A G w 0 cs := by
    have hnn : ∀ n ∈ insertKerns be l, NumNode n := fun n hn => (insertKerns_numT hb (fun n hn => (hl n hn).1) n hn).node
    have := hpack_wsum hnn LHead.zero
    rw [← hd', hw, XR.fin.injEq] at this
    rw [hc]
    exact kerns_row hb hA.forth hpd.num l 0 w (fun _ => hA.kern) hl le_rfl (by rw [zero_add]; exact this)
  rw [InvW] at h2
  exact across_hs cs nd ox 0 w _ [] h1.2 h2.2.2.2 hrow rfl (by simp [naturalWidth])

/-- **C82** In a document in which nothing goes back, what is drawn when its box is shipped lies between the left and
the right of the box: every line, and every glyph from its reference point to where it leaves the pen. -/
theorem C82_across (U : Nat → Bool) (be : Backend XR) (A : Advances) (num : GoString → Option XR) (x : GoString) (size dpi ox : ℚ) (oy : XR)
    (hb : Numeric be) (hA : Advancing be A (fun _ => True) size) (hs : 0 < size) (hd : 0 < dpi)
    (root : Node) (hp : parseExpr U x = .ok root) (hf : Forward num root) (nd : LHead XR) (cs : List (TNode XR))
    (h : mtexParse U be num x (.fin size) (.fin dpi) = .ok (nd, cs)) :
    ∃ w : ℚ, nd.box.width = .fin w ∧ 0 ≤ w ∧ ∃ st cs', shipCall (.fin ox) oy nd cs = .ok (st, cs') ∧
      ∀ d ∈ st.ops, Across A (fun _ => True) ox (ox + w) d :=
  across hb hA hs hd trivial hp hf (.inl trivial) h

/-- **C82** ... and if there are only formulas, every glyph with the advance it has in formulas. -/
theorem C82_formula (U : Nat → Bool) (be : Backend XR) (A : Advances) (num : GoString → Option XR) (x : GoString) (size dpi ox : ℚ) (oy : XR)
    (hb : Numeric be) (hA : Advancing be A (· = true) size) (hs : 0 < size) (hd : 0 < dpi)
    (root : Node) (hp : parseExpr U x = .ok root) (hf : Forward num root) (hm : OnlyMath root) (nd : LHead XR) (cs : List (TNode XR))
    (h : mtexParse U be num x (.fin size) (.fin dpi) = .ok (nd, cs)) :
    ∃ w : ℚ, nd.box.width = .fin w ∧ 0 ≤ w ∧ ∃ st cs', shipCall (.fin ox) oy nd cs = .ok (st, cs') ∧
      ∀ d ∈ st.ops, Across A (· = true) ox (ox + w) d :=
  across (G := (· = true)) hb hA hs hd rfl hp hf (.inr hm) h

/-! ## Concrete cases -/

/-- A backend whose glyphs advance by half the font size, less than they are wide; two of them are brought together by
a tenth of the size. -/
def exHalf : Backend XR where
  kern f _ _ _ _ := f.size * .fin (-1 / 10)
  metrics _ f _ _ := ⟨f.size * .fin (1 / 2), f.size, f.size, .fin 0, f.size, .fin 0, f.size * .fin (3 / 4), f.size * .fin (3 / 4)⟩
  known _ _ _ _ := true
  xheight _ _ := some (.fin 1)
  underline _ _ := .fin (1 / 4)
def exAdvances : Advances := fun _ _ _ _ _ => 1 / 2

example : Numeric exHalf where
  advance _ _ _ _ h _ _ := h.mul ⟨_, rfl⟩
  width _ _ _ _ h _ _ := h
  height _ _ _ _ h _ _ := h
  iceberg _ _ _ _ h _ _ := h.mul ⟨_, rfl⟩
  ymax _ _ _ _ h _ _ := h.mul ⟨_, rfl⟩
  ymin _ _ _ _ _ _ _ := ⟨0, rfl⟩
  kern _ _ _ _ _ h _ _ := h.mul ⟨_, rfl⟩
  underline _ _ _ _ := ⟨_, rfl⟩
  tall c f d _ hp _ _ := by
    obtain ⟨q, hq, e⟩ := hp
    show f.size ≠ _
    rw [e]
    intro h
    cases h
    exact lt_irrefl _ hq

example : Advancing exHalf exAdvances (fun _ => True) 10 where
  advance c n t s d m _ _ _ := by
    show XR.fin s * .fin (1 / 2) = .fin (1 / 2 * s)
    rw [fin_mul, mul_comm]
  forth _ _ _ _ _ := by norm_num [exAdvances]
  kern c n t m c' n' t' m' d _ _ _ _ _ := ⟨-1, by show XR.fin 10 * .fin (-1 / 10) = .fin (-1); rw [fin_mul]; norm_num, by norm_num [exAdvances], by norm_num [exAdvances]⟩
  upright c n t d _ _ _ := ⟨10, rfl, by norm_num⟩
  line n t d _ := ⟨1 / 4, rfl, by norm_num⟩

/-- The width of the box and the drawing calls, shipped at the origin -/
def exRow (x : GoString) : Option (XR × List (Draw XR)) :=
  match mtexParse exU exHalf exNum x (.fin 10) (.fin 120) with
  | .ok (hd, cs) =>
    match shipCall (.fin 0) (.fin 0) hd cs with
    | .ok (st, _) => some (hd.box.width, st.ops)
    | _ => none
  | _ => none

/-- Where the drawing calls of the document begin -/
def exLefts (x : GoString) : Option (List XR) := (exRow x).map fun q => q.2.map fun | .rect a _ _ _ => a | .glyph a _ _ _ _ => a

/-- a fraction 34/5 wide, whose numerator, 7/2 wide, is centred over a denominator 63/10 wide up to a point -/
example : exRow bs!"$\\frac{x}{ab}$" = some (.fin (34 / 5), [.glyph (.fin 1) (.fin (21 / 4)) ⟨bs!"default", bs!"it", .fin 7⟩ bs!"x" (.fin 120),
    .rect (.fin 0) (.fin (31 / 4)) (.fin (63 / 10)) (.fin 8), .glyph (.fin 0) (.fin (27 / 2)) ⟨bs!"default", bs!"it", .fin 7⟩ bs!"a" (.fin 120),
    .glyph (.fin (14 / 5)) (.fin (27 / 2)) ⟨bs!"default", bs!"it", .fin 7⟩ bs!"b" (.fin 120)]) := by decide +kernel
/-- a document in which nothing goes back -/
example : ∃ root, parseExpr exU bs!"$\\sqrt{ab}$" = .ok root ∧ OnlyMath root ∧ Forward exNum root := by
  refine ⟨.list [.math [36] 0 [.macro (some (1, bs!"\\sqrt")) [.arg 6 [.word 7 bs!"ab"] 9]] 10], by krfl, ?_, ?_⟩
  · intro n hn
    rw [List.mem_singleton] at hn
    exact ⟨_, _, _, _, hn⟩
  · simp [Forward, Forwards]
example : exLefts bs!"$\\sqrt{ab}$" = some [.fin 0, .fin (45 / 8), .fin (49 / 8), .fin (81 / 8)] := by decide +kernel

/-- **C82** The index of a radical may push its sign out of the box: with a narrow index it begins to the left of it. -/
theorem C82_index : exLefts bs!"$\\sqrt[i]{x}$" = some [.fin 0, .fin (-29 / 80), .fin (421 / 80), .fin (461 / 80)] := by decide +kernel

/-- **C82** And so does what comes after a negative blank. -/
theorem C82_negative : exLefts bs!"$\\!x$" = some [.fin (-16667 / 20000)] := by decide +kernel

end Verif.Props
