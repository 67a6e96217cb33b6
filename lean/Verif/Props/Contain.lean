import Verif.Lemmas.ContainBuilt
import Verif.Props.Finite
/-! # C76: what is drawn stays in the box -/

namespace Verif.Props
open Verif Verif.Spec GoFloat XR

theorem good_closed {be : Backend XR} {M : Extents} {G : Bool → Prop} {size dpi : ℚ} (hb : Numeric be) (hM : Metered be M G) (hL : Modest be M size dpi)
    (hs : 0 < size) (hd : 0 < dpi) (hG : G true) :
    ClosedIx be (fun st => st.font.name = bs!"default" ∧ st.font.size = .fin size ∧ st.dpi = .fin dpi) G IsNum (Fits M G) := by
  have pos : ∀ st : TState XR, st.font.name = bs!"default" ∧ st.font.size = .fin size ∧ st.dpi = .fin dpi → PosState st :=
    fun st h => ⟨⟨size, hs, h.2.1⟩, ⟨dpi, hd, h.2.2⟩⟩
  have name : ∀ st : TState XR, st.font.name = bs!"default" ∧ st.font.size = .fin size ∧ st.dpi = .fin dpi → st.font.name ≠ [] := by
    intro st h; rw [h.1]; decide
  have line : ∀ st : TState XR, st.font.name = bs!"default" ∧ st.font.size = .fin size ∧ st.dpi = .fin dpi →
      ∃ t : ℚ, be.underline st.font st.dpi = .fin t ∧ 0 < t ∧ 4 * t + size * dpi / 1200 ≤ 1000000000 := by
    rintro ⟨⟨n, t, z⟩, d⟩ ⟨h1, h2, h3⟩
    dsimp only at h1 h2 h3
    subst h1 h2 h3
    exact hL.line t
  have thin : ∀ st : TState XR, st.font.name = bs!"default" ∧ st.font.size = .fin size ∧ st.dpi = .fin dpi →
      st.font.size * st.dpi / ofInt 1200 = .fin (size * dpi / 1200) := by
    intro st h
    rw [h.2.1, h.2.2, fin_mul, ofInt_fin, fin_div _ _ (by norm_num)]; norm_num
  have e0 : 0 ≤ size * dpi / 1200 := by positivity
  constructor
  · exact fun k n h => ⟨h.1, h.2.up _ _⟩
  · exact hG
  · exact fun st t h => h
  · exact fun a b => IsNum.rat a b
  · intro k c st m ch h hm hc
    exact newChar_fits hb hM hm (pos st h).1.num (pos st h).2.num hc
  · intro k st w n h hw e
    unfold makeSpace at e
    dsimp only at e
    split at e
    · rename_i hk
      simp only [Res.ok.injEq] at e
      subst e
      exact kern_good ((hb.advance _ { st.font with name := bs!"it", typ := mathDefault } _ _ (pos st h).1.num (pos st h).2.num hk).mul hw)
    · cases e
  · exact fun k l h => hlist_good hb h
  · intro k dl rule ds a b st n h hr ha hbn e
    obtain ⟨t, t1, t2, -⟩ := line st h
    exact genfrac_fits hb hM hG (pos st h) (name st h) t1 t2 hr (hlist_good hb ha) (hlist_good hb hbn) e
  · intro k root b st n h hr hbn e
    obtain ⟨t, t1, t2, t3⟩ := line st h
    obtain ⟨r1, r2⟩ := hL.radical st.font.typ
    refine sqrt_good hb hM hG (pos st h) (name st h) ?_ ?_ t1 t2 (thin st h) e0 (by linarith) hr hbn e
    · rw [h.1, h.2.2]; exact r1
    · rw [h.1, h.2.2]; exact r2
  · intro k b st n h hbn e
    obtain ⟨t, t1, t2, t3⟩ := line st h
    exact over_good hb (pos st h) t1 t2 (thin st h) e0 (by linarith) hbn e

/-- For the modes `G`, of which text mode may be left out if the document has only formulas -/
theorem contained {U : Nat → Bool} {be : Backend XR} {M : Extents} {G : Bool → Prop} {num : GoString → Option XR} {x : GoString} {size dpi oy : ℚ} {ox : XR}
    (hb : Numeric be) (hM : Metered be M G) (hL : Modest be M size dpi) (hn : ∀ t v, num t = some v → IsNum v) (hs : 0 < size) (hd : 0 < dpi)
    (hG : G true) {root : Node} (hp : parseExpr U x = .ok root) (hm : G false ∨ OnlyMath root) {nd : LHead XR} {cs : List (TNode XR)}
    (h : mtexParse U be num x (.fin size) (.fin dpi) = .ok (nd, cs)) :
    ∃ w ht dp : ℚ, Measured nd w ht dp ∧ ∃ st cs', shipCall ox (.fin oy) nd cs = .ok (st, cs') ∧
      ∀ d ∈ st.ops, Inside M G (oy - barNesting root / 2) (oy + (ht + dp) + barNesting root / 2) d := by
  have hps : IsPos (.fin size : XR) := ⟨size, hs, rfl⟩
  have hpd : IsPos (.fin dpi : XR) := ⟨dpi, hd, rfl⟩
  obtain ⟨w, ht, dp, hme⟩ := C71_dimensions U be num x _ _ hb hn hps hpd nd cs h
  obtain ⟨st, e⟩ := C67_shippable U be num x _ _ nd cs h ox (.fin oy)
  refine ⟨w, ht, dp, hme, st, _, e, ?_⟩
  rw [C70_paint ox (.fin oy) nd cs st _ e]
  obtain ⟨l, hl, el⟩ := (good_closed hb hM hL hs hd hG).parse hn ⟨rfl, rfl, rfl⟩ h hp hm
  have hc : cs = insertKerns be l := congrArg Prod.snd el
  have hd' : nd = hpack LHead.zero (insertKerns be l) zero true := congrArg Prod.fst el
  have hk := kerns_good hb hl
  rw [← hc] at hk hd'
  have hu := hpack_under (fun n hn => (hk n hn).1.node) LHead.zero zero true
  rw [← hd', hme.height, hme.depth] at hu
  intro d hdr
  rw [hme.height, fin_add] at hdr
  refine (inside_hs cs (barNesting root) nd ox (oy + ht) ht dp [] (numTs_iff.2 fun n hn => (hk n hn).1) (invs_iff.2 fun n hn => (hk n hn).2) hu d hdr).wider ?_ ?_
  · linarith
  · linarith

/-- **C76** Whatever the document, what is drawn when the box made of it is shipped lies, up to half a point for
every radical or overline around it, between the top and the bottom of the box: every line, and every glyph with the
extents its font gives it in text or in formulas. -/
theorem C76_inside (U : Nat → Bool) (be : Backend XR) (M : Extents) (num : GoString → Option XR) (x : GoString) (size dpi oy : ℚ) (ox : XR)
    (hb : Numeric be) (hM : Metered be M fun _ => True) (hL : Modest be M size dpi) (hn : ∀ t v, num t = some v → IsNum v) (hs : 0 < size) (hd : 0 < dpi)
    (root : Node) (hp : parseExpr U x = .ok root) (nd : LHead XR) (cs : List (TNode XR))
    (h : mtexParse U be num x (.fin size) (.fin dpi) = .ok (nd, cs)) :
    ∃ w ht dp : ℚ, Measured nd w ht dp ∧ ∃ st cs', shipCall ox (.fin oy) nd cs = .ok (st, cs') ∧
      ∀ d ∈ st.ops, Inside M (fun _ => True) (oy - barNesting root / 2) (oy + (ht + dp) + barNesting root / 2) d :=
  contained hb hM hL hn hs hd trivial hp (.inl trivial) h

/-- **C76** ... and if there are only formulas, every glyph with the extents it has in formulas. -/
theorem C76_formula (U : Nat → Bool) (be : Backend XR) (M : Extents) (num : GoString → Option XR) (x : GoString) (size dpi oy : ℚ) (ox : XR)
    (hb : Numeric be) (hM : Metered be M (· = true)) (hL : Modest be M size dpi) (hn : ∀ t v, num t = some v → IsNum v) (hs : 0 < size) (hd : 0 < dpi)
    (root : Node) (hp : parseExpr U x = .ok root) (hm : OnlyMath root) (nd : LHead XR) (cs : List (TNode XR))
    (h : mtexParse U be num x (.fin size) (.fin dpi) = .ok (nd, cs)) :
    ∃ w ht dp : ℚ, Measured nd w ht dp ∧ ∃ st cs', shipCall ox (.fin oy) nd cs = .ok (st, cs') ∧
      ∀ d ∈ st.ops, Inside M (· = true) (oy - barNesting root / 2) (oy + (ht + dp) + barNesting root / 2) d :=
  contained (G := (· = true)) hb hM hL hn hs hd rfl hp (.inr hm) h

/-- **C76** Without radicals and overlines, what is drawn lies exactly between the top and the bottom of the box. -/
theorem C76_exact (U : Nat → Bool) (be : Backend XR) (M : Extents) (num : GoString → Option XR) (x : GoString) (size dpi oy : ℚ) (ox : XR)
    (hb : Numeric be) (hM : Metered be M (· = true)) (hL : Modest be M size dpi) (hn : ∀ t v, num t = some v → IsNum v) (hs : 0 < size) (hd : 0 < dpi)
    (root : Node) (hp : parseExpr U x = .ok root) (hm : OnlyMath root) (h0 : barNesting root = 0) (nd : LHead XR) (cs : List (TNode XR))
    (h : mtexParse U be num x (.fin size) (.fin dpi) = .ok (nd, cs)) :
    ∃ w ht dp : ℚ, Measured nd w ht dp ∧ ∃ st cs', shipCall ox (.fin oy) nd cs = .ok (st, cs') ∧
      ∀ d ∈ st.ops, Inside M (· = true) oy (oy + (ht + dp)) d := by
  have := C76_formula U be M num x size dpi oy ox hb hM hL hn hs hd root hp hm nd cs h
  rw [h0] at this
  simpa using this

/-! ## Concrete cases -/

/-- A backend whose glyphs reach three quarters of the font size above the baseline and a quarter below it, with
lines a quarter of a point thick. -/
def exQuarter : Backend XR where
  kern _ _ _ _ _ := .fin 0
  metrics _ f _ _ := ⟨f.size, f.size, f.size, .fin 0, f.size, .fin 0, f.size * .fin (3 / 4), f.size * .fin (3 / 4)⟩
  known _ _ _ _ := true
  xheight _ _ := some (.fin 1)
  underline _ _ := .fin (1 / 4)
def exExtents : Extents := fun _ _ _ _ _ => (3 / 4, 1 / 4)

theorem exQuarter_numeric : Numeric exQuarter where
  advance _ _ _ _ h _ _ := h
  width _ _ _ _ h _ _ := h
  height _ _ _ _ h _ _ := h
  iceberg _ _ _ _ h _ _ := h.mul ⟨_, rfl⟩
  ymax _ _ _ _ h _ _ := h.mul ⟨_, rfl⟩
  ymin _ _ _ _ _ _ _ := ⟨0, rfl⟩
  kern _ _ _ _ _ _ _ _ := ⟨0, rfl⟩
  underline _ _ _ _ := ⟨_, rfl⟩
  tall c f d _ hp _ _ := by
    obtain ⟨q, hq, e⟩ := hp
    show f.size ≠ _
    rw [e]
    intro h
    cases h
    exact lt_irrefl _ hq

theorem exQuarter_metered (G : Bool → Prop) : Metered exQuarter exExtents G := by
  constructor <;> intro c n t s d m _ _ _
  · show XR.fin s * .fin (3 / 4) = .fin (3 / 4 * s)
    rw [fin_mul, mul_comm]
  · show XR.fin s = .fin ((3 / 4 + 1 / 4) * s)
    congr 1; ring

theorem exQuarter_modest : Modest exQuarter exExtents 10 120 :=
  ⟨fun _ => ⟨1 / 4, rfl, by norm_num, by norm_num⟩, fun _ => ⟨by norm_num [exExtents], by norm_num [exExtents]⟩⟩

/-- The dimensions of the box, the drawing calls and the bars one inside another -/
def exShow (x : GoString) : Option (XR × XR × List (Draw XR) × Nat) :=
  match mtexParse exU exQuarter exNum x (.fin 10) (.fin 120), parseExpr exU x with
  | .ok (hd, cs), .ok root =>
    match shipCall (.fin 0) (.fin 0) hd cs with
    | .ok (st, _) => some (hd.box.height, hd.box.depth, st.ops, barNesting root)
    | _ => none
  | _, _ => none

/-- **C76** The half points are needed: in `$\overline{\overline{x}}$` the glyph, which reaches a quarter of its
size 10 below its baseline at 12, ends one point below the box, which is 11 + 5/2 high. -/
theorem C76_sharp : exShow bs!"$\\overline{\\overline{x}}$" = some (.fin 11, .fin (5 / 2),
    [.rect (.fin 0) (.fin (1 / 4)) (.fin 10) (.fin (1 / 2)), .rect (.fin 0) (.fin (5 / 2)) (.fin 10) (.fin (11 / 4)),
      .glyph (.fin 0) (.fin 12) ⟨bs!"default", bs!"it", .fin 10⟩ bs!"x" (.fin 120)], 2) := by decide +kernel

example : ∃ nd cs, mtexParse exU exQuarter exNum bs!"$\\dfrac{a}{x}$" (.fin 10) (.fin 120) = .ok (nd, cs) ∧ nd.box.height = .fin (57 / 4) ∧ nd.box.depth = .fin 7 := by
  have h : (exShow bs!"$\\dfrac{a}{x}$").map (fun q => (q.1, q.2.1)) = some (.fin (57 / 4), .fin 7) := by decide +kernel
  unfold exShow at h
  split at h
  · rename_i hd cs root h1 h2
    split at h
    · simp only [Option.map_some, Option.some.injEq, Prod.mk.injEq] at h
      exact ⟨hd, cs, h1, h.1, h.2⟩
    · cases h
  · cases h
/-- what is drawn then: nothing above 0 and nothing below 57/4 + 7 = 85/4 -/
example : (exShow bs!"$\\dfrac{a}{x}$").map (fun q => (q.2.2.1, q.2.2.2)) = some ([.glyph (.fin 0) (.fin (15 / 2)) ⟨bs!"default", bs!"it", .fin 10⟩ bs!"a" (.fin 120),
    .rect (.fin 0) (.fin (43 / 4)) (.fin 10) (.fin 11), .glyph (.fin 0) (.fin (75 / 4)) ⟨bs!"default", bs!"it", .fin 10⟩ bs!"x" (.fin 120)], 0) := by decide +kernel
example : ∃ root, parseExpr exU bs!"$\\dfrac{a}{x}$" = .ok root ∧ OnlyMath root := by
  have h : (match parseExpr exU bs!"$\\dfrac{a}{x}$" with | .ok (.list [.math _ _ _ _]) => true | _ => false) = true := by decide +kernel
  split at h
  · rename_i e
    refine ⟨_, e, ?_⟩
    intro n hn
    rw [List.mem_singleton] at hn
    subst hn
    exact ⟨_, _, _, _, rfl⟩
  · cases h

end Verif.Props
