import Verif.Props.Ship
/-! # C86: `VListOf` and `VCentered` -/

namespace Verif.Props
open Verif Verif.Spec GoFloat XR

/-- The result for solid nodes of a vertical list does not depend on the glue variables. -/
theorem vNode_solid {F : Type} [GoFloat F] {o : Off F} {hd : LHead F} {left : F} {n : TNode F} (hs : isSolid n = true) {q st st1 n' q1}
    (h : vNode o hd left n q st = .ok (st1, n', q1)) (q2 : GlueSt F) : vNode o hd left n q2 st = .ok (st1, n', q2) := by
  cases n with
  | glue g => cases hs
  | char g => rw [vNode] at h; cases h
  | accent g => rw [vNode] at h; cases h
  | kern g => rw [vNode] at h ⊢; cases h; rfl
  | box b =>
    rw [vNode] at h ⊢
    by_cases hc : (pos (b.height + b.depth) && pos b.depth) = true
    · rw [if_pos hc] at h ⊢; cases h; rfl
    · rw [if_neg hc] at h ⊢; cases h; rfl
  | rule b =>
    rw [vNode] at h ⊢
    by_cases hc : (pos (b.height + b.depth) && pos b.depth) = true
    · rw [if_pos hc] at h ⊢; cases h; rfl
    · rw [if_neg hc] at h ⊢; cases h; rfl
  | list k nd cs =>
    cases k with
    | plain =>
      rw [vNode] at h ⊢
      by_cases hc : (pos (nd.box.height + nd.box.depth) && pos nd.box.depth) = true
      · rw [if_pos hc] at h ⊢; cases h; rfl
      · rw [if_neg hc] at h ⊢; cases h; rfl
    | h =>
      rw [vNode] at h ⊢
      by_cases hc : cs.isEmpty = true
      · rw [if_pos hc] at h ⊢; cases h; rfl
      · rw [if_neg hc] at h ⊢
        obtain ⟨⟨s1, cs1⟩, e1, h⟩ := res_bind_ok h
        simp only [e1]; cases h; rfl
    | v =>
      rw [vNode] at h ⊢
      by_cases hc : cs.isEmpty = true
      · rw [if_pos hc] at h ⊢; cases h; rfl
      · rw [if_neg hc] at h ⊢
        obtain ⟨⟨s1, cs1⟩, e1, h⟩ := res_bind_ok h
        simp only [e1]; cases h; rfl

theorem VRun.solid {F : Type} [GoFloat F] {o : Off F} {hd : LHead F} {base : F} {q st a q1 st1 a'} (h : VRun o hd base q st a q1 st1 a')
    (hs : ∀ e ∈ a, isSolid e = true) (q2 : GlueSt F) : VRun o hd base q2 st a q2 st1 a' := by
  induction h with
  | nil => exact .nil
  | cons h _ ih =>
    exact .cons (vNode_solid (hs _ List.mem_cons_self) h q2) (ih fun e he => hs e (List.mem_cons_of_mem _ he))

theorem not_pinf_lt (x : XR) : GoFloat.lt (inf : XR) x = false := by cases x <;> rfl

/-- **C86** `VListOf` panics exactly if one of the elements is a character or an accent. -/
theorem C86_panics {F : Type} [GoFloat F] (els : List (TNode F)) :
    (∃ e, vlistOf els = .panic e) ↔ ∃ n ∈ els, isGlyph n = true := by
  rw [← C43_panics LHead.zero els zero true inf, vlistOf]
  constructor
  · rintro ⟨e, h⟩
    cases hv : vpack (F := F) LHead.zero els zero true inf with
    | ok a => rw [hv] at h; cases h
    | fuel => rw [hv] at h; cases h
    | panic a => exact ⟨a, rfl⟩
  · rintro ⟨e, h⟩
    exact ⟨e, by rw [h]; rfl⟩

/-- **C86** `VListOf(els)` holds `els`, unchanged and in order, in a box that is not shifted, with the
width of the widest element (0 at least), the depth of the last element, however deep, and the height
of the stack above it. -/
theorem C86_vlistOf (els : List (TNode XR)) (hg : ∀ n ∈ els, isGlyph n = false) :
    ∃ hd, vlistOf els = .ok (.list .v hd els) ∧ hd.shift = .fin 0 ∧ hd.box.depth = lastDepth els ∧
      hd.box.height = naturalHeight els ∧ hd.box.width = (vwidths els).foldl GoFloat.max (.fin 0) ∧
      hd.box.height + hd.box.depth = (els.map vsize).foldl (· + ·) (.fin 0) := by
  obtain ⟨r, e, h1, _, h3, h4⟩ := C43_dims (F := XR) LHead.zero els zero true inf hg
  have h1 := h1 (not_pinf_lt _)
  have hc := C43_conserved _ _ _ _ (by simp [GoFloat.inf]) _ e
  rw [zero_fin, zero_add'] at hc
  refine ⟨r, by rw [vlistOf, e]; rfl, by rw [h4]; exact zero_fin, h1.1, ?_, by rw [h3, zero_fin], hc⟩
  rw [h1.2, if_pos rfl, zero_fin, zero_add']

/-- **C86** The glue of `VListOf(els)` has its natural size. -/
theorem C86_natural (els : List (TNode XR)) (hg : ∀ n ∈ els, isGlyph n = false) (q : ℚ) (hq : naturalHeight els = .fin q) :
    ∃ hd, vlistOf els = .ok (.list .v hd els) ∧ ∀ gs, glueOffset hd gs = 0 := by
  obtain ⟨r, e, h1, _⟩ := C43_dims (F := XR) LHead.zero els zero true inf hg
  have h1 := h1 (not_pinf_lt _)
  have hr := C44_vpack _ _ _ _ _ _ e
  rw [not_pinf_lt, h1.2, if_pos rfl, hq, zero_fin, zero_add'] at hr
  simp only [Bool.false_eq_true, if_false, fin_sub, sub_self] at hr
  refine ⟨r, by rw [vlistOf, e]; rfl, fun gs => ?_⟩
  rw [GlueRule, if_pos (by simp [zero_fin])] at hr
  rw [glueOffset, if_pos hr.1]

theorem centred_glyph {els : List (TNode XR)} (hg : ∀ n ∈ els, isGlyph n = false) :
    ∀ n ∈ (.glue ssGlue :: els ++ [.glue ssGlue] : List (TNode XR)), isGlyph n = false := by
  intro n hn
  simp only [List.cons_append, List.mem_cons, List.mem_append, List.not_mem_nil, or_false] at hn
  rcases hn with rfl | hn | rfl
  · rfl
  · exact hg n hn
  · rfl

theorem centred_stack {els : List (TNode XR)} (hg : ∀ n ∈ els, isGlyph n = false) :
    lastDepth (.glue ssGlue :: els ++ [.glue ssGlue]) = .fin 0 ∧
    naturalHeight (.glue ssGlue :: els ++ [.glue ssGlue]) = (els.map vsize).foldl (· + ·) (.fin 0) := by
  have hl : lastDepth (.glue ssGlue :: els ++ [.glue ssGlue] : List (TNode XR)) = .fin 0 := by
    rw [lastDepth, List.getLast?_append]; exact zero_fin
  refine ⟨hl, ?_⟩
  have hs := stack_sum _ (zero, zero) (centred_glyph hg)
  rw [foldl_stack_zero] at hs
  change naturalHeight _ + lastDepth _ = _ at hs
  rw [hl, zero_fin, zero_add', zero_add', add_zero'] at hs
  rw [hs]
  simp only [List.cons_append, List.map_cons, List.map_append, List.map_nil, List.foldl_cons, List.foldl_append, List.foldl_nil,
    vsize, ssGlue, zero_fin, add_zero']

/-- **C86** `VCentered(els)` packed to height `h` (`VPack(h, false, +Inf)`) stands wholly above its
baseline, and draws `els` as if they were alone in it, lower by a whole number of points within half a
point of half the space they leave: `(h - the sum of their heights and depths)/2`. -/
theorem C86_centred (els : List (TNode XR)) (hg : ∀ n ∈ els, isGlyph n = false) (hs : ∀ e ∈ els, isSolid e = true) (h n : ℚ)
    (hn : (els.map vsize).foldl (· + ·) (.fin 0) = .fin n) (hx : |(h - n) / 2| ≤ 1000000000) :
    ∃ hd0 kids hd, vcentered els = .ok (.list .v hd0 kids) ∧ vpack hd0 kids (.fin h) false inf = .ok hd ∧
      hd.box.height = .fin h ∧ hd.box.depth = .fin 0 ∧
      ∃ r : Int, |(r : ℚ) - (h - n) / 2| ≤ 1 / 2 ∧
      ∀ ox oy root st cs', shipCall ox oy root [.list .v hd kids] = .ok (st, cs') →
        ∃ st' cs'', shipCall ox (oy + .fin r) root [.list .v hd els] = .ok (st', cs'') ∧ st.ops = st'.ops := by
  obtain ⟨hl, hnk⟩ := centred_stack hg
  obtain ⟨hd0, e0, _⟩ := C86_vlistOf _ (centred_glyph hg)
  obtain ⟨hd, e1, h1, _⟩ := C43_dims (F := XR) hd0 _ (.fin h) false inf (centred_glyph hg)
  obtain ⟨h1, h2⟩ := h1 (not_pinf_lt _)
  have hr := C44_vpack _ _ _ _ _ _ e1
  rw [not_pinf_lt, h2, hnk, hn] at hr
  simp only [Bool.false_eq_true, if_false, fin_sub] at hr
  refine ⟨hd0, _, hd, e0, e1, h2, by rw [h1, hl], glueOffset hd [.glue ssGlue], centred_offset hs hr hx, ?_⟩
  clear e0 e1 h1 h2 hr hl hnk
  intro ox oy root st cs' hship
  by_cases hem : els = []
  · subst hem
    obtain ⟨st0, e, rfl⟩ := ship_loop hship
    obtain ⟨s1, n1, q1, l1, en, el, rfl⟩ := hLoop_cons e
    rw [hLoop] at el; cases el
    rw [hNode, if_neg (by simp)] at en
    obtain ⟨⟨s2, cs2⟩, e2, en⟩ := res_bind_ok en
    cases en
    obtain ⟨s3, n3, q3, l3, e3, e4, rfl⟩ := vLoop_cons e2
    obtain ⟨s5, n5, q5, l5, e5, e6, rfl⟩ := vLoop_cons e4
    rw [vNode] at e3 e5; cases e3; cases e5
    rw [vLoop] at e6; cases e6
    have hem : hNode ⟨ox, oy + fin (glueOffset hd [.glue ssGlue]) + root.box.height⟩ root zero (.list .v hd []) .zero
        (ShipSt.push ⟨0, 0, zero, zero, []⟩) =
          .ok ({ (ShipSt.push ⟨0, 0, zero, zero, []⟩ : ShipSt XR) with h := (ShipSt.push ⟨0, 0, zero, zero, []⟩ : ShipSt XR).h + hd.box.width },
            .list .v hd [], .zero) := by rw [hNode, if_pos (by rfl)]
    exact ⟨_, _, node_ship hem, rfl⟩
  · obtain ⟨st0, e, rfl⟩ := ship_loop hship
    obtain ⟨s1, n1, q1, l1, en, el, rfl⟩ := hLoop_cons e
    rw [hLoop] at el; cases el
    rw [hNode, if_neg (by simp)] at en
    obtain ⟨⟨sv, cs2⟩, e2, en⟩ := res_bind_ok en
    cases en
    obtain ⟨q1, s1, a', b', ra, eb, rfl⟩ := vLoop_append [.glue ssGlue] (els ++ [.glue ssGlue]) e2
    obtain ⟨q2, s2, a2, b2, rb, ec, rfl⟩ := vLoop_append els _ eb
    have had : s1.v = zero + hd.shift - hd.box.height + fin (glueOffset hd [.glue ssGlue]) := by
      rw [ra.advance, vadvance]
      simp [ShipSt.push, zero_add', vspace, ssGlue]
    have hv1 : s1.h = zero := (ra.glue).2 rfl
    have ho1 : s1.ops = [] := by
      cases ra with
      | cons hg r => cases r; rw [vNode] at hg; cases hg; rfl
    obtain ⟨_, B, hB, _⟩ := runVs (fun c _ => (run_all _ c).2) _ _ _ _ _ _ ec
    have hB0 : B = [] := by
      obtain ⟨s3, n3, q3, l3, eg, el, rfl⟩ := vLoop_cons ec
      rw [vLoop] at el; cases el
      rw [vNode] at eg; cases eg
      simpa using hB.ops
    have rb := (VRun.solid rb hs .zero).loop
    obtain ⟨s3, l, r, o1, o2, _, _⟩ := moveVs (fun c _ => (move_all c).2) (.fin 0) (.fin 0) _
      ⟨ox, oy + fin (glueOffset hd [.glue ssGlue]) + root.box.height⟩ hd zero zero .zero s1
      ({ (ShipSt.push ⟨0, 0, zero, zero, []⟩ : ShipSt XR) with v := zero + hd.shift - hd.box.height }).push s2 a2
      (by rw [hv1, add_zero']; rfl)
      (by rw [had, add_zero']; simp only [ShipSt.push]; ac_rfl) (by rw [add_zero']) rb
    refine ⟨_, _, loop_ship (hLoop_cons_eq (by rw [hNode, if_neg (by simpa using hem), show vLoop _ _ (ShipSt.push ⟨0, 0, zero, zero, []⟩ : ShipSt XR).h _ _ (ShipSt.push _) = _ from r]; rfl) (by rw [hLoop])), ?_⟩
    show sv.ops = s3.ops
    rw [hB.ops, hB0, o1, o2, ho1, map_moveOp_zero]
    simp [ShipSt.push]

/-! ## Concrete cases -/

/-- a rule of height 1 and depth 1 between two lists -/
def stackEx : List (TNode XR) :=
  [.list .h (exHead 5 0) [exChar bs!"B"], .rule ⟨0, .pinf, .fin 1, .fin 1⟩, .list .h (exHead 5 3) [exChar bs!"C"]]

example : stackEx.map isGlyph = [false, false, false] ∧ stackEx.map isSolid = [true, true, true] := by decide +kernel
example : (stackEx.map vsize).foldl (· + ·) (.fin 0) = (.fin 16 : XR) := by decide +kernel
example : naturalHeight stackEx = .fin 14 ∧ lastDepth stackEx = .fin 2 ∧ vwidths stackEx = [.fin 20, .fin 20] := by decide +kernel

/-- what `VCentered(stackEx)`, packed to height `h`, draws on the baseline 0 -/
def stackPlaces (h : ℚ) : List (GoString × XR × XR) :=
  match vcentered stackEx with
  | .ok (.list _ hd cs) => (match vpack hd cs (.fin h) false inf with
    | .ok hd => exPlaces (shipCall (.fin 0) (.fin 0) (exHead 0 0) [.list .v hd cs])
    | _ => [])
  | _ => []

example : stackPlaces 16 = [(bs!"B", .fin 0, .fin (-11)), ([], .fin 0, .fin (-7)), (bs!"C", .fin 3, .fin (-2))] := by decide +kernel
/-- 14 points more: 7 of them above -/
example : stackPlaces 30 = [(bs!"B", .fin 0, .fin (-18)), ([], .fin 0, .fin (-14)), (bs!"C", .fin 3, .fin (-9))] := by decide +kernel
/-- 10 points too few: 5 of them missing above -/
example : stackPlaces 6 = [(bs!"B", .fin 0, .fin (-6)), ([], .fin 0, .fin (-2)), (bs!"C", .fin 3, .fin 3)] := by decide +kernel

end Verif.Props
