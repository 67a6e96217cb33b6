import Verif.Lemmas.ShipRun
import Verif.Lemmas.ShipStale
import Verif.Props.Box
/-! # C45, C48-C55, C57: drawing -/

namespace Verif.Props
open Verif Verif.Spec GoFloat

section
variable {F : Type} [GoFloat F]

theorem ship_loop {ox oy : F} {hd : LHead F} {cs : List (TNode F)} {st : ShipSt F} {cs' : List (TNode F)}
    (h : shipCall ox oy hd cs = .ok (st, cs')) :
    ∃ st0, hLoop ⟨ox, oy + hd.box.height⟩ hd zero cs .zero (ShipSt.push ⟨0, 0, zero, zero, []⟩) = .ok (st0, cs') ∧ st = st0.pop := by
  rw [shipCall] at h
  obtain ⟨⟨st0, cs0⟩, e, h⟩ := res_bind_ok h
  cases h
  exact ⟨st0, e, rfl⟩

theorem loop_ship {ox oy : F} {hd : LHead F} {cs : List (TNode F)} {st0 : ShipSt F} {cs' : List (TNode F)}
    (h : hLoop ⟨ox, oy + hd.box.height⟩ hd zero cs .zero (ShipSt.push ⟨0, 0, zero, zero, []⟩) = .ok (st0, cs')) :
    shipCall ox oy hd cs = .ok (st0.pop, cs') := by
  rw [shipCall, h]; rfl

theorem node_ship {ox oy : F} {hd : LHead F} {n : TNode F} {s : ShipSt F} {n' : TNode F} {q : GlueSt F}
    (h : hNode ⟨ox, oy + hd.box.height⟩ hd zero n .zero (ShipSt.push ⟨0, 0, zero, zero, []⟩) = .ok (s, n', q)) :
    shipCall ox oy hd [n] = .ok (s.pop, [n']) := loop_ship (hLoop_cons_eq h (by rw [hLoop]))

theorem ship_out {ox oy : F} {hd : LHead F} {cs : List (TNode F)} {st : ShipSt F} {cs' : List (TNode F)}
    (h : shipCall ox oy hd cs = .ok (st, cs')) :
    cs' = settleHs cs ∧ Out (ShipSt.push ⟨0, 0, zero, zero, []⟩) { st with s := st.s + 1 } (nestingAll cs) (glyphsAll cs)
      (barsHs hd.box.height cs) st.ops := by
  obtain ⟨st0, e, rfl⟩ := ship_loop h
  obtain ⟨e', l, ho, _⟩ := runHs (fun c _ => (run_all _ c).1) _ _ _ _ _ _ e
  refine ⟨e', ?_⟩
  have : st0.pop.ops = l := by simpa [ShipSt.pop, ShipSt.push] using ho.ops
  rw [this]
  exact ⟨by simp [ShipSt.push], by simpa [ShipSt.pop] using ho.s, ho.push, ho.glyph, ho.rect⟩

/-! ## C48 -/

/-- **C48** The glyphs drawn are the characters and accents of the tree, in order, each with its font,
symbol and resolution. -/
theorem C48_glyphs (ox oy : F) (hd : LHead F) (cs : List (TNode F)) (st : ShipSt F) (cs' : List (TNode F))
    (h : shipCall ox oy hd cs = .ok (st, cs')) : st.ops.filterMap opGlyph = glyphsAll cs := (ship_out h).2.glyph

/-- **C48** The rectangles drawn are those of the visible rules of the tree, in order, each with the
rule's width and height. -/
theorem C48_rectangles (ox oy : F) (hd : LHead F) (cs : List (TNode F)) (st : ShipSt F) (cs' : List (TNode F))
    (h : shipCall ox oy hd cs = .ok (st, cs')) : List.Forall₂ Sized (st.ops.filterMap opRect) (barsHs hd.box.height cs) :=
  (ship_out h).2.rect

/-! ## C50 -/

/-- **C50** Shipping changes the widths of non-empty lists inside vertical lists, and nothing else. -/
theorem C50_settles (ox oy : F) (hd : LHead F) (cs : List (TNode F)) (st : ShipSt F) (cs' : List (TNode F))
    (h : shipCall ox oy hd cs = .ok (st, cs')) : cs' = settleHs cs := (ship_out h).1

/-- **C50** Shipping the tree left by a first shipping, anywhere, draws what shipping the original tree
there draws, and leaves the same tree. -/
theorem C50_again (ox oy : F) (hd : LHead F) (cs : List (TNode F)) (st : ShipSt F) (cs' : List (TNode F))
    (h : shipCall ox oy hd cs = .ok (st, cs')) (ox' oy' : F) : shipCall ox' oy' hd cs' = shipCall ox' oy' hd cs := by
  rw [C50_settles ox oy hd cs st cs' h, shipCall, shipCall, sameHs fun c _ => (same_all _ c).1]

/-- **C50** In particular, shipping again is the same, and changes nothing. -/
theorem C50_twice (ox oy : F) (hd : LHead F) (cs : List (TNode F)) (st : ShipSt F) (cs' : List (TNode F))
    (h : shipCall ox oy hd cs = .ok (st, cs')) : shipCall ox oy hd cs' = .ok (st, cs') := by
  rw [C50_again ox oy hd cs st cs' h, h]

/-! ## C51 -/

/-- **C51** `Ship.Call` panics exactly on trees with misplaced nodes; it always terminates. -/
theorem C51_panics (ox oy : F) (hd : LHead F) (cs : List (TNode F)) :
    ((∃ e, shipCall ox oy hd cs = .panic e) ↔ misplacedHs hd.box.height cs = true) ∧ shipCall ox oy hd cs ≠ .fuel := by
  have h : Judged (misplacedHs hd.box.height cs) (shipCall ox oy hd cs) := by
    rw [shipCall]
    have := (judgedHs (o := ⟨ox, oy + hd.box.height⟩) (fun c _ => (judged_all _ c).1) hd zero .zero (ShipSt.push ⟨0, 0, zero, zero, []⟩)
      (cs := cs)).bind (c := false) (f := fun x => .ok (x.1.pop, x.2)) (fun x => .ok _)
    rwa [Bool.or_false] at this
  exact ⟨h.panic, h.notFuel⟩

/-- **C51** When it does not panic it returns. -/
theorem C51_returns (ox oy : F) (hd : LHead F) (cs : List (TNode F)) (h : misplacedHs hd.box.height cs = false) :
    ∃ st, shipCall ox oy hd cs = .ok (st, settleHs cs) := by
  have := C51_panics ox oy hd cs
  cases hr : shipCall ox oy hd cs with
  | ok x => exact ⟨x.1, by rw [← C50_settles ox oy hd cs x.1 x.2 hr]⟩
  | panic e => rw [hr, h] at this; simp at this
  | fuel => exact absurd hr this.2

/-! ## C52 -/

/-- **C52** The nesting counter returns to zero, the deepest nesting is that of the tree (counting the
root), the baseline is restored. -/
theorem C52_balanced (ox oy : F) (hd : LHead F) (cs : List (TNode F)) (st : ShipSt F) (cs' : List (TNode F))
    (h : shipCall ox oy hd cs = .ok (st, cs')) : st.s = 0 ∧ st.maxPush = 1 + nestingAll cs ∧ st.v = zero := by
  have ho := (ship_out h).2
  refine ⟨?_, ?_, ?_⟩
  · have := ho.s; simp only [ShipSt.push] at this; omega
  · have := ho.push (by simp [ShipSt.push, maxInt])
    simp only [ShipSt.push, maxInt] at this
    rw [this]; simp
  · obtain ⟨st0, e, rfl⟩ := ship_loop h
    obtain ⟨q1, r⟩ := hLoop_run e
    exact (r.glue).2 rfl

/-- **C52** Replacing a child by a kern of its width removes its drawing and leaves everything else
where it was. -/
theorem C52_kern (ox oy : F) (hd : LHead F) (a b : List (TNode F)) (n : TNode F) (hn : isSolid n = true) (st : ShipSt F)
    (cs' : List (TNode F)) (h : shipCall ox oy hd (a ++ n :: b) = .ok (st, cs')) (k : KernD F) (hk : k.width = n.width) :
    ∃ A N B st' cs'', st.ops = A ++ N ++ B ∧ shipCall ox oy hd (a ++ .kern k :: b) = .ok (st', cs'') ∧ st'.ops = A ++ B ∧
      N.filterMap opGlyph = glyphs n ∧ st'.h = st.h := by
  obtain ⟨st0, e, rfl⟩ := ship_loop h
  obtain ⟨q1, s1, a', b', ra, eb, rfl⟩ := hLoop_append a (n :: b) e
  obtain ⟨s2, n2, q2, l2, en, el, rfl⟩ := hLoop_cons eb
  obtain ⟨hq, hv, hh⟩ := hNode_step en
  have hv1 : s1.v = zero := (ra.glue).2 rfl
  obtain ⟨_, N, hN, _⟩ := (run_all _ n).1 _ _ _ _ _ _ _ en
  obtain ⟨_, B, hB, hfB⟩ := runHs (fun c _ => (run_all _ c).1) _ _ _ _ _ _ el
  have hq2 : q2 = q1 := by rw [hq, glueRun, gluesOf_solid hn]; rfl
  have hw : penStep hd q1 n n.width = n.width := by cases n <;> first | rfl | cases hn
  obtain ⟨s3, r3, c3, _, o3⟩ := hfB { s1 with h := s1.h + k.width } (by simp [hh, hw, hk]) (by simp [hv1, hv hv1])
  refine ⟨s1.ops, N, B, s3.pop, _, ?_, loop_ship (hLoop_join ra (hLoop_cons_eq (by rw [hNode]) (hq2 ▸ r3))), o3, hN.glyph, c3⟩
  show st0.ops = _
  rw [hB.ops, hN.ops]

/-! ## C45 -/

/-- **C45** The stale setting of rigid lists is invisible in the drawing. -/
theorem C45_ship (ox oy : F) (hd : LHead F) (cs : List (TNode F)) (st : ShipSt F) (cs' : List (TNode F))
    (h : shipCall ox oy hd cs = .ok (st, cs')) :
    shipCall ox oy (if hd.sign = 0 then { hd with set := zero } else hd) (unstaleAll cs) = .ok (st, unstaleAll cs') := by
  obtain ⟨st0, e, rfl⟩ := ship_loop h
  show shipCall ox oy (freshen hd) _ = _
  refine loop_ship ?_
  rw [freshen_box, unstaleHs fun c _ => (unstale_node _ c).1, e]
  rfl

end

/-! ## Exact arithmetic -/

open XR

theorem moveOp_zero (op : Draw XR) : moveOp (.fin 0) (.fin 0) op = op := by
  cases op <;> simp [moveOp, add_zero']

theorem map_moveOp_zero (l : List (Draw XR)) : l.map (moveOp (.fin 0) (.fin 0)) = l := by
  rw [show moveOp (.fin 0) (.fin 0) = (id : Draw XR → Draw XR) from funext moveOp_zero, List.map_id]

/-! ## C49 -/

/-- **C49** Shipping elsewhere draws the same, translated. -/
theorem C49_translate (ox oy dx dy : XR) (hd : LHead XR) (cs : List (TNode XR)) (st : ShipSt XR) (cs' : List (TNode XR))
    (h : shipCall ox oy hd cs = .ok (st, cs')) :
    ∃ st', shipCall (ox + dx) (oy + dy) hd cs = .ok (st', cs') ∧ st'.ops = st.ops.map (moveOp dx dy) := by
  obtain ⟨st0, e, rfl⟩ := ship_loop h
  obtain ⟨s2, l, r, a, b, _, _⟩ := moveHs (fun c _ => (move_all c).1) dx dy _ ⟨ox + dx, oy + dy + hd.box.height⟩ _ _ zero _ _
    (ShipSt.push ⟨0, 0, zero, zero, []⟩) _ _ (by simp only [ShipSt.push]; ac_rfl) (by simp only [ShipSt.push]; ac_rfl) (by dsimp only; ac_rfl) e
  refine ⟨s2.pop, loop_ship r, ?_⟩
  simp only [ShipSt.pop, ShipSt.push, List.nil_append] at a b ⊢
  rw [b, a]

/-! ## C55 -/

/-- **C55** The children of a horizontal list are drawn one after the other, each as if it were the only
child of the list and the list were shipped further to the right by what precedes it. -/
theorem C55_child (ox oy : XR) (hd : LHead XR) (a b : List (TNode XR)) (n : TNode XR) (hn : isSolid n = true) (st : ShipSt XR)
    (cs' : List (TNode XR)) (h : shipCall ox oy hd (a ++ n :: b) = .ok (st, cs')) :
    ∃ sa a' sn n' B, shipCall ox oy hd a = .ok (sa, a') ∧ shipCall (ox + advance hd a) oy hd [n] = .ok (sn, n') ∧
      st.ops = sa.ops ++ sn.ops ++ B := by
  obtain ⟨st0, e, rfl⟩ := ship_loop h
  obtain ⟨q1, s1, a', b', ra, eb, rfl⟩ := hLoop_append a (n :: b) e
  obtain ⟨s2, n2, q2, l2, en, el, rfl⟩ := hLoop_cons eb
  obtain ⟨_, B, hB, _⟩ := runHs (fun c _ => (run_all _ c).1) _ _ _ _ _ _ el
  have hv1 : s1.v = zero := (ra.glue).2 rfl
  have en := hNode_solid hn en .zero
  obtain ⟨s2', l, r, o1, o2, _, _⟩ := (move_all n).1 (.fin 0) (.fin 0) _ ⟨ox + advance hd a, oy + hd.box.height⟩ hd zero zero .zero s1
    (ShipSt.push ⟨0, 0, zero, zero, []⟩) s2 n2 .zero (by rw [ra.advance, add_zero']; simp only [ShipSt.push]; ac_rfl)
    (by rw [hv1, add_zero']; rfl) (by rw [add_zero']) en
  refine ⟨s1.pop, a', s2'.pop, _, B, loop_ship ra.loop, loop_ship (hLoop_cons_eq r (by rw [hLoop])), ?_⟩
  show st0.ops = s1.ops ++ s2'.ops ++ B
  rw [hB.ops, o1, o2, map_moveOp_zero]
  simp [ShipSt.push]

/-- The vertical position at which the top of a list with header `nd` lies when it is a child of a
horizontal list with header `hd` shipped at height `oy`: baselines are aligned, then the list is lowered
by its shift. -/
def topOf (oy : XR) (hd nd : LHead XR) : XR := oy + hd.box.height + nd.shift - nd.box.height

/-- **C55** A horizontal list inside a horizontal list is drawn as if shipped by itself, with its baseline
on that of the outer list, lowered by its shift. -/
theorem C55_inner (ox oy : XR) (hd nd : LHead XR) (cs : List (TNode XR)) (q : ℚ) (hf : nd.box.height = .fin q) (st : ShipSt XR)
    (cs' : List (TNode XR)) (h : shipCall ox oy hd [.list .h nd cs] = .ok (st, cs')) :
    ∃ st' cs'', shipCall ox (topOf oy hd nd) nd cs = .ok (st', cs'') ∧ st.ops = st'.ops := by
  obtain ⟨st0, e, rfl⟩ := ship_loop h
  obtain ⟨s2, n2, q2, l2, en, el, rfl⟩ := hLoop_cons e
  rw [hLoop] at el; cases el
  rw [hNode] at en
  by_cases hc : cs.isEmpty = true
  · rw [if_pos hc] at en; cases en
    rw [List.isEmpty_iff.1 hc]
    exact ⟨_, _, loop_ship (st0 := ShipSt.push ⟨0, 0, zero, zero, []⟩) (by rw [hLoop]), rfl⟩
  · rw [if_neg hc] at en
    obtain ⟨⟨s1, cs1⟩, e1, en⟩ := res_bind_ok en
    cases en
    have hv : fin 0 + (oy + hd.box.height + nd.shift - nd.box.height + nd.box.height) = fin 0 + nd.shift + (oy + hd.box.height) + fin 0 := by
      rw [hf, sub_add', fin_neg, zero_add', zero_add', add_zero', add_assoc', fin_add, neg_add_cancel, add_zero']; ac_rfl
    obtain ⟨s3, l, r, a, b, _, _⟩ := moveHs (fun c _ => (move_all c).1) (.fin 0) (.fin 0) _ ⟨ox, topOf oy hd nd + nd.box.height⟩ nd
      (zero + nd.shift) zero .zero _ (ShipSt.push ⟨0, 0, zero, zero, []⟩) s1 cs1
      (by rw [add_zero']; rfl) (by rw [topOf]; simpa only [ShipSt.push, zero_fin] using hv) (by rw [topOf, zero_fin]; exact hv) e1
    refine ⟨s3.pop, _, loop_ship r, ?_⟩
    show s1.ops = s3.ops
    rw [a, b, map_moveOp_zero]; rfl

/-- A vertical list inside a horizontal list, around one of its nodes. -/
theorem v_split {ox oy : XR} {hd nd : LHead XR} {a b : List (TNode XR)} {n : TNode XR} {st : ShipSt XR} {cs' : List (TNode XR)}
    (h : shipCall ox oy hd [.list .v nd (a ++ n :: b)] = .ok (st, cs')) :
    ∃ q1 s1 s2 n' q2 B sa a', vNode ⟨ox, oy + hd.box.height⟩ nd zero n q1 s1 = .ok (s2, n', q2) ∧ s1.h = fin 0 ∧
      s1.v + (oy + hd.box.height) = topOf oy hd nd + vadvance nd a ∧
      shipCall ox oy hd [.list .v nd a] = .ok (sa, a') ∧ sa.ops = s1.ops ∧ st.ops = s2.ops ++ B := by
  obtain ⟨st0, e, rfl⟩ := ship_loop h
  obtain ⟨s2, n2, q2, l2, en, el, rfl⟩ := hLoop_cons e
  rw [hLoop] at el; cases el
  rw [hNode, if_neg (by simp)] at en
  obtain ⟨⟨s1, cs1⟩, e1, en'⟩ := res_bind_ok en
  cases en'
  clear en
  obtain ⟨q1, t1, a', b', ra, eb, rfl⟩ := vLoop_append a (n :: b) e1
  obtain ⟨t2, n2, q2, l2, en, el, rfl⟩ := vLoop_cons eb
  obtain ⟨_, B, hB, _⟩ := runVs (fun c _ => (run_all _ c).2) _ _ _ _ _ _ el
  have hh : t1.h = fin 0 := by
    have := (ra.glue).2 rfl
    rw [this]; simp [ShipSt.push]
  have hv : t1.v + (oy + hd.box.height) = topOf oy hd nd + vadvance nd a := by
    rw [ra.advance, topOf]
    simp only [ShipSt.push, sub_add', zero_fin, zero_add']
    ac_rfl
  by_cases hc : a.isEmpty = true
  · have ha := List.isEmpty_iff.1 hc
    subst ha
    cases ra
    exact ⟨_, _, _, _, _, B, _, _, en, hh, hv, node_ship (s := { (ShipSt.push ⟨0, 0, zero, zero, []⟩ : ShipSt XR) with h := zero + nd.box.width }) (by rw [hNode, if_pos hc]; rfl), rfl, hB.ops⟩
  · refine ⟨_, _, _, _, _, B, _, _, en, hh, hv, node_ship (s := { t1.pop with h := zero + nd.box.width, v := zero }) (by rw [hNode, if_neg hc, ra.loop]; rfl), rfl, hB.ops⟩

/-- **C55** A horizontal list inside a vertical list is drawn as if shipped by itself, below what precedes
it and to the right by its shift. -/
theorem C55_vchild_h (ox oy : XR) (hd nd nc : LHead XR) (a b kids : List (TNode XR)) (st : ShipSt XR) (cs' : List (TNode XR))
    (h : shipCall ox oy hd [.list .v nd (a ++ .list .h nc kids :: b)] = .ok (st, cs')) :
    ∃ sa a' sn n' B, shipCall ox oy hd [.list .v nd a] = .ok (sa, a') ∧
      shipCall (ox + nc.shift) (topOf oy hd nd + vadvance nd a) nc kids = .ok (sn, n') ∧ st.ops = sa.ops ++ sn.ops ++ B := by
  obtain ⟨q1, s1, s2, n', q2, B, sa, a', en, hh, hv, ea, oa, ob⟩ := v_split h
  rw [vNode] at en
  by_cases hc : kids.isEmpty = true
  · rw [if_pos hc] at en; cases en
    rw [List.isEmpty_iff.1 hc]
    exact ⟨sa, a', _, _, B, ea, loop_ship (st0 := ShipSt.push ⟨0, 0, zero, zero, []⟩) (by rw [hLoop]), by rw [ob, oa]; simp [ShipSt.push, ShipSt.pop]⟩
  · rw [if_neg hc] at en
    obtain ⟨⟨t1, cs1⟩, e1, en⟩ := res_bind_ok en
    cases en
    have hv' : fin 0 + (topOf oy hd nd + vadvance nd a + nc.box.height) = s1.v + nc.box.height + (oy + hd.box.height) + fin 0 := by
      rw [← hv, zero_add', add_zero']; ac_rfl
    obtain ⟨s3, l, r, oa', ob', _, _⟩ := moveHs (fun c _ => (move_all c).1) (.fin 0) (.fin 0) _
      ⟨ox + nc.shift, topOf oy hd nd + vadvance nd a + nc.box.height⟩ _ _ zero .zero _ (ShipSt.push ⟨0, 0, zero, zero, []⟩) t1 cs1
      (by simp only [ShipSt.push, zero_fin, zero_add', add_zero']; ac_rfl) (by simpa only [ShipSt.push, zero_fin] using hv')
      (by rw [zero_fin]; exact hv') e1
    rw [hLoop_width] at r
    refine ⟨sa, a', s3.pop, _, B, ea, loop_ship r, ?_⟩
    show _ = sa.ops ++ s3.ops ++ B
    rw [ob, oa, ob', map_moveOp_zero]
    show t1.ops ++ B = _
    rw [oa']; rfl

/-- **C55** A vertical list inside a vertical list is drawn as the only child of a list of its own height
shipped by itself, below what precedes it and to the right by its shift; it takes the width of the outer
list. -/
theorem C55_vchild_v (ox oy : XR) (hd nd nc : LHead XR) (a b kids : List (TNode XR)) (st : ShipSt XR) (cs' : List (TNode XR))
    (h : shipCall ox oy hd [.list .v nd (a ++ .list .v nc kids :: b)] = .ok (st, cs')) :
    ∃ sa a' sn n' B, shipCall ox oy hd [.list .v nd a] = .ok (sa, a') ∧
      shipCall (ox + nc.shift) (topOf oy hd nd + vadvance nd a) nc
        [.list .v { nc with shift := fin 0, box := { nc.box with width := nd.box.width } } kids] = .ok (sn, n') ∧
      st.ops = sa.ops ++ sn.ops ++ B := by
  obtain ⟨q1, s1, s2, n', q2, B, sa, a', en, hh, hv, ea, oa, ob⟩ := v_split h
  rw [vNode] at en
  by_cases hc : kids.isEmpty = true
  · rw [if_pos hc] at en; cases en
    exact ⟨sa, a', _, _, B, ea, node_ship (by rw [hNode, if_pos hc]), by rw [ob, oa]; simp [ShipSt.push, ShipSt.pop]⟩
  · rw [if_neg hc] at en
    obtain ⟨⟨t1, cs1⟩, e1, en⟩ := res_bind_ok en
    cases en
    obtain ⟨s3, l, r, oa', ob', _, _⟩ := moveVs (fun c _ => (move_all c).2) (.fin 0) (.fin 0) _
      ⟨ox + nc.shift, topOf oy hd nd + vadvance nd a + nc.box.height⟩ _ _ zero .zero _
      { (ShipSt.push ⟨0, 0, zero, zero, []⟩ : ShipSt XR) with v := zero + fin 0 - nc.box.height }.push t1 cs1
      (by simp only [ShipSt.push, zero_fin, zero_add', add_zero']; ac_rfl)
      (by simp only [ShipSt.push, zero_fin, ← hv, sub_add', zero_add', add_zero']; ac_rfl)
      (by simp only [zero_fin, zero_add', add_zero']; ac_rfl) e1
    have r := (vLoop_shift _ (fin 0)).symm.trans r
    refine ⟨sa, a', _, _, B, ea, node_ship (by rw [hNode, if_neg hc]; erw [r]; rfl), ?_⟩
    show _ = sa.ops ++ s3.ops ++ B
    rw [ob, oa, ob', map_moveOp_zero]
    show t1.ops ++ B = _
    rw [oa']; rfl

/-- **C55** Characters, accents and visible rules, drawn by themselves. -/
theorem C55_leaf (ox oy : XR) (hd : LHead XR) (n : TNode XR) (st : ShipSt XR) (cs' : List (TNode XR))
    (h : shipCall ox oy hd [n] = .ok (st, cs')) :
    (∀ c, n = .char c → st.ops = [.glyph ox (oy + hd.box.height) c.font c.c c.dpi]) ∧
    (∀ c, n = .accent c → st.ops = [.glyph (ox - c.metrics.xmin) (oy + hd.box.height + c.metrics.ymin) c.font c.c c.dpi]) ∧
    (∀ (k : Int) (w ht d : ℚ), n = .rule ⟨k, .fin w, .fin ht, .fin d⟩ → 0 < w → 0 < ht →
      st.ops = [.rect ox (oy + hd.box.height + .fin d) (ox + .fin w) (oy + hd.box.height + .fin d + .fin ht)]) := by
  obtain ⟨st0, e, rfl⟩ := ship_loop h
  obtain ⟨s2, n2, q2, l2, en, el, rfl⟩ := hLoop_cons e
  rw [hLoop] at el; cases el
  refine ⟨?_, ?_, ?_⟩
  · rintro c rfl
    rw [hNode] at en; cases en
    simp [ShipSt.pop, ShipSt.push, CharD.render, zero_add']
  · rintro c rfl
    rw [hNode] at en; cases en
    simp [ShipSt.pop, ShipSt.push, CharD.renderAccent, zero_add']
  · rintro k w ht d rfl hw hht
    rw [hNode] at en
    simp only [fin_isInf, Bool.false_eq_true, if_false, pos, zero_fin, fin_lt, hw, hht, decide_true, Bool.and_self, if_true] at en
    cases en
    simp only [ShipSt.pop, ShipSt.push, renderRule, zero_fin, zero_add', List.nil_append, List.cons.injEq, Draw.rect.injEq, and_true, true_and]
    exact ⟨by ac_rfl, by ac_rfl⟩

/-! ## C57 -/

/-- **C57** A rule of a horizontal list reserves the space from `height` above the baseline to `depth`
below it; it is painted in a rectangle of the height `height` that begins where this space ends. -/
theorem C57_hrule (ox oy : XR) (hd : LHead XR) (w ht d : ℚ) (hw : 0 < w) (hht : 0 < ht) :
    reach (.rule ⟨0, .fin w, .fin ht, .fin d⟩ : TNode XR) = some (.fin ht, .fin d) ∧
    ∃ st cs', shipCall ox oy hd [.rule ⟨0, .fin w, .fin ht, .fin d⟩] = .ok (st, cs') ∧
      st.ops = [.rect ox (oy + hd.box.height + .fin d) (ox + .fin w) (oy + hd.box.height + .fin d + .fin ht)] := by
  refine ⟨rfl, ?_⟩
  obtain ⟨st, hst⟩ := C51_returns ox oy hd [.rule ⟨0, .fin w, .fin ht, .fin d⟩] rfl
  exact ⟨st, _, hst, (C55_leaf _ _ _ _ _ _ hst).2.2 0 w ht d rfl hw hht⟩

/-- **C57** A rule of a vertical list reserves its height and depth; it is painted in a rectangle of that
size that begins where the reserved space ends. -/
theorem C57_vrule (ox oy : XR) (hd nd : LHead XR) (a b : List (TNode XR)) (r : BoxD XR) (st : ShipSt XR) (cs' : List (TNode XR))
    (h : shipCall ox oy hd [.list .v nd (a ++ .rule r :: b)] = .ok (st, cs')) (hv : (pos (r.height + r.depth) && pos r.depth) = true) :
    ∃ sa a' B, shipCall ox oy hd [.list .v nd a] = .ok (sa, a') ∧
      st.ops = sa.ops ++ [.rect ox (topOf oy hd nd + vadvance nd (a ++ [.rule r])) (ox + (if isInf r.width then nd.box.width else r.width))
        (topOf oy hd nd + vadvance nd (a ++ [.rule r]) + (r.height + r.depth))] ++ B ∧
      vadvance nd (a ++ [.rule r]) = vadvance nd a + (r.height + r.depth) := by
  obtain ⟨q1, s1, s2, n', q2, B, sa, a', en, hh, hv', ea, oa, ob⟩ := v_split h
  have hvs : vspace (.rule r : TNode XR) = r.height + r.depth := by
    show (if pos (r.height + r.depth) && pos r.depth then _ else _) = _; rw [if_pos hv]; rfl
  have hg : glueOffset nd (a ++ [.rule r]) = glueOffset nd a := by
    have : gluesOf (a ++ [.rule r]) = gluesOf a := by simp [gluesOf, List.filterMap_append]
    simp only [glueOffset, stretchTotal, shrinkTotal, this]
  have hva : vadvance nd (a ++ [.rule r]) = vadvance nd a + (r.height + r.depth) := by
    rw [vadvance, vadvance, hg, List.foldl_append, List.foldl_cons, List.foldl_nil, hvs]; ac_rfl
  refine ⟨sa, a', B, ea, ?_, hva⟩
  rw [vNode] at en
  rw [if_pos hv] at en
  cases en
  rw [ob, oa, hva, ← add_assoc' (topOf oy hd nd), ← hv']
  simp only [renderRule, hh, zero_add']
  rw [show s1.v + (r.height + r.depth) + (oy + hd.box.height) = s1.v + (oy + hd.box.height) + (r.height + r.depth) by ac_rfl]

/-! ## C54 -/

/-- **C54** Drawing a list moves the pen by the natural widths of its children plus what its glue takes. -/
theorem C54_pen (ox oy : XR) (hd : LHead XR) (cs : List (TNode XR)) (st : ShipSt XR) (cs' : List (TNode XR))
    (h : shipCall ox oy hd cs = .ok (st, cs')) : st.h = advance hd cs := by
  obtain ⟨st0, e, rfl⟩ := ship_loop h
  obtain ⟨q1, r⟩ := hLoop_run e
  show st0.h = _
  rw [r.advance]; simp [ShipSt.push, zero_add']

/-- **C54** A list packed to its natural width moves the pen by exactly its width. -/
theorem C54_natural (ox oy : XR) (hd : LHead XR) (cs : List (TNode XR)) (n : ℚ) (hn : naturalWidth cs = .fin n)
    (st : ShipSt XR) (cs' : List (TNode XR)) (h : shipCall ox oy (hpack hd cs zero true) cs = .ok (st, cs')) :
    st.h = (hpack hd cs zero true).box.width := by
  have hw := (C40_hpack_width hd cs zero).2
  have hr := C44_hpack hd cs zero true
  rw [C54_pen _ _ _ _ _ _ h, hw, advance, hn]
  rw [hw, hn, zero_fin, zero_add', fin_sub, sub_self, GlueRule, zero_fin, if_pos (by simp)] at hr
  rw [glueOffset, zero_fin, if_pos hr.1]
  simp

/-- clamped to a billion and rounded -/
theorem round_clamp {x : ℚ} (h : |x| ≤ 1000000000) : |((GoFloat.round (clamp (fin x)) : Int) : ℚ) - x| ≤ 1 / 2 := by
  have h1 := abs_le.1 h
  have : clamp (fin x) = fin x := by
    simp only [clamp, ofInt_fin, fin_lt]
    rw [if_neg (by simpa using h1.1), if_neg (by simpa using h1.2)]
  rw [this]
  exact roundQ_near x

/-- The glue of a whole set list takes the slack, rounded to whole points. -/
theorem glueOffset_near {r : LHead XR} {x : ℚ} {cs : List (TNode XR)} (h : GlueRule r (.fin x) cs) (hs : r.sign ≠ 0) (q : ℚ)
    (ht : (if r.sign = 1 then stretchTotal cs r.order else shrinkTotal cs r.order) = .fin q) (hx : |x| ≤ 1000000000) :
    |(glueOffset r cs : ℚ) - x| ≤ 1 / 2 := by
  have hset := C44_takes_up r _ cs h hs q ht
  have hnz : GoFloat.eq (if r.sign = 1 then stretchTotal cs r.order else shrinkTotal cs r.order) zero = false := by
    unfold GlueRule at h
    split at h
    · exact absurd h.1 hs
    · split at h
      · rcases h with ⟨h1, h2, _⟩ | ⟨h1, _⟩
        · rw [if_pos h1]; exact h2.1
        · exact absurd h1 hs
      · rcases h with ⟨h1, h2, _⟩ | ⟨h1, _⟩
        · rw [h1, if_neg (by decide)]; exact h2.1
        · exact absurd h1 hs
  rw [glueOffset, if_neg hs]
  by_cases h1 : r.sign = 1
  · rw [if_pos h1] at ht hnz ⊢
    rw [if_neg, ht, hset]
    · exact round_clamp hx
    · intro hall
      have : (gluesOf cs).filter (·.stretchOrder = r.order) = [] := by
        rw [List.filter_eq_nil_iff]; simpa using hall
      rw [stretchTotal, this] at hnz
      simp at hnz
  · rw [if_neg h1] at ht hnz ⊢
    rw [if_neg, ht, hset]
    · exact round_clamp hx
    · intro hall
      have : (gluesOf cs).filter (·.shrinkOrder = r.order) = [] := by
        rw [List.filter_eq_nil_iff]; simpa using hall
      rw [shrinkTotal, this] at hnz
      simp at hnz

/-- **C54** A list whose glue is set to fill the width `w` moves the pen by `w`, up to half a point. -/
theorem C54_set (ox oy : XR) (hd : LHead XR) (cs : List (TNode XR)) (w n q : ℚ) (hn : naturalWidth cs = .fin n)
    (hs : (hpack hd cs (.fin w) false).sign ≠ 0)
    (ht : (if (hpack hd cs (.fin w) false).sign = 1 then stretchTotal cs (hpack hd cs (.fin w) false).order
      else shrinkTotal cs (hpack hd cs (.fin w) false).order) = .fin q)
    (hx : |w - n| ≤ 1000000000) (st : ShipSt XR) (cs' : List (TNode XR))
    (h : shipCall ox oy (hpack hd cs (.fin w) false) cs = .ok (st, cs')) :
    ∃ e : ℚ, st.h = .fin e ∧ |e - w| ≤ 1 / 2 := by
  have hr := C44_hpack hd cs (.fin w) false
  rw [(C40_hpack_width hd cs _).1, hn, fin_sub] at hr
  have := glueOffset_near hr hs q ht hx
  refine ⟨n + glueOffset (hpack hd cs (.fin w) false) cs, ?_, ?_⟩
  · rw [C54_pen _ _ _ _ _ _ h, advance, hn, ofInt_fin, fin_add]
  · rw [show n + (glueOffset (hpack hd cs (.fin w) false) cs : ℚ) - w = (glueOffset (hpack hd cs (.fin w) false) cs : ℚ) - (w - n) by ring]
    exact this

/-- **C54** A rigid list moves the pen by its natural width, whatever its width. -/
theorem C54_rigid (ox oy : XR) (hd : LHead XR) (cs : List (TNode XR)) (hs : hd.sign = 0) (st : ShipSt XR) (cs' : List (TNode XR))
    (h : shipCall ox oy hd cs = .ok (st, cs')) : st.h = naturalWidth cs := by
  rw [C54_pen _ _ _ _ _ _ h, advance, glueOffset, if_pos hs]; simp [add_zero']

/-! ## C53 -/

/-- The glue of a centred list packed to a finite width. -/
theorem centred_offset {els : List (TNode XR)} (hs : ∀ e ∈ els, isSolid e = true) {r : LHead XR} {x : ℚ}
    (h : GlueRule r (.fin x) (.glue ssGlue :: els ++ [.glue ssGlue])) (hx : |x / 2| ≤ 1000000000) :
    |(glueOffset r [.glue ssGlue] : ℚ) - x / 2| ≤ 1 / 2 := by
  have hg : gluesOf (.glue ssGlue :: els ++ [.glue ssGlue]) = [ssGlue, ssGlue] := by
    have : gluesOf els = [] := by
      rw [gluesOf, List.filterMap_eq_nil_iff]
      intro e he
      have := hs e he
      cases e <;> first | rfl | cases this
    rw [gluesOf, List.cons_append, List.filterMap_cons, List.filterMap_append]
    simp only []
    rw [show els.filterMap _ = [] from this]
    rfl
  have hst : ∀ o, stretchTotal (.glue ssGlue :: els ++ [.glue ssGlue]) o = if o = 1 then fin 2 else fin 0 := by
    intro o
    rw [stretchTotal, hg]
    by_cases ho : o = 1
    · subst ho; simp [ssGlue]; norm_num
    · rw [if_neg ho, List.filter_eq_nil_iff.2]; · simp
      intro g hgm; simp only [List.mem_cons, List.not_mem_nil, or_false, or_self] at hgm; subst hgm
      simpa [ssGlue] using Ne.symm ho
  have hsh : ∀ o, shrinkTotal (.glue ssGlue :: els ++ [.glue ssGlue]) o = if o = 1 then fin (-2) else fin 0 := by
    intro o
    rw [shrinkTotal, hg]
    by_cases ho : o = 1
    · subst ho; simp [ssGlue]; norm_num
    · rw [if_neg ho, List.filter_eq_nil_iff.2]; · simp
      intro g hgm; simp only [List.mem_cons, List.not_mem_nil, or_false, or_self] at hgm; subst hgm
      simpa [ssGlue] using Ne.symm ho
  have hone : ∀ {t : Fin 4 → XR} {o : Fin 4} {c : ℚ}, (∀ o, t o = if o = 1 then fin c else fin 0) → Highest t o → o = 1 := by
    intro t o c ht hh
    by_contra ho
    have := hh.1
    rw [ht, if_neg ho] at this
    simp at this
  unfold GlueRule at h
  split at h
  · rename_i h0
    have hx0 : x = 0 := by simpa using h0
    rw [glueOffset, if_pos h.1, hx0]; norm_num
  · rename_i h0
    have hx0 : x ≠ 0 := by simpa using h0
    split at h
    · rcases h with ⟨h1, h2, h3⟩ | ⟨_, _, h3⟩
      · have ho := hone hst h2
        rw [hst, if_pos ho, fin_div _ _ (by norm_num)] at h3
        rw [glueOffset, h1, if_neg (by decide), if_pos rfl, ho, if_neg (by simp [gluesOf, ssGlue]), h3]
        have : stretchTotal [.glue ssGlue] 1 = (fin 1 : XR) := by simp [stretchTotal, gluesOf, ssGlue]
        rw [this, fin_mul, mul_one]
        exact round_clamp hx
      · have := h3 1
        rw [hst] at this; simp at this
    · rcases h with ⟨h1, h2, h3⟩ | ⟨_, _, h3⟩
      · have ho := hone hsh h2
        rw [hsh, if_pos ho, fin_div _ _ (by norm_num)] at h3
        rw [glueOffset, h1, if_neg (by decide), if_neg (by decide), ho, if_neg (by simp [gluesOf, ssGlue]), h3]
        have : shrinkTotal [.glue ssGlue] 1 = (fin (-1) : XR) := by simp [shrinkTotal, gluesOf, ssGlue]
        rw [this, fin_mul, show x / -2 * -1 = x / 2 by ring]
        exact round_clamp hx
      · have := h3 1
        rw [hsh] at this; simp at this

theorem HRun.solid {F : Type} [GoFloat F] {o : Off F} {hd : LHead F} {base : F} {q st a q1 st1 a'} (h : HRun o hd base q st a q1 st1 a')
    (hs : ∀ e ∈ a, isSolid e = true) (q2 : GlueSt F) : HRun o hd base q2 st a q2 st1 a' := by
  induction h with
  | nil => exact .nil
  | cons h _ ih =>
    exact .cons (hNode_solid (hs _ List.mem_cons_self) h q2) (ih fun e he => hs e (List.mem_cons_of_mem _ he))

/-- **C53** `HCentered(els)` packed to width `w` draws `els` moved to the right by a whole number of
points within half a point of `(w - natural width)/2`. -/
theorem C53_centred (be : Backend XR) (els : List (TNode XR)) (hs : ∀ e ∈ els, isSolid e = true) (w n : ℚ)
    (hn : naturalWidth els = .fin n) (hx : |(w - n) / 2| ≤ 1000000000) :
    ∃ hd0 kids, hcentered be els = .list .h hd0 kids ∧ ∃ r : Int, |(r : ℚ) - (w - n) / 2| ≤ 1 / 2 ∧
      ∀ ox oy st cs', shipCall ox oy (hpack hd0 kids (.fin w) false) kids = .ok (st, cs') →
        ∃ st' cs'', shipCall (ox + .fin r) oy (hpack hd0 kids (.fin w) false) els = .ok (st', cs'') ∧ st.ops = st'.ops := by
  refine ⟨_, .glue ssGlue :: els ++ [.glue ssGlue], rfl, ?_⟩
  generalize hpack (F := XR) LHead.zero _ _ _ = hd0
  set kids : List (TNode XR) := .glue ssGlue :: els ++ [.glue ssGlue] with hk
  have hnk : naturalWidth kids = .fin n := by
    rw [naturalWidth, hk, List.foldl_append, List.foldl_cons, List.foldl_cons, List.foldl_nil, foldl_add_start]
    have hn' : els.foldl (fun x n => x + n.width) (fin 0) = fin n := by rw [← hn, naturalWidth, zero_fin]
    rw [hn']
    simp [ssGlue, TNode.width, zero_add', add_zero']
  have hr := C44_hpack hd0 kids (.fin w) false
  rw [(C40_hpack_width hd0 kids _).1, hnk, fin_sub] at hr
  refine ⟨glueOffset (hpack hd0 kids (.fin w) false) [.glue ssGlue], centred_offset hs hr hx, ?_⟩
  generalize hpack hd0 kids (.fin w) false = hd
  intro ox oy st cs' h
  obtain ⟨st0, e, rfl⟩ := ship_loop h
  obtain ⟨q1, s1, a', b', ra, eb, rfl⟩ := hLoop_append [.glue ssGlue] (els ++ [.glue ssGlue]) e
  obtain ⟨q2, s2, a2, b2, rb, ec, rfl⟩ := hLoop_append els _ eb
  have had : s1.h = fin (glueOffset hd [.glue ssGlue]) := by
    rw [ra.advance, advance]
    simp [ShipSt.push, zero_add', naturalWidth, ssGlue, TNode.width]
  have hv1 : s1.v = zero := (ra.glue).2 rfl
  have ho1 : s1.ops = [] := by
    cases ra with
    | cons hg r => cases r; rw [hNode] at hg; cases hg; rfl
  obtain ⟨_, B, hB, _⟩ := runHs (fun c _ => (run_all _ c).1) _ _ _ _ _ _ ec
  have hB0 : B = [] := by
    obtain ⟨s3, n3, q3, l3, en, el, rfl⟩ := hLoop_cons ec
    rw [hLoop] at el; cases el
    rw [hNode] at en; cases en
    simpa using hB.ops
  have rb := (HRun.solid rb hs .zero).loop
  obtain ⟨s3, l, r, o1, o2, _, _⟩ := moveHs (fun c _ => (move_all c).1) (.fin 0) (.fin 0) _
    ⟨ox + fin (glueOffset hd [.glue ssGlue]), oy + hd.box.height⟩ hd zero zero .zero s1
    (ShipSt.push ⟨0, 0, zero, zero, []⟩) s2 a2 (by rw [had, add_zero']; simp only [ShipSt.push, zero_fin, zero_add']; ac_rfl)
    (by rw [hv1, add_zero']; rfl) (by rw [add_zero']) rb
  refine ⟨s3.pop, _, loop_ship r, ?_⟩
  show st0.ops = s3.ops
  rw [hB.ops, hB0, o1, o2, ho1, map_moveOp_zero]
  simp [ShipSt.push]

/-! ## Concrete cases -/

/-- A header with width 20, height `h`, depth 2, shift `s`. -/
def exHead (h s : ℚ) : LHead XR := { LHead.zero with box := ⟨0, .fin 20, .fin h, .fin 2⟩, shift := .fin s }

/-- `A`, then a fraction-like vertical list (raised by 4: a list with `B`, a rule as wide as the list, a
list with `C` moved to the right by 3), a kern, `D`. -/
def shipTree : List (TNode XR) :=
  [exChar bs!"A",
   .list .v (exHead 12 (-4)) [.list .h (exHead 5 0) [exChar bs!"B"], .rule ⟨0, .pinf, .fin 1, .fin 1⟩, .glue ssGlue,
     .list .h { exHead 5 3 with box := ⟨0, .fin 7, .fin 5, .fin 2⟩ } [exChar bs!"C"]],
   newKern (.fin 2), exChar bs!"D"]

/-- what is drawn, positions only -/
def exPlaces (r : Res (ShipSt XR × List (TNode XR))) : List (GoString × XR × XR) :=
  match r with
  | .ok (st, _) => st.ops.map fun op => match op with
    | .glyph x y _ s _ => (s, x, y)
    | .rect x y _ _ => ([], x, y)
  | _ => []

example : exPlaces (shipCall (.fin 100) (.fin 0) (exHead 10 0) shipTree) =
    [(bs!"A", .fin 100, .fin 10), (bs!"B", .fin 109, .fin (-1)), ([], .fin 109, .fin 3), (bs!"C", .fin 112, .fin 8),
     (bs!"D", .fin 131, .fin 10)] := by decide +kernel
example : misplacedHs (.fin 10) shipTree = false := by decide +kernel
example : nestingAll shipTree = 2 := by decide +kernel
example : (shipTree.map isSolid) = [true, true, true, true] := by decide +kernel

/-- **C50** Shipping does change trees: the list with `C` had width 7. -/
theorem C50_changes : ∃ st cs', shipCall (.fin 100) (.fin 0) (exHead 10 0) shipTree = .ok (st, cs') ∧ cs' ≠ shipTree := by
  obtain ⟨st, h⟩ := C51_returns (.fin 100) (.fin 0) (exHead 10 0) shipTree (by decide +kernel)
  refine ⟨st, _, h, ?_⟩
  intro e
  have : (match settleHs shipTree with | _ :: .list _ _ (_ :: _ :: _ :: .list _ hd _ :: _) :: _ => hd.box.width | _ => .fin 0) =
      (match shipTree with | _ :: .list _ _ (_ :: _ :: _ :: .list _ hd _ :: _) :: _ => hd.box.width | _ => .fin 0) := by rw [e]
  revert this
  decide +kernel

/-- **C51** A `Box` with positive width and height in a horizontal list is one of the misplaced nodes, as
is a character in a vertical list. -/
theorem C51_witness :
    (∃ e, shipCall (.fin 0) (.fin 0) (exHead 10 0) [.box ⟨0, .fin 1, .fin 1, .fin 0⟩] = .panic e) ∧
    (∃ e, shipCall (.fin 0) (.fin 0) (exHead 10 0) [.list .v (exHead 1 0) [exChar bs!"A"]] = .panic e) :=
  ⟨(C51_panics _ _ _ _).1.2 (by decide +kernel), (C51_panics _ _ _ _).1.2 (by decide +kernel)⟩

/-- centring `A` (width 9) in width 40, and in width 4 -/
example : naturalWidth [exChar bs!"A"] = .fin 9 := by decide +kernel
example : (match hcentered exBe [exChar bs!"A"] with
    | .list _ hd cs => exPlaces (shipCall (.fin 0) (.fin 0) (hpack hd cs (.fin 40) false) cs)
    | _ => []) = [(bs!"A", .fin 16, .fin 0)] := by decide +kernel
example : (match hcentered exBe [exChar bs!"A"] with
    | .list _ hd cs => exPlaces (shipCall (.fin 0) (.fin 0) (hpack hd cs (.fin 4) false) cs)
    | _ => []) = [(bs!"A", .fin (-3), .fin 0)] := by decide +kernel

end Verif.Props
