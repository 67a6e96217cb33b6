import Verif.Lemmas.Ship
import Verif.Lemmas.Exact
/-! # Shipping at different places, in exact arithmetic -/

namespace Verif
open GoFloat Spec XR

theorem ac4 (a b c d : XR) : a + b + c + d = a + (b + c) + d := by ac_rfl

theorem mv_add {h1 h2 p1 p2 d : XR} (w : XR) (h : h2 + p2 = h1 + p1 + d) : h2 + w + p2 = h1 + w + p1 + d := by
  calc h2 + w + p2 = (h2 + p2) + w := by ac_rfl
    _ = h1 + w + p1 + d := by rw [h]; ac_rfl

theorem mv_sub {h1 h2 p1 p2 d : XR} (w : XR) (h : h2 + p2 = h1 + p1 + d) : h2 - w + p2 = h1 - w + p1 + d := by
  rw [sub_add', sub_add']; exact mv_add _ h

/-- Two runs `(dx, dy)` apart. -/
def MoveH (n : TNode XR) : Prop :=
  ∀ (dx dy : XR) (o1 o2 : Off XR) hd base1 base2 q (s1 s2 s1' : ShipSt XR) n' q',
    s2.h + o2.h = s1.h + o1.h + dx → s2.v + o2.v = s1.v + o1.v + dy → base2 + o2.v = base1 + o1.v + dy →
    hNode o1 hd base1 n q s1 = .ok (s1', n', q') →
    ∃ s2' l, hNode o2 hd base2 n q s2 = .ok (s2', n', q') ∧ s1'.ops = s1.ops ++ l ∧ s2'.ops = s2.ops ++ l.map (moveOp dx dy) ∧
      s2'.h + o2.h = s1'.h + o1.h + dx ∧ s2'.v + o2.v = s1'.v + o1.v + dy

/-- The same in a vertical list. -/
def MoveV (n : TNode XR) : Prop :=
  ∀ (dx dy : XR) (o1 o2 : Off XR) hd left1 left2 q (s1 s2 s1' : ShipSt XR) n' q',
    s2.h + o2.h = s1.h + o1.h + dx → s2.v + o2.v = s1.v + o1.v + dy → left2 + o2.h = left1 + o1.h + dx →
    vNode o1 hd left1 n q s1 = .ok (s1', n', q') →
    ∃ s2' l, vNode o2 hd left2 n q s2 = .ok (s2', n', q') ∧ s1'.ops = s1.ops ++ l ∧ s2'.ops = s2.ops ++ l.map (moveOp dx dy) ∧
      s2'.h + o2.h = s1'.h + o1.h + dx ∧ s2'.v + o2.v = s1'.v + o1.v + dy

theorem moveHs {cs : List (TNode XR)} (ih : ∀ c ∈ cs, MoveH c) (dx dy : XR) (o1 o2 : Off XR) (hd : LHead XR) (base1 base2 : XR) (q : GlueSt XR)
    (s1 s2 s1' : ShipSt XR) (cs' : List (TNode XR))
    (hh : s2.h + o2.h = s1.h + o1.h + dx) (hv : s2.v + o2.v = s1.v + o1.v + dy) (hb : base2 + o2.v = base1 + o1.v + dy)
    (h : hLoop o1 hd base1 cs q s1 = .ok (s1', cs')) :
    ∃ s2' l, hLoop o2 hd base2 cs q s2 = .ok (s2', cs') ∧ s1'.ops = s1.ops ++ l ∧ s2'.ops = s2.ops ++ l.map (moveOp dx dy) ∧
      s2'.h + o2.h = s1'.h + o1.h + dx ∧ s2'.v + o2.v = s1'.v + o1.v + dy := by
  induction cs generalizing q s1 s2 cs' with
  | nil => rw [hLoop] at h; cases h; exact ⟨s2, [], by rw [hLoop], by simp, by simp, hh, hv⟩
  | cons n l ihl =>
    obtain ⟨t1, n1, q1, l1, e1, e2, rfl⟩ := hLoop_cons h
    obtain ⟨t2, d1, f1, a1, b1, hh1, hv1⟩ := ih n List.mem_cons_self dx dy o1 o2 hd base1 base2 q s1 s2 t1 n1 q1 hh hv hb e1
    obtain ⟨u2, d2, f2, a2, b2, hh2, hv2⟩ := ihl (fun c hc => ih c (List.mem_cons_of_mem _ hc)) _ _ _ _ hh1 hv1 e2
    exact ⟨u2, d1 ++ d2, hLoop_cons_eq f1 f2, by rw [a2, a1, List.append_assoc], by rw [b2, b1, List.map_append, List.append_assoc], hh2, hv2⟩

theorem moveVs {cs : List (TNode XR)} (ih : ∀ c ∈ cs, MoveV c) (dx dy : XR) (o1 o2 : Off XR) (hd : LHead XR) (base1 base2 : XR) (q : GlueSt XR)
    (s1 s2 s1' : ShipSt XR) (cs' : List (TNode XR))
    (hh : s2.h + o2.h = s1.h + o1.h + dx) (hv : s2.v + o2.v = s1.v + o1.v + dy) (hb : base2 + o2.h = base1 + o1.h + dx)
    (h : vLoop o1 hd base1 cs q s1 = .ok (s1', cs')) :
    ∃ s2' l, vLoop o2 hd base2 cs q s2 = .ok (s2', cs') ∧ s1'.ops = s1.ops ++ l ∧ s2'.ops = s2.ops ++ l.map (moveOp dx dy) ∧
      s2'.h + o2.h = s1'.h + o1.h + dx ∧ s2'.v + o2.v = s1'.v + o1.v + dy := by
  induction cs generalizing q s1 s2 cs' with
  | nil => rw [vLoop] at h; cases h; exact ⟨s2, [], by rw [vLoop], by simp, by simp, hh, hv⟩
  | cons n l ihl =>
    obtain ⟨t1, n1, q1, l1, e1, e2, rfl⟩ := vLoop_cons h
    obtain ⟨t2, d1, f1, a1, b1, hh1, hv1⟩ := ih n List.mem_cons_self dx dy o1 o2 hd base1 base2 q s1 s2 t1 n1 q1 hh hv hb e1
    obtain ⟨u2, d2, f2, a2, b2, hh2, hv2⟩ := ihl (fun c hc => ih c (List.mem_cons_of_mem _ hc)) _ _ _ _ hh1 hv1 e2
    exact ⟨u2, d1 ++ d2, vLoop_cons_eq f1 f2, by rw [a2, a1, List.append_assoc], by rw [b2, b1, List.map_append, List.append_assoc], hh2, hv2⟩

theorem moveOp_rule {x1 x2 y1 y2 dx dy : XR} (w h : XR) (hx : x2 = x1 + dx) (hy : y2 = y1 + dy) :
    renderRule x2 y2 w h = moveOp dx dy (renderRule x1 y1 w h) := by
  subst hx hy
  simp only [renderRule, moveOp, Draw.rect.injEq, true_and]
  exact ⟨by ac_rfl, by ac_rfl⟩

theorem move_leaf (n : TNode XR) (hn : ∀ k hd cs, n ≠ .list k hd cs) : MoveH n ∧ MoveV n := by
  constructor
  · intro dx dy o1 o2 hd base1 base2 q s1 s2 s1' n' q' hh hv hb h
    cases n with
    | list k hd cs => exact absurd rfl (hn _ _ _)
    | char c =>
      rw [hNode] at h; cases h
      refine ⟨_, [_], rfl, rfl, ?_, mv_add _ hh, hv⟩
      simp only [List.map_cons, List.map_nil, CharD.render, moveOp, ← hh, ← hv]
    | accent c =>
      rw [hNode] at h; cases h
      refine ⟨_, [_], rfl, rfl, ?_, mv_add _ hh, hv⟩
      simp only [List.map_cons, List.map_nil, CharD.renderAccent, moveOp, hh, hv, sub_add']
      rw [show s1.h + o1.h + dx + -c.metrics.xmin = s1.h + o1.h + -c.metrics.xmin + dx by ac_rfl,
        show s1.v + o1.v + dy + c.metrics.ymin = s1.v + o1.v + c.metrics.ymin + dy by ac_rfl]
    | kern k =>
      rw [hNode] at h; cases h
      exact ⟨_, [], rfl, by simp, by simp, mv_add _ hh, hv⟩
    | glue k =>
      rw [hNode] at h; cases h
      exact ⟨_, [], rfl, by simp, by simp, mv_add _ hh, hv⟩
    | box b =>
      rw [hNode] at h
      by_cases hc : (pos (if isInf b.height then hd.box.height else b.height) && pos b.width) = true
      · rw [if_pos hc] at h; cases h
      · rw [if_neg hc] at h; cases h
        exact ⟨{ s2 with h := s2.h + _ }, [], by rw [hNode, if_neg hc], by simp, by simp, mv_add _ hh, hv⟩
    | rule b =>
      rw [hNode] at h
      by_cases hc : (pos (if isInf b.height then hd.box.height else b.height) && pos b.width) = true
      · rw [if_pos hc] at h; cases h
        refine ⟨{ s2 with v := base2, h := s2.h + b.width, ops := s2.ops ++ [renderRule (s2.h + o2.h) (base2 + (if isInf b.depth then hd.box.depth else b.depth) + o2.v) b.width _] }, [_], by rw [hNode, if_pos hc], rfl, ?_, mv_add _ hh, hb⟩
        simp only [List.map_cons, List.map_nil]
        rw [moveOp_rule _ _ hh (mv_add _ hb)]
      · rw [if_neg hc] at h; cases h
        exact ⟨{ s2 with h := s2.h + _ }, [], by rw [hNode, if_neg hc], by simp, by simp, mv_add _ hh, hv⟩
  · intro dx dy o1 o2 hd base1 base2 q s1 s2 s1' n' q' hh hv hb h
    cases n with
    | list k hd cs => exact absurd rfl (hn _ _ _)
    | char c => rw [vNode] at h; cases h
    | accent c => rw [vNode] at h; cases h
    | kern k =>
      rw [vNode] at h; cases h
      exact ⟨_, [], rfl, by simp, by simp, hh, mv_add _ hv⟩
    | glue k =>
      rw [vNode] at h; cases h
      exact ⟨_, [], rfl, by simp, by simp, hh, mv_add _ hv⟩
    | box b =>
      rw [vNode] at h
      by_cases hc : (pos (b.height + b.depth) && pos b.depth) = true
      · rw [if_pos hc] at h; cases h
        exact ⟨{ s2 with v := s2.v + _ }, [], by rw [vNode, if_pos hc], by simp, by simp, hh, mv_add _ hv⟩
      · rw [if_neg hc] at h; cases h
        exact ⟨_, [], by rw [vNode, if_neg hc], by simp, by simp, hh, hv⟩
    | rule b =>
      rw [vNode] at h
      by_cases hc : (pos (b.height + b.depth) && pos b.depth) = true
      · rw [if_pos hc] at h; cases h
        refine ⟨{ s2 with v := s2.v + (b.height + b.depth), ops := s2.ops ++ [renderRule (s2.h + o2.h) (s2.v + (b.height + b.depth) + o2.v) _ _] }, [_], by rw [vNode, if_pos hc], rfl, ?_, hh, mv_add _ hv⟩
        simp only [List.map_cons, List.map_nil]
        rw [moveOp_rule _ _ hh (mv_add _ hv)]
      · rw [if_neg hc] at h; cases h
        exact ⟨_, [], by rw [vNode, if_neg hc], by simp, by simp, hh, hv⟩

theorem move_all (n : TNode XR) : MoveH n ∧ MoveV n := by
  refine tnode_ind (P := fun n => MoveH n ∧ MoveV n) (fun n hn => move_leaf n hn) ?_ n
  intro k nd cs ih
  have ihH := moveHs fun c hc => (ih c hc).1
  have ihV := moveVs fun c hc => (ih c hc).2
  constructor
  · intro dx dy o1 o2 hd base1 base2 q s1 s2 s1' n' q' hh hv hb h
    cases k with
    | plain =>
      rw [hNode] at h
      by_cases hc : (pos (if isInf nd.box.height then hd.box.height else nd.box.height) && pos nd.box.width) = true
      · rw [if_pos hc] at h; cases h
      · rw [if_neg hc] at h; cases h
        exact ⟨{ s2 with h := s2.h + _ }, [], by rw [hNode, if_neg hc], by simp, by simp, mv_add _ hh, hv⟩
    | h =>
      rw [hNode] at h
      cases he : cs.isEmpty with
      | true =>
        rw [if_pos he] at h; cases h
        exact ⟨{ s2 with h := s2.h + _ }, [], by rw [hNode, if_pos he], by simp, by simp, mv_add _ hh, hv⟩
      | false =>
        rw [if_neg (by simp [he])] at h
        obtain ⟨⟨t1, cs1⟩, e1, h⟩ := res_bind_ok h
        cases h
        obtain ⟨t2, l, f, a, b, _, _⟩ := ihH dx dy o1 o2 nd (base1 + nd.shift) (base2 + nd.shift) .zero
          { s1 with v := base1 + nd.shift }.push { s2 with v := base2 + nd.shift }.push t1 cs1 hh (mv_add _ hb) (mv_add _ hb) e1
        exact ⟨{ t2.pop with h := s2.h + nd.box.width, v := base2 }, l, by rw [hNode, if_neg (by simp [he]), f]; rfl, a, b, mv_add _ hh, hb⟩
    | v =>
      rw [hNode] at h
      cases he : cs.isEmpty with
      | true =>
        rw [if_pos he] at h; cases h
        exact ⟨{ s2 with h := s2.h + _ }, [], by rw [hNode, if_pos he], by simp, by simp, mv_add _ hh, hv⟩
      | false =>
        rw [if_neg (by simp [he])] at h
        obtain ⟨⟨t1, cs1⟩, e1, h⟩ := res_bind_ok h
        cases h
        obtain ⟨t2, l, f, a, b, _, _⟩ := ihV dx dy o1 o2 nd s1.h s2.h .zero
          { s1 with v := base1 + nd.shift - nd.box.height }.push { s2 with v := base2 + nd.shift - nd.box.height }.push t1 cs1 hh
          (mv_sub _ (mv_add _ hb)) hh e1
        exact ⟨{ t2.pop with h := s2.h + nd.box.width, v := base2 }, l, by rw [hNode, if_neg (by simp [he]), f]; rfl, a, b, mv_add _ hh, hb⟩
  · intro dx dy o1 o2 hd base1 base2 q s1 s2 s1' n' q' hh hv hb h
    cases k with
    | plain =>
      rw [vNode] at h
      by_cases hc : (pos (nd.box.height + nd.box.depth) && pos nd.box.depth) = true
      · rw [if_pos hc] at h; cases h
        exact ⟨{ s2 with v := s2.v + _ }, [], by rw [vNode, if_pos hc], by simp, by simp, hh, mv_add _ hv⟩
      · rw [if_neg hc] at h; cases h
        exact ⟨_, [], by rw [vNode, if_neg hc], by simp, by simp, hh, hv⟩
    | h =>
      rw [vNode] at h
      cases he : cs.isEmpty with
      | true =>
        rw [if_pos he] at h; cases h
        exact ⟨{ s2 with v := s2.v + _ }, [], by rw [vNode, if_pos he], by simp, by simp, hh, mv_add _ hv⟩
      | false =>
        rw [if_neg (by simp [he])] at h
        obtain ⟨⟨t1, cs1⟩, e1, h⟩ := res_bind_ok h
        cases h
        obtain ⟨t2, l, f, a, b, _, _⟩ := ihH dx dy o1 o2 { nd with box := { nd.box with width := hd.box.width } } (s1.v + nd.box.height)
          (s2.v + nd.box.height) .zero { s1 with v := s1.v + nd.box.height, h := base1 + nd.shift }.push
          { s2 with v := s2.v + nd.box.height, h := base2 + nd.shift }.push t1 cs1 (mv_add _ hb) (mv_add _ hv) (mv_add _ hv) e1
        exact ⟨{ t2.pop with v := s2.v + nd.box.height + nd.box.depth, h := base2 }, l, by
          rw [vNode, if_neg (by simp [he])]; dsimp only; rw [f]; rfl, a, b, hb, mv_add _ (mv_add _ hv)⟩
    | v =>
      rw [vNode] at h
      cases he : cs.isEmpty with
      | true =>
        rw [if_pos he] at h; cases h
        exact ⟨{ s2 with v := s2.v + _ }, [], by rw [vNode, if_pos he], by simp, by simp, hh, mv_add _ hv⟩
      | false =>
        rw [if_neg (by simp [he])] at h
        obtain ⟨⟨t1, cs1⟩, e1, h⟩ := res_bind_ok h
        cases h
        obtain ⟨t2, l, f, a, b, _, _⟩ := ihV dx dy o1 o2 { nd with box := { nd.box with width := hd.box.width } } (base1 + nd.shift)
          (base2 + nd.shift) .zero { s1 with v := s1.v + nd.box.height - nd.box.height, h := base1 + nd.shift }.push
          { s2 with v := s2.v + nd.box.height - nd.box.height, h := base2 + nd.shift }.push t1 cs1 (mv_add _ hb)
          (mv_sub _ (mv_add _ hv)) (mv_add _ hb) e1
        exact ⟨{ t2.pop with v := s2.v + nd.box.height + nd.box.depth, h := base2 }, l, by
          rw [vNode, if_neg (by simp [he])]; dsimp only; rw [f]; rfl, a, b, hb, mv_add _ (mv_add _ hv)⟩

end Verif
