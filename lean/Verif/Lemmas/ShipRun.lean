import Verif.Lemmas.ShipMove
/-! # Where the nodes of a list are drawn -/

namespace Verif
open GoFloat Spec XR

section
variable {F : Type} [GoFloat F]

/-- The loop of `hlistOut` over the nodes `a`, with the glue variables. -/
inductive HRun (o : Off F) (hd : LHead F) (base : F) : GlueSt F → ShipSt F → List (TNode F) → GlueSt F → ShipSt F → List (TNode F) → Prop
  | nil {q st} : HRun o hd base q st [] q st []
  | cons {q st n q1 st1 n' a q2 st2 a'} : hNode o hd base n q st = .ok (st1, n', q1) → HRun o hd base q1 st1 a q2 st2 a' →
      HRun o hd base q st (n :: a) q2 st2 (n' :: a')

/-- The loop of `vlistOut` over the nodes `a`, with the glue variables. -/
inductive VRun (o : Off F) (hd : LHead F) (left : F) : GlueSt F → ShipSt F → List (TNode F) → GlueSt F → ShipSt F → List (TNode F) → Prop
  | nil {q st} : VRun o hd left q st [] q st []
  | cons {q st n q1 st1 n' a q2 st2 a'} : vNode o hd left n q st = .ok (st1, n', q1) → VRun o hd left q1 st1 a q2 st2 a' →
      VRun o hd left q st (n :: a) q2 st2 (n' :: a')

theorem hLoop_append {o : Off F} {hd : LHead F} {base : F} (a b : List (TNode F)) {q st st' cs'}
    (h : hLoop o hd base (a ++ b) q st = .ok (st', cs')) :
    ∃ q1 st1 a' b', HRun o hd base q st a q1 st1 a' ∧ hLoop o hd base b q1 st1 = .ok (st', b') ∧ cs' = a' ++ b' := by
  induction a generalizing q st cs' with
  | nil => exact ⟨q, st, [], cs', .nil, h, rfl⟩
  | cons n l ih =>
    obtain ⟨st1, n1, q1, l1, e1, e2, rfl⟩ := hLoop_cons h
    obtain ⟨q2, st2, a', b', r, e3, rfl⟩ := ih e2
    exact ⟨q2, st2, n1 :: a', b', .cons e1 r, e3, rfl⟩

theorem vLoop_append {o : Off F} {hd : LHead F} {base : F} (a b : List (TNode F)) {q st st' cs'}
    (h : vLoop o hd base (a ++ b) q st = .ok (st', cs')) :
    ∃ q1 st1 a' b', VRun o hd base q st a q1 st1 a' ∧ vLoop o hd base b q1 st1 = .ok (st', b') ∧ cs' = a' ++ b' := by
  induction a generalizing q st cs' with
  | nil => exact ⟨q, st, [], cs', .nil, h, rfl⟩
  | cons n l ih =>
    obtain ⟨st1, n1, q1, l1, e1, e2, rfl⟩ := vLoop_cons h
    obtain ⟨q2, st2, a', b', r, e3, rfl⟩ := ih e2
    exact ⟨q2, st2, n1 :: a', b', .cons e1 r, e3, rfl⟩

theorem HRun.loop {o : Off F} {hd : LHead F} {base : F} {q st a q1 st1 a'} (h : HRun o hd base q st a q1 st1 a') :
    hLoop o hd base a q st = .ok (st1, a') := by
  induction h with
  | nil => rw [hLoop]
  | cons h _ ih => exact hLoop_cons_eq h ih

theorem VRun.loop {o : Off F} {hd : LHead F} {base : F} {q st a q1 st1 a'} (h : VRun o hd base q st a q1 st1 a') :
    vLoop o hd base a q st = .ok (st1, a') := by
  induction h with
  | nil => rw [vLoop]
  | cons h _ ih => exact vLoop_cons_eq h ih

theorem hLoop_join {o : Off F} {hd : LHead F} {base : F} {a b : List (TNode F)} {q st q1 st1 a' st' b'}
    (h : HRun o hd base q st a q1 st1 a') (hb : hLoop o hd base b q1 st1 = .ok (st', b')) :
    hLoop o hd base (a ++ b) q st = .ok (st', a' ++ b') := by
  induction h with
  | nil => exact hb
  | cons h _ ih => exact hLoop_cons_eq h (ih hb)

/-- The width of the header of a horizontal list does not matter. -/
theorem hNode_width (o : Off F) (hd : LHead F) (w base : F) (n : TNode F) (q : GlueSt F) (st : ShipSt F) :
    hNode o { hd with box := { hd.box with width := w } } base n q st = hNode o hd base n q st := by
  cases n with
  | list k nd cs => cases k <;> rw [hNode, hNode]
  | _ => rw [hNode, hNode] <;> rfl

theorem hLoop_width {o : Off F} {hd : LHead F} {w base : F} {cs : List (TNode F)} {q : GlueSt F} {st : ShipSt F} :
    hLoop o { hd with box := { hd.box with width := w } } base cs q st = hLoop o hd base cs q st := by
  induction cs generalizing q st with
  | nil => rw [hLoop, hLoop]
  | cons n l ih => rw [hLoop, hLoop, hNode_width]; congr 1; funext ⟨a, b, c⟩; simp only [ih]

/-- The shift of the header of a vertical list does not matter to its nodes. -/
theorem vNode_shift (o : Off F) (hd : LHead F) (s left : F) (n : TNode F) (q : GlueSt F) (st : ShipSt F) :
    vNode o { hd with shift := s } left n q st = vNode o hd left n q st := by
  cases n with
  | list k nd cs => cases k <;> rw [vNode, vNode]
  | _ => rw [vNode, vNode] <;> rfl

theorem vLoop_shift (o : Off F) (s : F) {hd : LHead F} {left : F} {cs : List (TNode F)} {q : GlueSt F} {st : ShipSt F} :
    vLoop o hd left cs q st = vLoop o { hd with shift := s } left cs q st := by
  induction cs generalizing q st with
  | nil => rw [vLoop, vLoop]
  | cons n l ih => rw [vLoop, vLoop, vNode_shift o hd s]; congr 1; funext ⟨a, b, c⟩; simp only [← ih]

theorem hLoop_run {o : Off F} {hd : LHead F} {base : F} {a : List (TNode F)} {q st st' a'}
    (h : hLoop o hd base a q st = .ok (st', a')) : ∃ q1, HRun o hd base q st a q1 st' a' := by
  obtain ⟨q1, st1, a1, b1, r, e, rfl⟩ := hLoop_append a [] (by simpa using h)
  rw [hLoop] at e; cases e
  exact ⟨q1, by simpa using r⟩

theorem vLoop_run {o : Off F} {hd : LHead F} {base : F} {a : List (TNode F)} {q st st' a'}
    (h : vLoop o hd base a q st = .ok (st', a')) : ∃ q1, VRun o hd base q st a q1 st' a' := by
  obtain ⟨q1, st1, a1, b1, r, e, rfl⟩ := vLoop_append a [] (by simpa using h)
  rw [vLoop] at e; cases e
  exact ⟨q1, by simpa using r⟩

/-- The glue variables after some nodes. -/
def glueRun (hd : LHead F) (a : List (TNode F)) (q : GlueSt F) : GlueSt F :=
  (gluesOf a).foldl (fun q g => (glueStep hd g q).2) q

theorem glueRun_cons (hd : LHead F) (n : TNode F) (a : List (TNode F)) (q : GlueSt F) :
    glueRun hd (n :: a) q = glueRun hd a (glueRun hd [n] q) := by
  cases n <;> rfl

theorem gluesOf_solid {n : TNode F} (h : isSolid n = true) : gluesOf [n] = [] := by
  cases n <;> first | rfl | cases h

/-- How far a node moves the pen, `w` being its size. -/
def penStep (hd : LHead F) (q : GlueSt F) (n : TNode F) (w : F) : F :=
  match n with
  | .glue g => (glueStep hd g q).1
  | _ => w

theorem hNode_step {o : Off F} {hd : LHead F} {base : F} {n : TNode F} {q st st1 n' q1} (h : hNode o hd base n q st = .ok (st1, n', q1)) :
    q1 = glueRun hd [n] q ∧ (st.v = base → st1.v = base) ∧
      st1.h = st.h + penStep hd q n n.width := by
  cases n with
  | glue g => rw [hNode] at h; cases h; exact ⟨rfl, id, rfl⟩
  | char g => rw [hNode] at h; cases h; exact ⟨rfl, id, rfl⟩
  | accent g => rw [hNode] at h; cases h; exact ⟨rfl, id, rfl⟩
  | kern g => rw [hNode] at h; cases h; exact ⟨rfl, id, rfl⟩
  | box b =>
    rw [hNode] at h
    by_cases hc : (pos (if isInf b.height then hd.box.height else b.height) && pos b.width) = true
    · rw [if_pos hc] at h; cases h
    · rw [if_neg hc] at h; cases h; exact ⟨rfl, id, rfl⟩
  | rule b =>
    rw [hNode] at h
    by_cases hc : (pos (if isInf b.height then hd.box.height else b.height) && pos b.width) = true
    · rw [if_pos hc] at h; cases h; exact ⟨rfl, fun _ => rfl, rfl⟩
    · rw [if_neg hc] at h; cases h; exact ⟨rfl, id, rfl⟩
  | list k nd cs =>
    cases k with
    | plain =>
      rw [hNode] at h
      by_cases hc : (pos (if isInf nd.box.height then hd.box.height else nd.box.height) && pos nd.box.width) = true
      · rw [if_pos hc] at h; cases h
      · rw [if_neg hc] at h; cases h; exact ⟨rfl, id, rfl⟩
    | h =>
      rw [hNode] at h
      by_cases hc : cs.isEmpty = true
      · rw [if_pos hc] at h; cases h; exact ⟨rfl, id, rfl⟩
      · rw [if_neg hc] at h
        obtain ⟨⟨s1, cs1⟩, e1, h⟩ := res_bind_ok h
        cases h; exact ⟨rfl, fun _ => rfl, rfl⟩
    | v =>
      rw [hNode] at h
      by_cases hc : cs.isEmpty = true
      · rw [if_pos hc] at h; cases h; exact ⟨rfl, id, rfl⟩
      · rw [if_neg hc] at h
        obtain ⟨⟨s1, cs1⟩, e1, h⟩ := res_bind_ok h
        cases h; exact ⟨rfl, fun _ => rfl, rfl⟩

/-- The result for solid nodes does not depend on the glue variables. -/
theorem hNode_solid {o : Off F} {hd : LHead F} {base : F} {n : TNode F} (hs : isSolid n = true) {q st st1 n' q1}
    (h : hNode o hd base n q st = .ok (st1, n', q1)) (q2 : GlueSt F) : hNode o hd base n q2 st = .ok (st1, n', q2) := by
  cases n with
  | glue g => cases hs
  | char g => rw [hNode] at h ⊢; cases h; rfl
  | accent g => rw [hNode] at h ⊢; cases h; rfl
  | kern g => rw [hNode] at h ⊢; cases h; rfl
  | box b =>
    rw [hNode] at h ⊢
    by_cases hc : (pos (if isInf b.height then hd.box.height else b.height) && pos b.width) = true
    · rw [if_pos hc] at h; cases h
    · rw [if_neg hc] at h ⊢; cases h; rfl
  | rule b =>
    rw [hNode] at h ⊢
    by_cases hc : (pos (if isInf b.height then hd.box.height else b.height) && pos b.width) = true
    · rw [if_pos hc] at h ⊢; cases h; rfl
    · rw [if_neg hc] at h ⊢; cases h; rfl
  | list k nd cs =>
    cases k with
    | plain =>
      rw [hNode] at h ⊢
      by_cases hc : (pos (if isInf nd.box.height then hd.box.height else nd.box.height) && pos nd.box.width) = true
      · rw [if_pos hc] at h; cases h
      · rw [if_neg hc] at h ⊢; cases h; rfl
    | h =>
      rw [hNode] at h ⊢
      by_cases hc : cs.isEmpty = true
      · rw [if_pos hc] at h ⊢; cases h; rfl
      · rw [if_neg hc] at h ⊢
        obtain ⟨⟨s1, cs1⟩, e1, h⟩ := res_bind_ok h
        rw [e1]; cases h; rfl
    | v =>
      rw [hNode] at h ⊢
      by_cases hc : cs.isEmpty = true
      · rw [if_pos hc] at h ⊢; cases h; rfl
      · rw [if_neg hc] at h ⊢
        obtain ⟨⟨s1, cs1⟩, e1, h⟩ := res_bind_ok h
        rw [e1]; cases h; rfl

theorem HRun.glue {o : Off F} {hd : LHead F} {base : F} {q st a q1 st1 a'} (h : HRun o hd base q st a q1 st1 a') :
    q1 = glueRun hd a q ∧ (st.v = base → st1.v = base) := by
  induction h with
  | nil => exact ⟨rfl, id⟩
  | cons h _ ih =>
    obtain ⟨e1, e2, _⟩ := hNode_step h
    exact ⟨by rw [glueRun_cons, ih.1, e1], fun hv => ih.2 (e2 hv)⟩

theorem vNode_step {o : Off F} {hd : LHead F} {left : F} {n : TNode F} {q st st1 n' q1} (h : vNode o hd left n q st = .ok (st1, n', q1)) :
    q1 = glueRun hd [n] q ∧ (st.h = left → st1.h = left) := by
  cases n with
  | glue g => rw [vNode] at h; cases h; exact ⟨rfl, id⟩
  | char g => rw [vNode] at h; cases h
  | accent g => rw [vNode] at h; cases h
  | kern g => rw [vNode] at h; cases h; exact ⟨rfl, id⟩
  | box b => rw [vNode] at h; split at h <;> cases h <;> exact ⟨rfl, id⟩
  | rule b => rw [vNode] at h; split at h <;> cases h <;> exact ⟨rfl, id⟩
  | list k nd cs =>
    cases k with
    | plain => rw [vNode] at h; split at h <;> cases h <;> exact ⟨rfl, id⟩
    | h =>
      rw [vNode] at h
      by_cases hc : cs.isEmpty = true
      · rw [if_pos hc] at h; cases h; exact ⟨rfl, id⟩
      · rw [if_neg hc] at h
        obtain ⟨⟨s1, cs1⟩, e1, h⟩ := res_bind_ok h
        cases h; exact ⟨rfl, fun _ => rfl⟩
    | v =>
      rw [vNode] at h
      by_cases hc : cs.isEmpty = true
      · rw [if_pos hc] at h; cases h; exact ⟨rfl, id⟩
      · rw [if_neg hc] at h
        obtain ⟨⟨s1, cs1⟩, e1, h⟩ := res_bind_ok h
        cases h; exact ⟨rfl, fun _ => rfl⟩

theorem VRun.glue {o : Off F} {hd : LHead F} {base : F} {q st a q1 st1 a'} (h : VRun o hd base q st a q1 st1 a') :
    q1 = glueRun hd a q ∧ (st.h = base → st1.h = base) := by
  induction h with
  | nil => exact ⟨rfl, id⟩
  | cons h _ ih =>
    obtain ⟨e1, e2⟩ := vNode_step h
    exact ⟨by rw [glueRun_cons, ih.1, e1], fun hv => ih.2 (e2 hv)⟩

/-- What the glue variables hold after some glues. -/
theorem glueRun_spec (hd : LHead F) (gs : List (GlueD F)) (q : GlueSt F) :
    gs.foldl (fun q g => (glueStep hd g q).2) q =
      if hd.sign = 0 then q
      else if hd.sign = 1 then
        if gs.all (·.stretchOrder ≠ hd.order) then q
        else
          let t := (gs.filter (·.stretchOrder = hd.order)).foldl (fun t g => t + g.stretch) q.glue
          ⟨round (clamp (hd.set * t)), t⟩
      else if gs.all (·.shrinkOrder ≠ hd.order) then q
        else
          let t := (gs.filter (·.shrinkOrder = hd.order)).foldl (fun t g => t + g.shrink) q.glue
          ⟨round (clamp (hd.set * t)), t⟩ := by
  induction gs generalizing q with
  | nil => simp
  | cons g l ih =>
    rw [List.foldl_cons, ih]
    by_cases h0 : hd.sign = 0
    · simp [h0, glueStep]
    · by_cases h1 : hd.sign = 1
      · by_cases ho : g.stretchOrder = hd.order
        · by_cases hl : l.all (·.stretchOrder ≠ hd.order) = true
          · have : l.filter (·.stretchOrder = hd.order) = [] := by
              rw [List.filter_eq_nil_iff]; simpa using hl
            simp [h1, ho, glueStep, this]
          · simp [h1, ho, glueStep]
            intro hl'; exact absurd (List.all_eq_true.2 (by simpa using hl')) hl
        · simp [h1, ho, glueStep]
      · by_cases ho : g.shrinkOrder = hd.order
        · by_cases hl : l.all (·.shrinkOrder ≠ hd.order) = true
          · have : l.filter (·.shrinkOrder = hd.order) = [] := by
              rw [List.filter_eq_nil_iff]; simpa using hl
            simp [h0, h1, ho, glueStep, this]
          · simp [h0, h1, ho, glueStep]
            intro hl'; exact absurd (List.all_eq_true.2 (by simpa using hl')) hl
        · simp [h0, h1, ho, glueStep]

theorem glueRun_offset (hd : LHead F) (a : List (TNode F)) : (glueRun hd a .zero).g = glueOffset hd a := by
  rw [glueRun, glueRun_spec, glueOffset]
  simp only [apply_ite GlueSt.g]
  rfl

end

/-! ## Exact positions -/

theorem add_int_cancel (a : XR) (m n : Int) : a - ofInt m + ofInt n + ofInt m = a + ofInt n := by
  rw [sub_add']
  simp only [ofInt_fin, fin_neg]
  calc a + fin (-(m : ℚ)) + fin n + fin m = a + fin n + (fin (-(m : ℚ)) + fin m) := by ac_rfl
    _ = a + fin n := by rw [fin_add, neg_add_cancel, add_zero']

theorem add_int_right {a b : XR} (m : Int) (h : a + ofInt m = b + ofInt m) : a = b := by
  have : a + ofInt m - ofInt m = b + ofInt m - ofInt m := by rw [h]
  simp only [sub_add', ofInt_fin, fin_neg, add_assoc', fin_add, add_neg_cancel, add_zero'] at this
  exact this

theorem foldl_add_start {α : Type} (f : α → XR) (l : List α) (a : XR) :
    l.foldl (fun x n => x + f n) a = a + l.foldl (fun x n => x + f n) (fin 0) := by
  induction l generalizing a with
  | nil => simp [add_zero']
  | cons b l ih => rw [List.foldl_cons, ih, List.foldl_cons, ih (fin 0 + f b), zero_add', add_assoc']

theorem HRun.pen {o : Off XR} {hd : LHead XR} {base : XR} {q st a q1 st1 a'} (h : HRun o hd base q st a q1 st1 a') :
    st1.h + ofInt q.g = st.h + a.foldl (fun x n => x + n.width) (fin 0) + ofInt q1.g := by
  induction h with
  | nil => simp [add_zero']
  | @cons q st n q1 st1 n' a q2 st2 a' h _ ih =>
    obtain ⟨e1, _, e3⟩ := hNode_step h
    rw [List.foldl_cons, foldl_add_start, zero_add']
    cases n with
    | glue g =>
      have e1' : q1 = (glueStep hd g q).2 := e1
      have e3' : st1.h = st.h + (g.width - ofInt q.g + ofInt q1.g) := by rw [e3, e1']; rfl
      apply add_int_right q1.g
      calc st2.h + ofInt q.g + ofInt q1.g = (st2.h + ofInt q1.g) + ofInt q.g := by ac_rfl
        _ = st.h + (g.width - ofInt q.g + ofInt q1.g) + a.foldl (fun x n => x + n.width) (fin 0) + ofInt q2.g + ofInt q.g := by rw [ih, e3']
        _ = st.h + (g.width - ofInt q.g + ofInt q1.g + ofInt q.g) + a.foldl (fun x n => x + n.width) (fin 0) + ofInt q2.g := by ac_rfl
        _ = _ := by rw [add_int_cancel]; show _ = st.h + (g.width + _) + _ + _; ac_rfl
    | _ =>
      have e1' : q1 = q := e1
      subst e1'
      rw [ih, e3]; simp only [penStep]; ac_rfl

theorem HRun.advance {o : Off XR} {hd : LHead XR} {base : XR} {st a q1 st1 a'} (h : HRun o hd base .zero st a q1 st1 a') :
    st1.h = st.h + Spec.advance hd a := by
  have := h.pen
  rw [(h.glue).1, glueRun_offset] at this
  simp only [GlueSt.zero, ofInt_fin, Int.cast_zero, add_zero'] at this
  rw [this, Spec.advance, naturalWidth, zero_fin, ofInt_fin]; ac_rfl

theorem vNode_pen {o : Off XR} {hd : LHead XR} {left : XR} {n : TNode XR} {q st st1 n' q1} (h : vNode o hd left n q st = .ok (st1, n', q1)) :
    st1.v = st.v + penStep hd q n (vspace n) := by
  cases n with
  | glue g => rw [vNode] at h; cases h; rfl
  | char g => rw [vNode] at h; cases h
  | accent g => rw [vNode] at h; cases h
  | kern g => rw [vNode] at h; cases h; rfl
  | box b =>
    rw [vNode] at h
    show _ = _ + (if pos (b.height + b.depth) && pos b.depth then b.height + b.depth else zero)
    split at h <;> cases h
    · rw [if_pos ‹_›]
    · rw [if_neg ‹_›, zero_fin, add_zero']
  | rule b =>
    rw [vNode] at h
    show _ = _ + (if pos (b.height + b.depth) && pos b.depth then b.height + b.depth else zero)
    by_cases hc : (pos (b.height + b.depth) && pos b.depth) = true
    · rw [if_pos hc] at h ⊢; cases h; rfl
    · rw [if_neg hc] at h ⊢; cases h; rw [zero_fin, add_zero']
  | list k nd cs =>
    cases k with
    | plain =>
      rw [vNode] at h
      show _ = _ + (if pos (nd.box.height + nd.box.depth) && pos nd.box.depth then nd.box.height + nd.box.depth else zero)
      split at h <;> cases h
      · rw [if_pos ‹_›]
      · rw [if_neg ‹_›, zero_fin, add_zero']
    | h =>
      rw [vNode] at h
      by_cases hc : cs.isEmpty = true
      · rw [if_pos hc] at h; cases h; rfl
      · rw [if_neg hc] at h
        obtain ⟨⟨s1, cs1⟩, e1, h⟩ := res_bind_ok h
        cases h; exact add_assoc' _ _ _
    | v =>
      rw [vNode] at h
      by_cases hc : cs.isEmpty = true
      · rw [if_pos hc] at h; cases h; rfl
      · rw [if_neg hc] at h
        obtain ⟨⟨s1, cs1⟩, e1, h⟩ := res_bind_ok h
        cases h; exact add_assoc' _ _ _

theorem VRun.pen {o : Off XR} {hd : LHead XR} {base : XR} {q st a q1 st1 a'} (h : VRun o hd base q st a q1 st1 a') :
    st1.v + ofInt q.g = st.v + a.foldl (fun x n => x + vspace n) (fin 0) + ofInt q1.g := by
  induction h with
  | nil => simp [add_zero']
  | @cons q st n q1 st1 n' a q2 st2 a' h _ ih =>
    obtain ⟨e1, _⟩ := vNode_step h
    have e3 := vNode_pen h
    rw [List.foldl_cons, foldl_add_start, zero_add']
    cases n with
    | glue g =>
      have e1' : q1 = (glueStep hd g q).2 := e1
      have e3' : st1.v = st.v + (g.width - ofInt q.g + ofInt q1.g) := by rw [e3, e1']; rfl
      apply add_int_right q1.g
      calc st2.v + ofInt q.g + ofInt q1.g = (st2.v + ofInt q1.g) + ofInt q.g := by ac_rfl
        _ = st.v + (g.width - ofInt q.g + ofInt q1.g) + a.foldl (fun x n => x + vspace n) (fin 0) + ofInt q2.g + ofInt q.g := by rw [ih, e3']
        _ = st.v + (g.width - ofInt q.g + ofInt q1.g + ofInt q.g) + a.foldl (fun x n => x + vspace n) (fin 0) + ofInt q2.g := by ac_rfl
        _ = _ := by rw [add_int_cancel]; show _ = st.v + (g.width + _) + _ + _; ac_rfl
    | _ =>
      have e1' : q1 = q := e1
      subst e1'
      rw [ih, e3]; simp only [penStep]; ac_rfl

theorem VRun.advance {o : Off XR} {hd : LHead XR} {base : XR} {st a q1 st1 a'} (h : VRun o hd base .zero st a q1 st1 a') :
    st1.v = st.v + Spec.vadvance hd a := by
  have := h.pen
  rw [(h.glue).1, glueRun_offset] at this
  simp only [GlueSt.zero, ofInt_fin, Int.cast_zero, add_zero'] at this
  rw [this, Spec.vadvance, zero_fin, ofInt_fin]; ac_rfl

end Verif
