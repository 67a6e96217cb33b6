import Verif.Spec.Paint
import Verif.Lemmas.ShipRun
/-! # Shipping paints -/

namespace Verif
open GoFloat Spec XR

theorem HRun.snoc {o : Off XR} {hd : LHead XR} {base : XR} {q st a q1 st1 a'} (h : HRun o hd base q st a q1 st1 a')
    {n : TNode XR} {q2 st2 n'} (hn : hNode o hd base n q1 st1 = .ok (st2, n', q2)) :
    HRun o hd base q st (a ++ [n]) q2 st2 (a' ++ [n']) := by
  induction h with
  | nil => exact .cons hn .nil
  | cons h _ ih => exact .cons h (ih hn)

theorem VRun.snoc {o : Off XR} {hd : LHead XR} {base : XR} {q st a q1 st1 a'} (h : VRun o hd base q st a q1 st1 a')
    {n : TNode XR} {q2 st2 n'} (hn : vNode o hd base n q1 st1 = .ok (st2, n', q2)) :
    VRun o hd base q st (a ++ [n]) q2 st2 (a' ++ [n']) := by
  induction h with
  | nil => exact .cons hn .nil
  | cons h _ ih => exact .cons h (ih hn)

def PaintsH (n : TNode XR) : Prop :=
  ∀ (o : Off XR) hd base q (st st' : ShipSt XR) n' q', hNode o hd base n q st = .ok (st', n', q') → st.v = base →
    st'.ops = st.ops ++ paintH hd (st.h + o.h) (base + o.v) n

def PaintsV (n : TNode XR) : Prop :=
  ∀ (o : Off XR) hd left q (st st' : ShipSt XR) n' q', vNode o hd left n q st = .ok (st', n', q') → st.h = left →
    st'.ops = st.ops ++ paintV hd (left + o.h) (st.v + o.v) n

theorem paintsHs {l : List (TNode XR)} (ih : ∀ c ∈ l, PaintsH c) {o : Off XR} {hd : LHead XR} {base : XR} (st0 : ShipSt XR)
    (h0 : st0.v = base) (pre : List (TNode XR)) {q st pre'} (r : HRun o hd base .zero st0 pre q st pre') {st' l'}
    (h : hLoop o hd base l q st = .ok (st', l')) :
    st'.ops = st.ops ++ paintHs hd (st0.h + o.h) (base + o.v) pre l := by
  induction l generalizing pre q st pre' l' with
  | nil => rw [hLoop] at h; cases h; simp [paintHs]
  | cons n l ihl =>
    obtain ⟨s1, n1, q1, l1, e1, e2, rfl⟩ := hLoop_cons h
    have hn := ih n List.mem_cons_self o hd base q st s1 n1 q1 e1 ((r.glue).2 h0)
    rw [ihl (fun c hc => ih c (List.mem_cons_of_mem _ hc)) (pre ++ [n]) (r.snoc e1) e2, hn, paintHs, r.advance,
      show st0.h + o.h + advance hd pre = st0.h + advance hd pre + o.h by ac_rfl, List.append_assoc]

theorem paintsVs {l : List (TNode XR)} (ih : ∀ c ∈ l, PaintsV c) {o : Off XR} {hd : LHead XR} {left : XR} (st0 : ShipSt XR)
    (h0 : st0.h = left) (pre : List (TNode XR)) {q st pre'} (r : VRun o hd left .zero st0 pre q st pre') {st' l'}
    (h : vLoop o hd left l q st = .ok (st', l')) :
    st'.ops = st.ops ++ paintVs hd (left + o.h) (st0.v + o.v) pre l := by
  induction l generalizing pre q st pre' l' with
  | nil => rw [vLoop] at h; cases h; simp [paintVs]
  | cons n l ihl =>
    obtain ⟨s1, n1, q1, l1, e1, e2, rfl⟩ := vLoop_cons h
    have hn := ih n List.mem_cons_self o hd left q st s1 n1 q1 e1 ((r.glue).2 h0)
    rw [ihl (fun c hc => ih c (List.mem_cons_of_mem _ hc)) (pre ++ [n]) (r.snoc e1) e2, hn, paintVs, r.advance,
      show st0.v + o.v + vadvance hd pre = st0.v + vadvance hd pre + o.v by ac_rfl, List.append_assoc]

theorem paints_leaf (n : TNode XR) (hn : ∀ k hd cs, n ≠ .list k hd cs) : PaintsH n ∧ PaintsV n := by
  constructor
  · intro o hd base q st st' n' q' h hv
    cases n with
    | list k hd cs => exact absurd rfl (hn _ _ _)
    | char c => rw [hNode] at h; cases h; rw [paintH, ← hv]; rfl
    | accent c => rw [hNode] at h; cases h; rw [paintH, ← hv]; rfl
    | kern k => rw [hNode] at h; cases h; simp [paintH]
    | glue k => rw [hNode] at h; cases h; simp [paintH]
    | box b =>
      rw [hNode] at h
      generalize (if isInf b.height = true then hd.box.height else b.height) = hh at h
      split at h <;> cases h
      simp [paintH]
    | rule b =>
      rw [hNode] at h
      rw [paintH]
      by_cases hc : (pos (if isInf b.height then hd.box.height else b.height) && pos b.width) = true
      · rw [if_pos hc] at h ⊢; cases h
        simp only [renderRule]
        generalize (if isInf b.height = true then hd.box.height else b.height) = hh
        generalize (if isInf b.depth = true then hd.box.depth else b.depth) = dd
        rw [show base + dd + o.v = base + o.v + dd by ac_rfl]
      · rw [if_neg hc] at h ⊢; cases h
        simp
  · intro o hd left q st st' n' q' h hv
    cases n with
    | list k hd cs => exact absurd rfl (hn _ _ _)
    | char c => rw [vNode] at h; cases h
    | accent c => rw [vNode] at h; cases h
    | kern k => rw [vNode] at h; cases h; simp [paintV]
    | glue k => rw [vNode] at h; cases h; simp [paintV]
    | box b =>
      rw [vNode] at h
      split at h <;> cases h <;> simp [paintV]
    | rule b =>
      rw [vNode] at h
      rw [paintV]
      by_cases hc : (pos (b.height + b.depth) && pos b.depth) = true
      · rw [if_pos hc] at h ⊢; cases h
        simp only [renderRule, hv]
        rw [show st.v + (b.height + b.depth) + o.v = st.v + o.v + (b.height + b.depth) by ac_rfl]
      · rw [if_neg hc] at h ⊢; cases h
        simp

theorem paints_all (n : TNode XR) : PaintsH n ∧ PaintsV n := by
  refine tnode_ind (P := fun n => PaintsH n ∧ PaintsV n) (fun n hn => paints_leaf n hn) ?_ n
  intro k nd cs ih
  have ihH := fun {o hd base} => paintsHs (fun c hc => (ih c hc).1) (o := o) (hd := hd) (base := base)
  have ihV := fun {o hd base} => paintsVs (fun c hc => (ih c hc).2) (o := o) (hd := hd) (left := base)
  constructor
  · intro o hd base q st st' n' q' h hv
    cases k with
    | plain =>
      rw [hNode] at h
      generalize (if isInf nd.box.height = true then hd.box.height else nd.box.height) = hh at h
      split at h <;> cases h
      simp [paintH]
    | h =>
      rw [hNode] at h
      rw [paintH]
      by_cases hc : cs.isEmpty = true
      · rw [if_pos hc] at h; cases h; rw [List.isEmpty_iff.1 hc, paintHs, List.append_nil]
      · rw [if_neg hc] at h
        obtain ⟨⟨s1, cs1⟩, e1, h⟩ := res_bind_ok h
        cases h
        have := ihH { st with v := base + nd.shift }.push rfl [] .nil e1
        show s1.ops = _
        rw [this]
        simp only [ShipSt.push]
        rw [show base + nd.shift + o.v = base + o.v + nd.shift by ac_rfl]
    | v =>
      rw [hNode] at h
      rw [paintH]
      by_cases hc : cs.isEmpty = true
      · rw [if_pos hc] at h; cases h; rw [List.isEmpty_iff.1 hc, paintVs, List.append_nil]
      · rw [if_neg hc] at h
        obtain ⟨⟨s1, cs1⟩, e1, h⟩ := res_bind_ok h
        cases h
        have := ihV { st with v := base + nd.shift - nd.box.height }.push rfl [] .nil e1
        show s1.ops = _
        rw [this]
        simp only [ShipSt.push, sub_add']
        rw [show base + nd.shift + -nd.box.height + o.v = base + o.v + nd.shift + -nd.box.height by ac_rfl]
  · intro o hd left q st st' n' q' h hv
    cases k with
    | plain => rw [vNode] at h; split at h <;> cases h <;> simp [paintV]
    | h =>
      rw [vNode] at h
      rw [paintV]
      by_cases hc : cs.isEmpty = true
      · rw [if_pos hc] at h; cases h; rw [List.isEmpty_iff.1 hc, paintHs, List.append_nil]
      · rw [if_neg hc] at h
        obtain ⟨⟨s1, cs1⟩, e1, h⟩ := res_bind_ok h
        cases h
        rw [hLoop_width] at e1
        have := ihH { st with v := st.v + nd.box.height, h := left + nd.shift }.push rfl [] .nil e1
        show s1.ops = _
        rw [this]
        simp only [ShipSt.push]
        rw [show left + nd.shift + o.h = left + o.h + nd.shift by ac_rfl,
          show st.v + nd.box.height + o.v = st.v + o.v + nd.box.height by ac_rfl]
    | v =>
      rw [vNode] at h
      rw [paintV]
      by_cases hc : cs.isEmpty = true
      · rw [if_pos hc] at h; cases h; rw [List.isEmpty_iff.1 hc, paintVs, List.append_nil]
      · rw [if_neg hc] at h
        obtain ⟨⟨s1, cs1⟩, e1, h⟩ := res_bind_ok h
        cases h
        have := ihV { st with v := st.v + nd.box.height - nd.box.height, h := left + nd.shift }.push rfl [] .nil e1
        show s1.ops = _
        rw [this]
        simp only [ShipSt.push, sub_add']
        rw [show left + nd.shift + o.h = left + o.h + nd.shift by ac_rfl,
          show st.v + nd.box.height + -nd.box.height + o.v = st.v + o.v + nd.box.height + -nd.box.height by ac_rfl]

end Verif
