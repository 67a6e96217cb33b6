import Verif.Spec.Finite
import Verif.Lemmas.Built
import Verif.Lemmas.Exact
import Verif.Spec.Paint
/-! # Numbers stay numbers -/

namespace Verif.Spec
open Verif GoFloat XR

theorem IsNum.add {a b : XR} : IsNum a → IsNum b → IsNum (a + b) := by rintro ⟨p, rfl⟩ ⟨q, rfl⟩; exact ⟨_, fin_add p q⟩
theorem IsNum.sub {a b : XR} : IsNum a → IsNum b → IsNum (a - b) := by rintro ⟨p, rfl⟩ ⟨q, rfl⟩; exact ⟨_, fin_sub p q⟩
theorem IsNum.mul {a b : XR} : IsNum a → IsNum b → IsNum (a * b) := by rintro ⟨p, rfl⟩ ⟨q, rfl⟩; exact ⟨_, fin_mul p q⟩
theorem IsNum.neg {a : XR} : IsNum a → IsNum (-a) := by rintro ⟨p, rfl⟩; exact ⟨_, fin_neg p⟩
theorem IsNum.max {a b : XR} : IsNum a → IsNum b → IsNum (GoFloat.max a b) := by
  rintro ⟨p, rfl⟩ ⟨q, rfl⟩; exact ⟨_, fin_max p q⟩
theorem IsNum.div {a b : XR} : IsNum a → IsNum b → b ≠ .fin 0 → IsNum (a / b) := by
  rintro ⟨p, rfl⟩ ⟨q, rfl⟩ h
  exact ⟨_, fin_div p q (fun e => h (by rw [e]))⟩
theorem IsNum.rat (a : Int) (b : Nat) : IsNum (ofRat a b) := ⟨_, rfl⟩
theorem IsNum.int (a : Int) : IsNum (ofInt a) := IsNum.rat _ _
theorem IsNum.zero : IsNum (GoFloat.zero : XR) := ⟨0, zero_fin⟩
theorem IsNum.isInf {a : XR} : IsNum a → GoFloat.isInf a = false := by rintro ⟨p, rfl⟩; rfl
theorem IsPos.num {a : XR} : IsPos a → IsNum a := by rintro ⟨p, _, rfl⟩; exact ⟨_, rfl⟩

/-- a number that is not negative -/
def IsNN (x : XR) : Prop := ∃ q : ℚ, 0 ≤ q ∧ x = .fin q
theorem IsNN.num {a : XR} : IsNN a → IsNum a := by rintro ⟨p, _, rfl⟩; exact ⟨_, rfl⟩
theorem IsNN.max {a b : XR} : IsNN a → IsNum b → IsNN (GoFloat.max a b) := by
  rintro ⟨p, h, rfl⟩ ⟨q, rfl⟩; exact ⟨_, le_max_of_le_left h, fin_max p q⟩
theorem IsNN.zero : IsNN (GoFloat.zero : XR) := ⟨0, le_rfl, zero_fin⟩

theorem NumNode.width {n : TNode XR} (h : NumNode n) : IsNum n.width := by
  cases n <;> first | exact h.1 | exact h | exact h.elim
theorem NumNode.hd {n : TNode XR} (h : NumNode n) : IsNum n.height ∧ IsNum n.depth := by
  cases n <;> first | exact ⟨h.2.1, h.2.2.1⟩ | exact ⟨h.2.1, h.2.2⟩ | exact ⟨IsNum.zero, IsNum.zero⟩ | exact h.elim

end Verif.Spec

namespace Verif
open Spec GoFloat XR

/-- The accumulators are numbers, and the last two are not negative. -/
def NumDims (p : Dims XR) : Prop := IsNum p.x ∧ IsNN p.a ∧ IsNN p.b

theorem numDims_zero : NumDims Dims.zero := ⟨IsNum.zero, IsNN.zero, IsNN.zero⟩

theorem hpackDims_num {n : TNode XR} (h : NumNode n) {p : Dims XR} (hp : NumDims p) : NumDims (hpackDims n p) := by
  obtain ⟨h1, h2, h3⟩ := hp
  cases n with
  | box b =>
    obtain ⟨w, a, d⟩ := h
    simp only [hpackDims, a.isInf, d.isInf, Bool.or_self, Bool.false_eq_true, if_false]
    exact ⟨h1.add w, h2.max a, h3.max d⟩
  | char c => exact ⟨h1.add h.1, h2.max h.2.1, h3.max h.2.2.1⟩
  | accent c => exact h.elim
  | list k hd cs =>
    obtain ⟨w, a, d, s⟩ := h
    simp only [hpackDims, a.isInf, d.isInf, Bool.or_self, Bool.false_eq_true, if_false]
    exact ⟨h1.add w, h2.max (a.sub s), h3.max (d.add s)⟩
  | rule b => exact h.elim
  | glue g => exact ⟨h1.add h, h2, h3⟩
  | kern k => exact ⟨h1.add h, h2, h3⟩

theorem hpackAll_num {l : List (TNode XR)} (h : ∀ n ∈ l, NumNode n) {p : Dims XR} (hp : NumDims p) :
    NumDims (l.foldl (fun p n => hpackDims n p) p) := by
  induction l generalizing p with
  | nil => exact hp
  | cons n l ih => exact ih (fun n hn => h n (by simp [hn])) (hpackDims_num (h n (by simp)) hp)

theorem hpack_num {l : List (TNode XR)} (h : ∀ n ∈ l, NumNode n) (hd : LHead XR) (w : XR) (hw : IsNum w) (add : Bool) :
    IsNum (hpack hd l w add).box.width ∧ IsNN (hpack hd l w add).box.height ∧ IsNN (hpack hd l w add).box.depth ∧
      (hpack hd l w add).shift = hd.shift := by
  have hp := hpackAll_num h numDims_zero
  unfold hpack
  rw [(finishGlue_box _ _ _ _).1, (finishGlue_box _ _ _ _).2]
  refine ⟨?_, hp.2.1, hp.2.2, rfl⟩
  cases add
  · exact hw
  · exact hw.add hp.1

theorem kerning_num {be : Backend XR} (hb : Numeric be) {n : TNode XR} (h : NumNode n) (o : Option (TNode XR))
    (ho : ∀ m, o = some m → NumNode m) : IsNum (n.kerning be o) := by
  cases n with
  | char c =>
    show IsNum (c.kerning be o)
    unfold CharD.kerning
    refine (h.2.2.2.1.sub h.1).add ?_
    split
    · exact hb.kern _ _ _ _ _ h.2.2.2.2.1 (ho _ rfl).2.2.2.2.1 h.2.2.2.2.2
    · exact (ho _ rfl).elim
    · exact IsNum.zero
  | accent c => exact h.elim
  | _ => exact IsNum.zero

/-- The dimensions are numbers, except that the width may be infinite. -/
def VNode : TNode XR → Prop
  | .rule b => (IsNum b.width ∨ b.width = .pinf) ∧ IsNum b.height ∧ IsNum b.depth
  | .char _ => False
  | n => NumNode n

/-- The dimensions of a list are numbers. -/
def NumHead (hd : LHead XR) : Prop := IsNum hd.box.width ∧ IsNum hd.box.height ∧ IsNum hd.box.depth ∧ IsNum hd.shift

mutual
/-- All dimensions in the tree are numbers, except that rules, which stand in vertical lists only, may
have an infinite width.  The flag says whether the node stands in a vertical list. -/
def NumT : Bool → TNode XR → Prop
  | _, .list k hd cs => NumHead hd ∧ NumTs (decide (k = .v)) cs
  | v, .rule b => v = true ∧ VNode (.rule b)
  | v, .char c => v = false ∧ NumNode (.char c)
  | _, .accent _ => False
  | _, .box b => NumNode (.box b)
  | _, .glue g => NumNode (.glue g)
  | _, .kern k => NumNode (.kern k)
/-- `NumT` for all nodes of a list -/
def NumTs (v : Bool) : List (TNode XR) → Prop
  | [] => True
  | n :: l => NumT v n ∧ NumTs v l
end

theorem numTs_iff {v : Bool} {l : List (TNode XR)} : NumTs v l ↔ ∀ n ∈ l, NumT v n := by
  induction l with
  | nil => simp [NumTs]
  | cons n l ih => simp [NumTs, ih]

theorem NumT.node {n : TNode XR} (h : NumT false n) : NumNode n := by
  cases n <;> simp only [NumT] at h
  case rule => cases h.1
  case char => exact h.2
  case list => exact h.1
  all_goals exact h

theorem NumT.vnode {n : TNode XR} (h : NumT true n) : VNode n := by
  cases n <;> simp only [NumT] at h
  case rule => exact h.2
  case char => cases h.1
  case list => exact h.1
  all_goals exact h

theorem insertKerns_num {be : Backend XR} (hb : Numeric be) {l : List (TNode XR)} (h : ∀ n ∈ l, NumNode n) :
    ∀ n ∈ insertKerns be l, NumNode n := by
  induction l with
  | nil => intro n hn; cases hn
  | cons a l ih =>
    have ha := h a (by simp)
    have ih := ih (fun n hn => h n (by simp [hn]))
    rw [insertKerns]
    split
    · intro n hn
      simp only [List.mem_cons] at hn
      rcases hn with rfl | rfl | hn
      · exact ha
      · refine kerning_num hb ha _ (fun m hm => h m ?_)
        have := List.mem_of_mem_head? hm
        simp [this]
      · exact ih n hn
    · intro n hn
      simp only [List.mem_cons] at hn
      rcases hn with rfl | hn
      · exact ha
      · exact ih n hn

theorem insertKerns_numT {be : Backend XR} (hb : Numeric be) {l : List (TNode XR)} (h : ∀ n ∈ l, NumT false n) :
    ∀ n ∈ insertKerns be l, NumT false n := by
  induction l with
  | nil => intro n hn; cases hn
  | cons a l ih =>
    have ha := h a (by simp)
    have ih := ih (fun n hn => h n (by simp [hn]))
    rw [insertKerns]
    split
    · intro n hn
      simp only [List.mem_cons] at hn
      rcases hn with rfl | rfl | hn
      · exact ha
      · refine kerning_num hb ha.node _ (fun m hm => (h m ?_).node)
        have := List.mem_of_mem_head? hm
        simp [this]
      · exact ih n hn
    · intro n hn
      simp only [List.mem_cons] at hn
      rcases hn with rfl | hn
      · exact ha
      · exact ih n hn

theorem hlist_num {be : Backend XR} (hb : Numeric be) {l : List (TNode XR)} (h : ∀ n ∈ l, NumT false n) (v : Bool) :
    NumT v (hlistOf be l true) := by
  obtain ⟨a, b, c, d⟩ := hpack_num (fun n hn => (insertKerns_numT hb h n hn).node) LHead.zero _ IsNum.zero true
  have e : hlistOf be l true = .list .h (hpack LHead.zero (insertKerns be l) zero true) (insertKerns be l) := rfl
  rw [e, NumT]
  refine ⟨⟨a, b.num, c.num, ?_⟩, numTs_iff.2 (insertKerns_numT hb h)⟩
  rw [d]; exact IsNum.zero

theorem hlistOf_num {be : Backend XR} (hb : Numeric be) {l : List (TNode XR)} (h : ∀ n ∈ l, NumT false n) :
    NumT false (hlistOf be l true) := hlist_num hb h false

theorem shrinkBox_num {b : BoxD XR} (h : IsNum b.width ∧ IsNum b.height ∧ IsNum b.depth) :
    IsNum b.shrink.width ∧ IsNum b.shrink.height ∧ IsNum b.shrink.depth := by
  unfold BoxD.shrink
  have s : IsNum (shrinkFactor : XR) := IsNum.rat _ _
  split
  · exact ⟨h.1.mul s, h.2.1.mul s, h.2.2.mul s⟩
  · exact h

theorem shrink_num {be : Backend XR} {n : TNode XR} (h : NumNode n) : NumNode (n.shrink be) := by
  have s : IsNum (shrinkFactor : XR) := IsNum.rat _ _
  cases n with
  | box b => rw [TNode.shrink]; exact shrinkBox_num h
  | char c =>
    rw [TNode.shrink]
    unfold CharD.shrink
    obtain ⟨h1, h2, h3, h4, h5, h6⟩ := h
    split
    · exact ⟨h1.mul s, h2.mul s, h3.mul s, h4, h5.mul s, h6⟩
    · exact ⟨h1, h2, h3, h4, h5, h6⟩
  | accent c => exact h.elim
  | list k hd cs =>
    rw [TNode.shrink]
    obtain ⟨h1, h2, h3, h4⟩ := h
    obtain ⟨e1, e2, e3⟩ := shrinkBox_num ⟨h1, h2, h3⟩
    unfold LHead.shrink
    split
    · exact ⟨e1, e2, e3, h4.mul s⟩
    · exact ⟨e1, e2, e3, h4⟩
  | rule b => exact h.elim
  | glue g =>
    rw [TNode.shrink]
    unfold GlueD.shrinkG
    split
    · exact IsNum.mul h s
    · exact h
  | kern k =>
    rw [TNode.shrink]
    unfold KernD.shrink
    split
    · exact IsNum.mul h s
    · exact h

theorem shrink_vnode {b : BoxD XR} (h : VNode (.rule b)) : VNode (.rule b.shrink) := by
  have sf : IsNum (shrinkFactor : XR) := IsNum.rat _ _
  have hp : (pinf : XR) * shrinkFactor = .pinf := by decide +kernel
  obtain ⟨w, a, d⟩ := h
  unfold BoxD.shrink
  split
  · refine ⟨?_, a.mul sf, d.mul sf⟩
    rcases w with w | w
    · exact .inl (w.mul sf)
    · right; show b.width * _ = _; rw [w]; exact hp
  · exact ⟨w, a, d⟩

mutual
theorem shrink_numT (be : Backend XR) : ∀ (v : Bool) (n : TNode XR), NumT v n → NumT v (n.shrink be)
  | v, .list k hd cs, h => by
    rw [NumT] at h
    rw [TNode.shrink, NumT]
    exact ⟨by have := shrink_num (be := be) (n := .list k hd cs) h.1; rw [TNode.shrink] at this; exact this, shrink_numTs be _ cs h.2⟩
  | v, .rule b, h => by rw [NumT] at h; rw [TNode.shrink, NumT]; exact ⟨h.1, shrink_vnode h.2⟩
  | v, .char c, h => by
    rw [NumT] at h
    have := shrink_num (be := be) h.2
    rw [TNode.shrink] at this ⊢
    rw [NumT]; exact ⟨h.1, this⟩
  | v, .accent c, h => by rw [NumT] at h; exact h.elim
  | v, .box b, h => by
    rw [NumT] at h
    have := shrink_num (be := be) h
    rw [TNode.shrink] at this ⊢
    rw [NumT]; exact this
  | v, .glue g, h => by
    rw [NumT] at h
    have := shrink_num (be := be) h
    rw [TNode.shrink] at this ⊢
    rw [NumT]; exact this
  | v, .kern k, h => by
    rw [NumT] at h
    have := shrink_num (be := be) h
    rw [TNode.shrink] at this ⊢
    rw [NumT]; exact this
theorem shrink_numTs (be : Backend XR) (v : Bool) : ∀ l : List (TNode XR), NumTs v l → NumTs v (shrinkAll be l)
  | [], h => h
  | n :: l, h => by
    rw [NumTs] at h
    rw [shrinkAll, NumTs]
    exact ⟨shrink_numT be v n h.1, shrink_numTs be v l h.2⟩
end

/-- The accumulators of `VPack` -/
def VDims (p : Dims XR) : Prop := IsNum p.x ∧ IsNum p.a ∧ IsNum p.b

theorem vpackDims_num {n : TNode XR} (h : VNode n) {p : Dims XR} (hp : VDims p) :
    ∃ q, vpackDims n p = .ok q ∧ VDims q := by
  obtain ⟨h1, h2, h3⟩ := hp
  cases n with
  | box b =>
    obtain ⟨w, a, d⟩ := h
    refine ⟨_, rfl, h1.add (h3.add a), ?_, d⟩
    simp only [w.isInf, Bool.false_eq_true, if_false]; exact h2.max w
  | char c => exact h.elim
  | accent c => exact h.elim
  | list k hd cs =>
    obtain ⟨w, a, d, _⟩ := h
    refine ⟨_, rfl, h1.add (h3.add a), ?_, d⟩
    simp only [w.isInf, Bool.false_eq_true, if_false]; exact h2.max w
  | rule b =>
    obtain ⟨w, a, d⟩ := h
    refine ⟨_, rfl, h1.add (h3.add a), ?_, d⟩
    rcases w with w | w
    · simp only [w.isInf, Bool.false_eq_true, if_false]; exact h2.max w
    · simp only [w]; exact h2
  | glue g => exact ⟨_, rfl, (h1.add h3).add h, h2, IsNum.zero⟩
  | kern k => exact ⟨_, rfl, h1.add (h3.add h), h2, IsNum.zero⟩

theorem vpackAll_num {l : List (TNode XR)} (h : ∀ n ∈ l, VNode n) {p : Dims XR} (hp : VDims p) :
    ∃ q, vpackAll l p = .ok q ∧ VDims q := by
  induction l generalizing p with
  | nil => exact ⟨p, rfl, hp⟩
  | cons n l ih =>
    obtain ⟨q, e, hq⟩ := vpackDims_num (h n (by simp)) hp
    rw [vpackAll, e]
    exact ih (fun n hn => h n (by simp [hn])) hq

theorem vpack_num {l : List (TNode XR)} (h : ∀ n ∈ l, VNode n) (hd : LHead XR) (w : XR) (hw : IsNum w) (add : Bool) (d : XR)
    (hdp : IsNum d ∨ d = .pinf) : ∃ v, vpack hd l w add d = .ok v ∧ IsNum v.box.width ∧ IsNum v.box.height ∧ IsNum v.box.depth ∧
      v.shift = hd.shift := by
  obtain ⟨q, e, h1, h2, h3⟩ := vpackAll_num h (p := Dims.zero) ⟨IsNum.zero, IsNum.zero, IsNum.zero⟩
  unfold vpack
  rw [e, Res.ok_bind]
  have hpair : IsNum (if lt d q.b then (q.x + (q.b - d), d) else (q.x, q.b)).1 ∧ IsNum (if lt d q.b then (q.x + (q.b - d), d) else (q.x, q.b)).2 := by
    rcases hdp with hdp | rfl
    · cases lt d q.b
      · exact ⟨h1, h3⟩
      · exact ⟨h1.add (h3.sub hdp), hdp⟩
    · have : lt (pinf : XR) q.b = false := by obtain ⟨r, hr⟩ := h3; rw [hr]; rfl
      rw [this]
      exact ⟨h1, h3⟩
  revert hpair
  generalize (if lt d q.b then (q.x + (q.b - d), d) else (q.x, q.b)) = pr
  intro hpair
  refine ⟨_, rfl, ?_⟩
  rw [(finishGlue_box _ _ _ _).1, (finishGlue_box _ _ _ _).2]
  refine ⟨h2, ?_, hpair.2, rfl⟩
  cases add
  · exact hw
  · exact hw.add hpair.1

theorem newChar_num {be : Backend XR} (hb : Numeric be) {c : GoString} {st : TState XR} {m : Bool} {ch : CharD XR}
    (hs : IsNum st.font.size) (hd : IsNum st.dpi) (h : newChar be c st m = .ok ch) :
    NumNode (.char ch) ∧ ch.height + ch.depth = (be.metrics c st.font st.dpi m).height := by
  unfold newChar at h
  split at h
  · rename_i hk
    simp only [Res.ok.injEq] at h
    subst h
    have i := hb.iceberg c st.font st.dpi m hs hd hk
    have hh := hb.height c st.font st.dpi m hs hd hk
    refine ⟨⟨?_, i, (i.sub hh).neg, hb.advance c st.font st.dpi m hs hd hk, hs, hd⟩, ?_⟩
    · show IsNum (if c = bs!" " then _ else _)
      split
      · exact hb.advance c st.font st.dpi m hs hd hk
      · exact hb.width c st.font st.dpi m hs hd hk
    · show (be.metrics c st.font st.dpi m).iceberg + -((be.metrics c st.font st.dpi m).iceberg - (be.metrics c st.font st.dpi m).height) = _
      obtain ⟨p, hp⟩ := i
      obtain ⟨q, hq⟩ := hh
      rw [hp, hq]
      simp
  · cases h

theorem auto_num {be : Backend XR} (hb : Numeric be) {c : GoString} (hc : c ∈ [bs!"(", bs!")", bs!"\\__sqrt__"]) {h d : XR}
    (hh : IsNum h) (hd : IsNum d) {st : TState XR} (hs : IsPos st.font.size) (hdpi : IsPos st.dpi) {n : TNode XR}
    (e : autoHeightChar be c h d st zero = .ok n) : ∃ hd cs, n = .list .h hd cs ∧ NumHead hd ∧ NumTs false cs := by
  replace e := autoHeightChar_ok e
  unfold autoHeightBody at e
  obtain ⟨ch, hch, e⟩ := Res.bind_eq_ok.1 e
  have hk : be.known c st.font st.dpi true = true := by
    unfold newChar at hch
    split at hch
    · assumption
    · cases hch
  obtain ⟨n1, t⟩ := newChar_num hb hs.num hdpi.num hch
  have single : ∀ {ch : CharD XR}, NumNode (.char ch) → ∀ s : XR, IsNum s →
      NumHead { hpack LHead.zero (insertKerns be [.char ch]) zero true with shift := s } ∧ NumTs false (insertKerns be [.char ch]) := by
    intro ch hn s hs
    have hk := insertKerns_numT hb (l := [.char ch]) (by intro n hm; rw [List.mem_singleton] at hm; rw [hm, NumT]; exact ⟨rfl, hn⟩)
    obtain ⟨a, b, c, _⟩ := hpack_num (fun n hn => (hk n hn).node) LHead.zero _ IsNum.zero true
    exact ⟨⟨a, b.num, c.num, hs⟩, numTs_iff.2 hk⟩
  dsimp only at e
  split at e
  · obtain ⟨ch', hch', e⟩ := Res.bind_eq_ok.1 e
    have hf : IsNum ((h + d) / (ch.height + ch.depth)) := by
      refine (hh.add hd).div (n1.2.1.add n1.2.2.1) ?_
      rw [t]
      exact hb.tall c _ _ hc hs hdpi hk
    have hz : eq (zero : XR) zero = true := by rw [zero_fin]; simp
    rw [hz, if_pos rfl] at hch'
    obtain ⟨n2, _⟩ := newChar_num hb (st := { st with font := { st.font with size := st.font.size * ((h + d) / (ch.height + ch.depth)) } }) (hs.num.mul hf) hdpi.num hch'
    simp only [Res.ok.injEq] at e
    subst e
    exact ⟨_, _, rfl, single n2 _ (hd.sub n2.2.2.1)⟩
  · simp only [Res.ok.injEq] at e
    subst e
    exact ⟨_, _, rfl, single n1 _ IsNum.zero⟩

theorem hrule_num {be : Backend XR} {st : TState XR} {t : XR} (ht : IsNum t) (hu : IsNum (be.underline st.font st.dpi)) :
    VNode (hrule be st t) := by
  unfold hrule newRule newBox
  refine ⟨.inr rfl, ?_⟩
  have h : IsNum (if lt t zero then be.underline st.font st.dpi else t) := by split <;> assumption
  exact ⟨(IsNum.rat _ _).mul h, (IsNum.rat _ _).mul h⟩

theorem maxDims_num {n : TNode XR} (h : NumNode n) : IsNum (maxDims [n]).1 ∧ IsNum (maxDims [n]).2 :=
  ⟨IsNum.zero.max h.hd.1, IsNum.zero.max h.hd.2⟩

theorem centred_num {n : TNode XR} (h : NumT false n) {w : XR} (hw : IsNum w) :
    NumHead (centredTo n w).1 ∧ NumTs false (centredTo n w).2 := by
  have hg : NumNode (.glue ssGlue) := ⟨0, by simp [ssGlue]⟩
  have hg' : NumT false (.glue ssGlue) := by rw [NumT]; exact hg
  have hm : ∀ m ∈ [.glue ssGlue, n, .glue ssGlue], NumNode m := mem3 hg h.node hg
  obtain ⟨a, b, c, d⟩ := hpack_num hm (hpack LHead.zero [.glue ssGlue, n, .glue ssGlue] zero true) w hw false
  refine ⟨⟨a, b.num, c.num, ?_⟩, numTs_iff.2 (mem3 hg' h hg')⟩
  show IsNum (hpack (hpack LHead.zero [.glue ssGlue, n, .glue ssGlue] zero true) [.glue ssGlue, n, .glue ssGlue] w false).shift
  rw [d, (hpack_num hm LHead.zero zero IsNum.zero true).2.2.2]
  exact IsNum.zero

/-- States with a positive font size and resolution -/
def PosState (st : TState XR) : Prop := IsPos st.font.size ∧ IsPos st.dpi

theorem box_num {w h d : XR} (hw : IsNum w) (hh : IsNum h) (hd : IsNum d) : NumNode (.box (newBox w h d)) := ⟨hw, hh, hd⟩

theorem numT_h {hd : LHead XR} {cs : List (TNode XR)} (h : NumHead hd ∧ NumTs false cs) (v : Bool) : NumT v (.list .h hd cs) := by
  rw [NumT]; exact h
theorem numT_v {hd : LHead XR} {cs : List (TNode XR)} (h : NumHead hd) (hc : ∀ n ∈ cs, NumT true n) (v : Bool) :
    NumT v (.list .v hd cs) := by
  rw [NumT]; exact ⟨h, numTs_iff.2 hc⟩
theorem numT_shift {hd : LHead XR} {cs : List (TNode XR)} (h1 : IsNum hd.box.width) (h2 : IsNum hd.box.height) (h3 : IsNum hd.box.depth)
    {s : XR} (h4 : IsNum s) (hc : ∀ n ∈ cs, NumT true n) (v : Bool) : NumT v (.list .v (hd.setShift s) cs) :=
  numT_v (hd := hd.setShift s) ⟨h1, h2, h3, h4⟩ hc v
theorem numT_box {b : BoxD XR} (h : NumNode (.box b)) (v : Bool) : NumT v (.box b) := by rw [NumT]; exact h
theorem numT_hbox {w : XR} (h : IsNum w) (v : Bool) : NumT v (hbox w) := numT_box ⟨h, IsNum.zero, IsNum.zero⟩ v
theorem numT_kern {w : XR} (h : IsNum w) (v : Bool) : NumT v (newKern w) := by rw [newKern, NumT]; exact h
theorem hrule_numT {be : Backend XR} {st : TState XR} {t : XR} (ht : IsNum t) (hu : IsNum (be.underline st.font st.dpi)) :
    NumT true (hrule be st t) := by
  have h := hrule_num ht hu
  unfold hrule newRule at h ⊢
  rw [NumT]; exact ⟨rfl, h⟩
theorem mem_eq2 {P : TNode XR → Prop} {l : List (TNode XR)} {a b : TNode XR} (e : l = [a, b]) (ha : P a) (hb : P b) : ∀ n ∈ l, P n := by
  rw [e]; exact mem2 ha hb

theorem genfrac_num {be : Backend XR} (hb : Numeric be) {dl ds : Bool} {rule : XR} {a b n : TNode XR} {st : TState XR}
    (hs : PosState st) (hr : IsNum rule) (ha : NumT false a) (hbn : NumT false b)
    (e : genfrac be dl rule ds a b st = .ok n) : NumT false n := by
  have hu : IsNum (be.underline st.font st.dpi) := hb.underline _ _ hs.1.num hs.2.num
  have two : IsNum (ofInt 2 : XR) := IsNum.int 2
  unfold genfrac at e
  dsimp only at e
  have ha' : NumT false (if ds = true then a else a.shrink be) := by split; exacts [ha, shrink_numT _ _ _ ha]
  have hb' : NumT false (if ds = true then b else b.shrink be) := by split; exacts [hbn, shrink_numT _ _ _ hbn]
  revert e
  generalize (if ds = true then a else a.shrink be) = a' at *
  generalize (if ds = true then b else b.shrink be) = b' at *
  intro e
  have hw := ha'.node.width.max hb'.node.width
  have ca := centred_num ha' hw
  have cb := centred_num hb' hw
  have hsp : NumT true (vbox zero (be.underline st.font st.dpi * ofInt 2)) := numT_box ⟨IsNum.zero, IsNum.zero, hu.mul two⟩ _
  have hcs : ∀ n ∈ [.list .h (centredTo a' (GoFloat.max a'.width b'.width)).1 (centredTo a' (GoFloat.max a'.width b'.width)).2,
    vbox zero (be.underline st.font st.dpi * ofInt 2), hrule be st rule, vbox zero (be.underline st.font st.dpi * ofInt 2),
    .list .h (centredTo b' (GoFloat.max a'.width b'.width)).1 (centredTo b' (GoFloat.max a'.width b'.width)).2], NumT true n := by
      intro n hn
      simp only [List.mem_cons, List.not_mem_nil, or_false] at hn
      rcases hn with rfl | rfl | rfl | rfl | rfl
      · exact numT_h ca _
      · exact hsp
      · exact hrule_numT hr hu
      · exact hsp
      · exact numT_h cb _
  obtain ⟨v, hv, v1, v2, v3, v4⟩ := vpack_num (l := [.list .h (centredTo a' (GoFloat.max a'.width b'.width)).1 (centredTo a' (GoFloat.max a'.width b'.width)).2,
    vbox zero (be.underline st.font st.dpi * ofInt 2), hrule be st rule, vbox zero (be.underline st.font st.dpi * ofInt 2),
    .list .h (centredTo b' (GoFloat.max a'.width b'.width)).1 (centredTo b' (GoFloat.max a'.width b'.width)).2])
    (fun n hn => (hcs n hn).vnode) LHead.zero zero IsNum.zero true inf (.inr rfl)
  rw [hv, Res.ok_bind] at e
  split at e
  · rename_i hk
    have hfs : IsNum (st.withType mathDefault).font.size := hs.1.num
    have hm1 := hb.ymax _ _ _ _ hfs hs.2.num hk
    have hm2 := hb.ymin _ _ _ _ hfs hs.2.num hk
    have hsh : IsNum ((centredTo b' (GoFloat.max a'.width b'.width)).1.box.height -
        (((be.metrics bs!"=" (st.withType mathDefault).font st.dpi true).ymax +
          (be.metrics bs!"=" (st.withType mathDefault).font st.dpi true).ymin) / ofInt 2 - ofInt 3 * be.underline st.font st.dpi)) := by
      refine cb.1.2.1.sub (((hm1.add hm2).div two ?_).sub ((IsNum.int 3).mul hu))
      simp
    have hbox := hlistOf_num hb (mem2 (P := NumT false)
      (a := .list .v (v.setShift ((centredTo b' (GoFloat.max a'.width b'.width)).1.box.height -
        (((be.metrics bs!"=" (st.withType mathDefault).font st.dpi true).ymax +
          (be.metrics bs!"=" (st.withType mathDefault).font st.dpi true).ymin) / ofInt 2 - ofInt 3 * be.underline st.font st.dpi)))
        [.list .h (centredTo a' (GoFloat.max a'.width b'.width)).1 (centredTo a' (GoFloat.max a'.width b'.width)).2,
        vbox zero (be.underline st.font st.dpi * ofInt 2), hrule be st rule, vbox zero (be.underline st.font st.dpi * ofInt 2),
        .list .h (centredTo b' (GoFloat.max a'.width b'.width)).1 (centredTo b' (GoFloat.max a'.width b'.width)).2])
      (b := hbox (ofInt 2 * be.underline st.font st.dpi)) (numT_shift v1 v2 v3 hsh hcs _) (numT_hbox (two.mul hu) _))
    split at e
    · unfold autoSizedDelimiter at e
      dsimp only at e
      obtain ⟨l, hl, e⟩ := Res.bind_eq_ok.1 e
      obtain ⟨r, hr', e⟩ := Res.bind_eq_ok.1 e
      have hmx := maxDims_num hbox.node
      obtain ⟨_, _, rfl, nl⟩ := auto_num hb (by simp) hmx.1 hmx.2 hs.1 hs.2 hl
      obtain ⟨_, _, rfl, nr⟩ := auto_num hb (by simp) hmx.1 hmx.2 hs.1 hs.2 hr'
      simp only [Res.ok.injEq] at e
      subst e
      exact hlistOf_num hb (mem3 (numT_h nl _) hbox (numT_h nr _))
    · simp only [Res.ok.injEq] at e
      subst e
      exact hbox
  · cases e

theorem ruled_num {be : Backend XR} (hb : Numeric be) {st : TState XR} (hs : PosState st) {body n : TNode XR} (h : NumT true body)
    {ht dp : XR} (h1 : IsNum ht) (h2 : IsNum dp) (e : ruled be st body ht dp = .ok n) : NumT false n := by
  have hu : IsNum (be.underline st.font st.dpi) := hb.underline _ _ hs.1.num hs.2.num
  unfold ruled at e
  obtain ⟨g, hg, e⟩ := Res.bind_eq_ok.1 e
  have hgn : IsNum g.width := by
    simp only [newGlue] at hg
    have : g = ⟨0, zero, ofInt 1, 2, zero, 0⟩ := by
      revert hg; simp only [show (bs!"fill" = bs!"fil") = False by simp, if_false, if_true]
      intro h; cases h; rfl
    rw [this]; exact IsNum.zero
  have hl : ∀ m ∈ [hrule be st (ofInt (-1)), .glue g, body], NumT true m := by
    intro m hm
    simp only [List.mem_cons, List.not_mem_nil, or_false] at hm
    rcases hm with rfl | rfl | rfl
    · exact hrule_numT (IsNum.int _) hu
    · rw [NumT]; exact hgn
    · exact h
  obtain ⟨v, hv, _, _, _, v4⟩ := vpack_num (fun n hn => (hl n hn).vnode) LHead.zero zero IsNum.zero true inf (.inr rfl)
  dsimp only at e
  rw [hv, Res.ok_bind] at e
  have hhn : IsNum (ht + (st.font.size * st.dpi) / ofInt 1200) :=
    h1.add ((hs.1.num.mul hs.2.num).div (IsNum.int _) (by simp))
  obtain ⟨v', hv', w1, w2, w3, w4⟩ := vpack_num (fun n hn => (hl n hn).vnode) v _ hhn false dp (.inl h2)
  rw [hv', Res.ok_bind] at e
  simp only [Res.ok.injEq] at e
  subst e
  refine numT_v ⟨w1, w2, w3, ?_⟩ hl _
  rw [w4, v4]; exact IsNum.zero

theorem hbody_num {be : Backend XR} (hb : Numeric be) {l : List (TNode XR)} (h : ∀ n ∈ l, NumT false n) :
    NumT false (.list .h (hbody be l).1 (hbody be l).2) := hlistOf_num hb h

theorem num_closed {be : Backend XR} (hb : Numeric be) : Closed be PosState IsNum (NumT false) where
  font _ _ h := h
  const a b := IsNum.rat a b
  char c st m ch hs h := by rw [NumT]; exact ⟨rfl, (newChar_num hb hs.1.num hs.2.num h).1⟩
  space st w n hs hw h := by
    unfold makeSpace at h
    dsimp only at h
    split at h
    · rename_i hk
      simp only [Res.ok.injEq] at h
      subst h
      exact numT_kern ((hb.advance _ { st.font with name := bs!"it", typ := mathDefault } _ _ hs.1.num hs.2.num hk).mul hw) _
    · cases h
  hlist l h := hlistOf_num hb h
  frac dl rule ds a b st n hs hr ha hbn e := by
    refine genfrac_num hb hs ?_ (hlistOf_num hb ha) (hlistOf_num hb hbn) e
    rcases hr with rfl | rfl
    · exact hb.underline _ _ hs.1.num hs.2.num
    · exact IsNum.zero
  sqrt root b st n hs hr hbd e := by
    have hu : IsNum (be.underline st.font st.dpi) := hb.underline _ _ hs.1.num hs.2.num
    have hBT := hbody_num hb hbd
    have hB := hBT.node
    unfold buildSqrt at e
    dsimp only at e
    obtain ⟨check, hc, e⟩ := Res.bind_eq_ok.1 e
    obtain ⟨ch, cc, rfl, hcT⟩ := auto_num hb (by simp) ((hB.2.1.sub hB.2.2.2).add ((IsNum.int 5).mul hu)) (hB.2.2.1.add hB.2.2.2) hs.1 hs.2 hc
    have hcn := hcT.1
    obtain ⟨rhs, hrhs, e⟩ := Res.bind_eq_ok.1 e
    have hpad := hlist_num hb (mem3 (P := NumT false) (a := hbox (ofInt 2 * be.underline st.font st.dpi))
      (b := .list .h (hbody be b).1 (hbody be b).2) (c := hbox (ofInt 2 * be.underline st.font st.dpi))
      (numT_hbox ((IsNum.int 2).mul hu) _) hBT (numT_hbox ((IsNum.int 2).mul hu) _)) true
    have hr2 := ruled_num hb hs hpad (hcn.2.1.sub hcn.2.2.2) (hcn.2.2.1.add hcn.2.2.2) hrhs
    have key : ∀ rt : TNode XR, NumT false rt → (vpack LHead.zero [hlistOf be [rt] true] zero true inf >>= fun hd =>
        Res.ok (hlistOf be [.list .v (hd.setShift (-(ch.box.height - ch.shift) * ofRat 6 10)) [hlistOf be [rt] true],
          newKern (-ch.box.width * ofRat 5 10), .list .h ch cc, rhs] true)) = .ok n → NumT false n := by
      intro rt hroot e
      have hl1 : ∀ n ∈ [hlistOf be [rt] true], NumT true n := by
        intro n hn
        rw [List.mem_singleton] at hn
        rw [hn]; exact hlist_num hb (by simpa using hroot) _
      obtain ⟨v, hv, v1, v2, v3, _⟩ := vpack_num (l := [hlistOf be [rt] true])
        (fun n hn => (hl1 n hn).vnode) LHead.zero zero IsNum.zero true inf (.inr rfl)
      rw [hv, Res.ok_bind] at e
      simp only [Res.ok.injEq] at e
      subst e
      refine hlistOf_num hb ?_
      intro n hn
      simp only [List.mem_cons, List.not_mem_nil, or_false] at hn
      rcases hn with rfl | rfl | rfl | rfl
      · exact numT_shift v1 v2 v3 ((hcn.2.1.sub hcn.2.2.2).neg.mul (IsNum.rat _ _)) hl1 _
      · exact numT_kern (hcn.1.neg.mul (IsNum.rat _ _)) _
      · exact numT_h hcT _
      · exact hr2
    cases root with
    | none => exact key (hbox (ch.box.width * ofRat 5 10)) (numT_hbox (hcn.1.mul (IsNum.rat _ _)) _) e
    | some r => exact key _ (shrink_numT _ _ _ (shrink_numT _ _ _ (hr r rfl))) e
  over b st n hs hbd e := by
    have hu : IsNum (be.underline st.font st.dpi) := hb.underline _ _ hs.1.num hs.2.num
    have hBT := hbody_num hb hbd
    have hB := hBT.node
    unfold buildOverline at e
    dsimp only at e
    obtain ⟨rhs, hrhs, e⟩ := Res.bind_eq_ok.1 e
    have h1 := hlist_num hb (l := [.list .h (hbody be b).1 (hbody be b).2]) (by simpa using hBT) true
    have hr2 := ruled_num hb hs h1 ((hB.2.1.sub hB.2.2.2).add ((IsNum.int 3).mul hu)) (hB.2.2.1.add hB.2.2.2) hrhs
    simp only [Res.ok.injEq] at e
    subst e
    exact hlistOf_num hb (by simpa using hr2)

/-! ## Drawing -/

theorem natural_num {l : List (TNode XR)} (h : ∀ n ∈ l, NumT false n) : IsNum (naturalWidth l) := by
  have : ∀ (l : List (TNode XR)) (x : XR), IsNum x → (∀ n ∈ l, NumT false n) → IsNum (l.foldl (fun x n => x + n.width) x) := by
    intro l
    induction l with
    | nil => intro x hx _; exact hx
    | cons n l ih => intro x hx h; exact ih _ (hx.add (h n (by simp)).node.width) (fun n hn => h n (by simp [hn]))
  exact this l zero IsNum.zero h

theorem advance_num {l : List (TNode XR)} (h : ∀ n ∈ l, NumT false n) (hd : LHead XR) : IsNum (advance hd l) :=
  (natural_num h).add (IsNum.int _)

theorem vspace_num {n : TNode XR} (h : NumT true n) : IsNum (vspace n) := by
  have sum : ∀ n : TNode XR, IsNum n.height → IsNum n.depth →
      IsNum (if pos (n.height + n.depth) && pos n.depth then n.height + n.depth else zero) := by
    intro n h1 h2; split; exacts [h1.add h2, IsNum.zero]
  cases n <;> simp only [NumT] at h
  case list k hd cs => cases k <;> first | exact h.1.2.1.add h.1.2.2.1 | exact sum _ h.1.2.1 h.1.2.2.1
  case rule b => exact sum (.rule b) h.2.2.1 h.2.2.2
  case char => cases h.1
  case box b => exact sum (.box b) h.2.1 h.2.2
  case glue => exact h
  case kern => exact h

theorem vadvance_num {l : List (TNode XR)} (h : ∀ n ∈ l, NumT true n) (hd : LHead XR) : IsNum (vadvance hd l) := by
  have : ∀ (l : List (TNode XR)) (x : XR), IsNum x → (∀ n ∈ l, NumT true n) → IsNum (l.foldl (fun x n => x + vspace n) x) := by
    intro l
    induction l with
    | nil => intro x hx _; exact hx
    | cons n l ih => intro x hx h; exact ih _ (hx.add (vspace_num (h n (by simp)))) (fun n hn => h n (by simp [hn]))
  exact (this l zero IsNum.zero h).add (IsNum.int _)

theorem app_num {a b : List (Draw XR)} (ha : ∀ d ∈ a, NumDraw d) (hb : ∀ d ∈ b, NumDraw d) : ∀ d ∈ a ++ b, NumDraw d := by
  intro d hd
  rcases List.mem_append.1 hd with h | h
  · exact ha d h
  · exact hb d h

mutual
theorem paintH_num : ∀ (n : TNode XR) (hd : LHead XR) (x b : XR), NumT false n → IsNum x → IsNum b →
    ∀ d ∈ paintH hd x b n, NumDraw d
  | .char c, hd, x, b, h, hx, hb => by
    rw [NumT] at h
    rw [paintH]
    intro d hd
    rw [List.mem_singleton] at hd
    rw [hd]; exact ⟨hx, hb, h.2.2.2.2.2.1, h.2.2.2.2.2.2⟩
  | .accent c, _, _, _, h, _, _ => by rw [NumT] at h; exact h.elim
  | .rule r, _, _, _, h, _, _ => by rw [NumT] at h; cases h.1
  | .list .h nd cs, hd, x, b, h, hx, hb => by
    rw [NumT] at h
    rw [paintH]
    exact paintHs_num cs nd x _ [] (numTs_iff.1 h.2) (fun n hn => by cases hn) hx (hb.add h.1.2.2.2)
  | .list .v nd cs, hd, x, b, h, hx, hb => by
    rw [NumT] at h
    rw [paintH]
    exact paintVs_num cs nd x _ [] (numTs_iff.1 h.2) h.1.1 (fun n hn => by cases hn) hx ((hb.add h.1.2.2.2).sub h.1.2.1)
  | .list .plain _ _, hd, x, b, h, hx, hb => by intro d hd'; simp only [paintH] at hd'; cases hd'
  | .box _, hd, x, b, h, hx, hb => by intro d hd'; simp only [paintH] at hd'; cases hd'
  | .glue _, hd, x, b, h, hx, hb => by intro d hd'; simp only [paintH] at hd'; cases hd'
  | .kern _, hd, x, b, h, hx, hb => by intro d hd'; simp only [paintH] at hd'; cases hd'
theorem paintHs_num : ∀ (l : List (TNode XR)) (hd : LHead XR) (x b : XR) (pre : List (TNode XR)), (∀ n ∈ l, NumT false n) →
    (∀ n ∈ pre, NumT false n) → IsNum x → IsNum b → ∀ d ∈ paintHs hd x b pre l, NumDraw d
  | [], hd, x, b, pre, _, _, _, _ => by rw [paintHs]; intro d hd; cases hd
  | n :: l, hd, x, b, pre, h, hp, hx, hb => by
    rw [paintHs]
    refine app_num (paintH_num n hd _ b (h n (by simp)) (hx.add (advance_num hp hd)) hb)
      (paintHs_num l hd x b (pre ++ [n]) (fun n hn => h n (by simp [hn])) ?_ hx hb)
    intro m hm
    rcases List.mem_append.1 hm with hm | hm
    · exact hp m hm
    · rw [List.mem_singleton] at hm; rw [hm]; exact h n (by simp)
theorem paintV_num : ∀ (n : TNode XR) (hd : LHead XR) (x y : XR), NumT true n → IsNum hd.box.width → IsNum x → IsNum y →
    ∀ d ∈ paintV hd x y n, NumDraw d
  | .rule r, hd, x, y, h, hw, hx, hy => by
    rw [NumT] at h
    obtain ⟨_, w, a, e⟩ := h
    rw [paintV]
    split
    · intro d hd'
      rw [List.mem_singleton] at hd'
      rw [hd']
      have hw' : IsNum (if isInf r.width then hd.box.width else r.width) := by
        rcases w with w | w
        · rw [w.isInf]; exact w
        · rw [w]; exact hw
      exact ⟨hx, hy.add (a.add e), hx.add hw', (hy.add (a.add e)).add (a.add e)⟩
    · intro d hd'; cases hd'
  | .list .h nd cs, hd, x, y, h, hw, hx, hy => by
    rw [NumT] at h
    rw [paintV]
    exact paintHs_num cs nd _ _ [] (numTs_iff.1 h.2) (fun n hn => by cases hn) (hx.add h.1.2.2.2) (hy.add h.1.2.1)
  | .list .v nd cs, hd, x, y, h, hw, hx, hy => by
    rw [NumT] at h
    rw [paintV]
    exact paintVs_num cs _ _ _ [] (numTs_iff.1 h.2) hw (fun n hn => by cases hn) (hx.add h.1.2.2.2) ((hy.add h.1.2.1).sub h.1.2.1)
  | .list .plain _ _, hd, x, b, h, _, hx, hb => by intro d hd'; simp only [paintV] at hd'; cases hd'
  | .char _, hd, x, b, h, _, hx, hb => by intro d hd'; simp only [paintV] at hd'; cases hd'
  | .accent _, hd, x, b, h, _, hx, hb => by intro d hd'; simp only [paintV] at hd'; cases hd'
  | .box _, hd, x, b, h, _, hx, hb => by intro d hd'; simp only [paintV] at hd'; cases hd'
  | .glue _, hd, x, b, h, _, hx, hb => by intro d hd'; simp only [paintV] at hd'; cases hd'
  | .kern _, hd, x, b, h, _, hx, hb => by intro d hd'; simp only [paintV] at hd'; cases hd'
theorem paintVs_num : ∀ (l : List (TNode XR)) (hd : LHead XR) (x y : XR) (pre : List (TNode XR)), (∀ n ∈ l, NumT true n) →
    IsNum hd.box.width → (∀ n ∈ pre, NumT true n) → IsNum x → IsNum y → ∀ d ∈ paintVs hd x y pre l, NumDraw d
  | [], hd, x, b, pre, _, _, _, _, _ => by rw [paintVs]; intro d hd; cases hd
  | n :: l, hd, x, y, pre, h, hw, hp, hx, hy => by
    rw [paintVs]
    refine app_num (paintV_num n hd x _ (h n (by simp)) hw hx (hy.add (vadvance_num hp hd)))
      (paintVs_num l hd x y (pre ++ [n]) (fun n hn => h n (by simp [hn])) hw ?_ hx hy)
    intro m hm
    rcases List.mem_append.1 hm with hm | hm
    · exact hp m hm
    · rw [List.mem_singleton] at hm; rw [hm]; exact h n (by simp)
end

end Verif
