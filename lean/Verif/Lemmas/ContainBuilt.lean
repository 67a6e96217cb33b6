import Verif.Lemmas.Contain
/-! # What mtex builds stays in its box -/

namespace Verif
open Spec GoFloat XR Props

variable {M : Extents} {G : Bool → Prop} {be : Backend XR}

theorem Under.wider {H D H' D' : ℚ} {n : TNode XR} (h : Under H D n) (h1 : H ≤ H') (h2 : D ≤ D') : Under H' D' n := by
  cases n <;> first | trivial | exact h.elim | exact ⟨le_trans h.1 h1, le_trans h.2 h2⟩

theorem hpackDims_under {n : TNode XR} (h : NumNode n) {p : Dims XR} (hp : NumDims p) :
    Under (hpackDims n p).a.val (hpackDims n p).b.val n ∧ p.a.val ≤ (hpackDims n p).a.val ∧ p.b.val ≤ (hpackDims n p).b.val := by
  obtain ⟨h1, h2, h3⟩ := hp
  cases n with
  | box b =>
    obtain ⟨w, a, d⟩ := h
    simp only [hpackDims, a.isInf, d.isInf, Bool.or_self, Bool.false_eq_true, if_false]
    rw [h2.num.val_max a, h3.num.val_max d]
    exact ⟨trivial, le_max_left _ _, le_max_left _ _⟩
  | char c =>
    simp only [hpackDims]
    rw [h2.num.val_max h.2.1, h3.num.val_max h.2.2.1]
    exact ⟨⟨le_max_right _ _, le_max_right _ _⟩, le_max_left _ _, le_max_left _ _⟩
  | accent c => exact h.elim
  | list k hd cs =>
    obtain ⟨w, a, d, s⟩ := h
    simp only [hpackDims, a.isInf, d.isInf, Bool.or_self, Bool.false_eq_true, if_false]
    rw [h2.num.val_max (a.sub s), h3.num.val_max (d.add s), a.val_sub s, d.val_add s]
    exact ⟨⟨le_max_right _ _, le_max_right _ _⟩, le_max_left _ _, le_max_left _ _⟩
  | rule b => exact h.elim
  | glue g => exact ⟨trivial, le_rfl, le_rfl⟩
  | kern k => exact ⟨trivial, le_rfl, le_rfl⟩

theorem hpackAll_under {l : List (TNode XR)} (h : ∀ n ∈ l, NumNode n) {p : Dims XR} (hp : NumDims p) :
    (∀ n ∈ l, Under (l.foldl (fun p n => hpackDims n p) p).a.val (l.foldl (fun p n => hpackDims n p) p).b.val n) ∧
      p.a.val ≤ (l.foldl (fun p n => hpackDims n p) p).a.val ∧ p.b.val ≤ (l.foldl (fun p n => hpackDims n p) p).b.val := by
  induction l generalizing p with
  | nil => exact ⟨fun n hn => (by cases hn), le_rfl, le_rfl⟩
  | cons a l ih =>
    obtain ⟨u, u1, u2⟩ := hpackDims_under (h a (by simp)) hp
    obtain ⟨i, i1, i2⟩ := ih (fun n hn => h n (by simp [hn])) (hpackDims_num (h a (by simp)) hp)
    rw [List.foldl_cons]
    refine ⟨fun n hn => ?_, le_trans u1 i1, le_trans u2 i2⟩
    rcases List.mem_cons.1 hn with rfl | hn
    · exact u.wider i1 i2
    · exact i n hn

theorem hpack_under {l : List (TNode XR)} (h : ∀ n ∈ l, NumNode n) (hd : LHead XR) (w : XR) (add : Bool) :
    ∀ n ∈ l, Under (hpack hd l w add).box.height.val (hpack hd l w add).box.depth.val n := by
  unfold hpack
  rw [(finishGlue_box _ _ _ _).1]
  exact (hpackAll_under h numDims_zero).1

theorem hpack_size (hd : LHead XR) (l : List (TNode XR)) (w : XR) (add : Bool) : (hpack hd l w add).box.size = hd.box.size := by
  unfold hpack; rw [(finishGlue_box _ _ _ _).1]

theorem kerns_inv {k : Nat} {l : List (TNode XR)} (h : ∀ n ∈ l, Inv M G k n) : ∀ n ∈ insertKerns be l, Inv M G k n := by
  induction l with
  | nil => intro n hn; cases hn
  | cons a l ih =>
    have ha := h a (by simp)
    have ih := ih (fun n hn => h n (by simp [hn]))
    rw [insertKerns]
    split
    · intro n hn
      simp only [List.mem_cons] at hn
      rcases hn with rfl | rfl | hn
      · exact ha
      · rw [newKern, Inv]; show (0 : Int) ≤ 6; omega
      · exact ih n hn
    · intro n hn
      simp only [List.mem_cons] at hn
      rcases hn with rfl | hn
      · exact ha
      · exact ih n hn

/-- The invariant of the nodes made by mtex -/
def Fits (M : Extents) (G : Bool → Prop) (k : Nat) (n : TNode XR) : Prop := NumT false n ∧ Inv M G k n

/-- A horizontal list packed around its nodes, with any shift -/
theorem packed_inv {k : Nat} {l : List (TNode XR)} (h : ∀ n ∈ l, Fits M G k n) (hd : LHead XR) (hz : hd.box.size ≤ 6) (w : XR) (add : Bool) (s : XR) :
    Inv M G k (.list .h { hpack hd l w add with shift := s } l) := by
  rw [Inv]
  refine ⟨?_, hpack_under (fun n hn => (h n hn).1.node) hd w add, invs_iff.2 fun n hn => (h n hn).2⟩
  show (hpack hd l w add).box.size ≤ 6
  rw [hpack_size]; exact hz

theorem zero_size : (LHead.zero : LHead XR).box.size ≤ 6 := by show (0 : Int) ≤ 6; omega

theorem kerns_good (hb : Numeric be) {k : Nat} {l : List (TNode XR)} (h : ∀ n ∈ l, Fits M G k n) : ∀ n ∈ insertKerns be l, Fits M G k n :=
  fun n hn => ⟨insertKerns_numT hb (fun n hn => (h n hn).1) n hn, kerns_inv (fun n hn => (h n hn).2) n hn⟩

theorem hlist_good (hb : Numeric be) {k : Nat} {l : List (TNode XR)} (h : ∀ n ∈ l, Fits M G k n) : Fits M G k (hlistOf be l true) :=
  ⟨hlistOf_num hb fun n hn => (h n hn).1, packed_inv (kerns_good hb h) LHead.zero zero_size _ _ (hpack LHead.zero (insertKerns be l) zero true).shift⟩

theorem newChar_true (hb : Numeric be) (hM : Metered be M G) {c : GoString} {st : TState XR} {m : Bool} (hm : G m) {ch : CharD XR}
    (hs : IsNum st.font.size) (hd : IsNum st.dpi) (h : newChar be c st m = .ok ch) :
    TrueChar M G ch ∧ ch.size = 0 ∧ ch.height.val = (M c st.font.name st.font.typ st.dpi m).1 * st.font.size.val ∧
      ch.depth.val = (M c st.font.name st.font.typ st.dpi m).2 * st.font.size.val := by
  unfold newChar at h
  split at h
  · rename_i hk
    simp only [Res.ok.injEq] at h
    subst h
    obtain ⟨s, hs⟩ := hs
    obtain ⟨⟨n, t, sz⟩, dpi⟩ := st
    dsimp only at hs hd hk
    subst hs
    have i := hM.above c n t s dpi m hm hd hk
    have j := hM.total c n t s dpi m hm hd hk
    have e1 : (((rawChar c ⟨⟨n, t, .fin s⟩, dpi⟩ m).updateMetrics be).height).val = (M c n t dpi m).1 * s := by
      show ((be.metrics c ⟨n, t, .fin s⟩ dpi m).iceberg).val = _
      rw [i]; rfl
    have e2 : (((rawChar c ⟨⟨n, t, .fin s⟩, dpi⟩ m).updateMetrics be).depth).val = (M c n t dpi m).2 * s := by
      show (-((be.metrics c ⟨n, t, .fin s⟩ dpi m).iceberg - (be.metrics c ⟨n, t, .fin s⟩ dpi m).height)).val = _
      rw [i, j]; simp; ring
    exact ⟨⟨m, hm, e1, e2⟩, rfl, e1, e2⟩
  · cases h

theorem newChar_fits (hb : Numeric be) (hM : Metered be M G) {k : Nat} {c : GoString} {st : TState XR} {m : Bool} (hm : G m) {ch : CharD XR}
    (hs : IsNum st.font.size) (hd : IsNum st.dpi) (h : newChar be c st m = .ok ch) : Fits M G k (.char ch) := by
  obtain ⟨t, z, -⟩ := newChar_true hb hM hm hs hd h
  refine ⟨?_, ?_⟩
  · rw [NumT]; exact ⟨rfl, (newChar_num hb hs hd h).1⟩
  · rw [Inv, z]; exact ⟨by omega, t⟩

/-- A character of adapted size: its list -/
theorem auto_good (hb : Numeric be) (hM : Metered be M G) (hG : G true) {k : Nat} {c : GoString} (hc : c ∈ [bs!"(", bs!")", bs!"\\__sqrt__"]) {h d : XR}
    (hh : IsNum h) (hd : IsNum d) {st : TState XR} (hs : IsPos st.font.size) (hdpi : IsPos st.dpi) (hname : st.font.name ≠ []) {n : TNode XR}
    (e : autoHeightChar be c h d st zero = .ok n) : ∃ nd cs, n = .list .h nd cs ∧ Fits M G k n ∧ (0 ≤ h.val + d.val →
      0 ≤ (M c st.font.name st.font.typ st.dpi true).1 → 0 ≤ (M c st.font.name st.font.typ st.dpi true).2 →
      nd.box.height - nd.shift = h ∧ nd.box.depth + nd.shift = d) := by
  obtain ⟨nd, cs, rfl, hnum⟩ := auto_num hb hc hh hd hs hdpi e
  refine ⟨nd, cs, rfl, ?_⟩
  replace e := autoHeightChar_ok e
  unfold autoHeightBody at e
  obtain ⟨ch, hch, e⟩ := Res.bind_eq_ok.1 e
  have hk : be.known c st.font st.dpi true = true := by
    unfold newChar at hch
    split at hch
    · assumption
    · cases hch
  obtain ⟨n1, t⟩ := newChar_num hb hs.num hdpi.num hch
  obtain ⟨-, -, f1, f2⟩ := newChar_true (G := G) hb hM hG hs.num hdpi.num hch
  have htall := hb.tall c _ _ hc hs hdpi hk
  rw [← t] at htall
  have hz : eq (zero : XR) zero = true := by rw [zero_fin]; simp
  dsimp only at e
  rw [if_pos hname, hz, if_pos rfl] at e
  obtain ⟨ch', hch', e⟩ := Res.bind_eq_ok.1 e
  have hf : IsNum ((h + d) / (ch.height + ch.depth)) := (hh.add hd).div (n1.2.1.add n1.2.2.1) htall
  have hs' : IsNum (st.font.size * ((h + d) / (ch.height + ch.depth))) := hs.num.mul hf
  have hgood := newChar_fits (k := k) hb hM hG (st := { st with font := { st.font with size := st.font.size * ((h + d) / (ch.height + ch.depth)) } })
    hs' hdpi.num hch'
  obtain ⟨-, -, g1, g2⟩ := newChar_true (G := G) hb hM hG
    (st := { st with font := { st.font with size := st.font.size * ((h + d) / (ch.height + ch.depth)) } }) hs' hdpi.num hch'
  simp only [Res.ok.injEq, TNode.list.injEq, true_and] at e
  obtain ⟨rfl, rfl⟩ := e
  refine ⟨⟨numT_h hnum _, packed_inv (kerns_good hb (by simpa using hgood)) LHead.zero zero_size _ _ _⟩, ?_⟩
  intro h0 ha hbl
  have hn' := (newChar_num hb (st := { st with font := { st.font with size := st.font.size * ((h + d) / (ch.height + ch.depth)) } }) hs' hdpi.num hch').1
  obtain ⟨p, rfl⟩ := hh
  obtain ⟨q, rfl⟩ := hd
  obtain ⟨s, hs0, es⟩ := hs
  obtain ⟨u, hu⟩ := n1.2.1
  obtain ⟨v, hv⟩ := n1.2.2.1
  obtain ⟨u', hu'⟩ := hn'.2.1
  obtain ⟨v', hv'⟩ := hn'.2.2.1
  dsimp only at g1 g2
  rw [hu, hv, fin_add] at htall g1 g2
  have huv : u + v ≠ 0 := fun h => htall (by rw [h])
  rw [hu, es] at f1
  rw [hv, es] at f2
  rw [hu', es, fin_add, fin_div _ _ huv, fin_mul] at g1
  rw [hv', es, fin_add, fin_div _ _ huv, fin_mul] at g2
  simp only [val_fin] at f1 f2 g1 g2 h0
  generalize (M c st.font.name st.font.typ st.dpi true).1 = A at *
  generalize (M c st.font.name st.font.typ st.dpi true).2 = B at *
  have hsum : u' + v' = p + q := by
    rw [g1, g2, f1, f2]
    rw [f1, f2] at huv
    have hAB : A + B ≠ 0 := fun h => huv (by rw [← add_mul, h, zero_mul])
    have hs1 : s ≠ 0 := ne_of_gt hs0
    rw [← add_mul, ← add_mul]
    field_simp
  have hfac : 0 ≤ (p + q) / (u + v) := by
    rw [f1, f2]
    positivity
  have hu0 : 0 ≤ u' := by rw [g1]; positivity
  have hv0 : 0 ≤ v' := by rw [g2]; positivity
  have hdims : (hpack LHead.zero (insertKerns be [.char ch']) zero true).box.height = .fin u' ∧
      (hpack LHead.zero (insertKerns be [.char ch']) zero true).box.depth = .fin v' := by
    have hik : insertKerns be [.char ch'] = [.char ch'] ∨ ∃ w, insertKerns be [.char ch'] = [.char ch', newKern w] := by
      simp only [insertKerns]
      generalize (!eq (TNode.kerning be (.char ch') (List.head? [])) zero) = q
      cases q
      · exact .inl rfl
      · exact .inr ⟨_, rfl⟩
    unfold hpack
    rw [(finishGlue_box _ _ _ _).1]
    rcases hik with hik | ⟨w, hik⟩ <;> rw [hik] <;>
      simp only [List.foldl_cons, List.foldl_nil, hpackDims, newKern, Dims.zero, hu', hv', zero_fin, fin_max, max_eq_right hu0, max_eq_right hv0, and_self]
  refine ⟨?_, ?_⟩
  · show (hpack LHead.zero (insertKerns be [.char ch']) zero true).box.height - (.fin q - ch'.depth) = .fin p
    rw [hdims.1, hv', fin_sub, fin_sub]; congr 1; linarith
  · show (hpack LHead.zero (insertKerns be [.char ch']) zero true).box.depth + (.fin q - ch'.depth) = .fin q
    rw [hdims.2, hv', fin_sub, fin_add]; congr 1; linarith

theorem centred_good {k : Nat} {n : TNode XR} (h : Fits M G k n) {w : XR} (hw : IsNum w) :
    Fits M G k (.list .h (centredTo n w).1 (centredTo n w).2) ∧ 0 ≤ (centredTo n w).1.box.height.val ∧ 0 ≤ (centredTo n w).1.box.depth.val := by
  have hg : Fits M G k (.glue ssGlue) := by
    refine ⟨?_, ?_⟩
    · rw [NumT]; exact ⟨0, by simp [ssGlue]⟩
    · rw [Inv]; show (0 : Int) ≤ 6; omega
  have hm := mem3 (P := Fits M G k) hg h hg
  have hz : (hpack LHead.zero [.glue ssGlue, n, .glue ssGlue] zero true).box.size ≤ 6 := by rw [hpack_size]; exact zero_size
  obtain ⟨-, ⟨a, ha, ea⟩, ⟨b, hb, eb⟩, -⟩ := hpack_num (fun n hn => (hm n hn).1.node) (hpack LHead.zero [.glue ssGlue, n, .glue ssGlue] zero true) w hw false
  refine ⟨⟨numT_h (centred_num h.1 hw) _, packed_inv hm _ hz w false (centredTo n w).1.shift⟩, ?_, ?_⟩
  · show 0 ≤ (hpack (hpack LHead.zero [.glue ssGlue, n, .glue ssGlue] zero true) [.glue ssGlue, n, .glue ssGlue] w false).box.height.val
    rw [ea]; exact ha
  · show 0 ≤ (hpack (hpack LHead.zero [.glue ssGlue, n, .glue ssGlue] zero true) [.glue ssGlue, n, .glue ssGlue] w false).box.depth.val
    rw [eb]; exact hb

/-! ## Vertical lists -/

/-- Height and depth together -/
def fullV : TNode XR → ℚ
  | .box b | .rule b => b.height.val + b.depth.val
  | .list _ nd _ => nd.box.height.val + nd.box.depth.val
  | .glue g => g.width.val
  | .kern k => k.width.val
  | _ => 0

theorem vpackDims_full {n : TNode XR} (h : VNode n) {p q : Dims XR} (hp : VDims p) (e : vpackDims n p = .ok q) :
    q.x.val + q.b.val = p.x.val + p.b.val + fullV n := by
  obtain ⟨h1, h2, h3⟩ := hp
  cases n with
  | box b =>
    obtain ⟨w, a, d⟩ := h
    simp only [vpackDims, Res.ok.injEq] at e
    subst e
    simp only [fullV]
    rw [h1.val_add (h3.add a), h3.val_add a]; ring
  | char c => exact h.elim
  | accent c => exact h.elim
  | list k hd cs =>
    obtain ⟨w, a, d, _⟩ := h
    simp only [vpackDims, Res.ok.injEq] at e
    subst e
    simp only [fullV]
    rw [h1.val_add (h3.add a), h3.val_add a]; ring
  | rule b =>
    obtain ⟨w, a, d⟩ := h
    simp only [vpackDims, Res.ok.injEq] at e
    subst e
    simp only [fullV]
    rw [h1.val_add (h3.add a), h3.val_add a]; ring
  | glue g =>
    simp only [vpackDims, Res.ok.injEq] at e
    subst e
    simp only [fullV]
    rw [(h1.add h3).val_add h, h1.val_add h3, zero_fin]; simp
  | kern k =>
    simp only [vpackDims, Res.ok.injEq] at e
    subst e
    simp only [fullV]
    rw [h1.val_add (h3.add h), h3.val_add h, zero_fin]; simp; ring

theorem vpackAll_full {l : List (TNode XR)} (h : ∀ n ∈ l, VNode n) {p q : Dims XR} (hp : VDims p) (e : vpackAll l p = .ok q) :
    q.x.val + q.b.val = p.x.val + p.b.val + (l.map fullV).sum := by
  induction l generalizing p with
  | nil => simp only [vpackAll, Res.ok.injEq] at e; subst e; simp
  | cons n l ih =>
    obtain ⟨r, e1, hr⟩ := vpackDims_num (h n (by simp)) hp
    rw [vpackAll, e1, Res.ok_bind] at e
    rw [ih (fun n hn => h n (by simp [hn])) hr e, vpackDims_full (h n (by simp)) hp e1, List.map_cons, List.sum_cons]; ring

/-- A vertical list packed around its nodes is as high in total as these are. -/
theorem vpack_full {l : List (TNode XR)} (h : ∀ n ∈ l, VNode n) {v : LHead XR} (e : vpack LHead.zero l zero true inf = .ok v) :
    v.box.height.val + v.box.depth.val = (l.map fullV).sum ∧ v.box.size = 0 := by
  obtain ⟨q, e1, h1, h2, h3⟩ := vpackAll_num h (p := Dims.zero) ⟨IsNum.zero, IsNum.zero, IsNum.zero⟩
  have hf := vpackAll_full h (p := Dims.zero) ⟨IsNum.zero, IsNum.zero, IsNum.zero⟩ e1
  unfold vpack at e
  have : lt (inf : XR) q.b = false := by obtain ⟨r, hr⟩ := h3; rw [hr]; rfl
  rw [e1, Res.ok_bind, this] at e
  simp only [Bool.false_eq_true, if_false, if_true, Res.ok.injEq] at e
  subst e
  rw [(finishGlue_box _ _ _ _).1]
  refine ⟨?_, rfl⟩
  show (zero + q.x).val + q.b.val = _
  rw [IsNum.zero.val_add h1, add_assoc, hf]
  simp [Dims.zero]

theorem space_of_box {h d : ℚ} (hd : 0 ≤ d) (hh : 0 ≤ h) (h0 : d = 0 → h = 0) : (spaceOf (.fin h) (.fin d)).val = h + d := by
  unfold spaceOf pos
  rw [fin_add, zero_fin, fin_lt, fin_lt]
  rcases eq_or_lt_of_le hd with e | e
  · rw [if_neg (by simp [← e]), ← e, h0 e.symm]; simp
  · rw [if_pos (by simp; constructor <;> linarith)]; rfl

/-- The nodes of a fraction -/
theorem frac_stack {be : Backend XR} {st : TState XR} {t r T : ℚ} (ht : be.underline st.font st.dpi = .fin t) (ht0 : 0 < t) (hr : 0 ≤ r) (hrt : r ≤ t)
    (a b : LHead XR) (ca cb : List (TNode XR)) (ha : 0 ≤ a.box.height.val + a.box.depth.val) (hb : 0 ≤ b.box.height.val + b.box.depth.val)
    (hT : T = a.box.height.val + a.box.depth.val + 4 * t + r + (b.box.height.val + b.box.depth.val)) (hna : NumHead a) :
    Stack T 0 [.list .h a ca, vbox zero (be.underline st.font st.dpi * ofInt 2), hrule be st (.fin r), vbox zero (be.underline st.font st.dpi * ofInt 2),
      .list .h b cb] := by
  have hneg : lt (.fin r : XR) zero = false := by rw [zero_fin]; simp [hr]
  have h12 : (ofRat 1 2 : XR) = .fin (1 / 2) := by show XR.fin _ = _; norm_num
  have e1 : hrule be st (.fin r) = .rule ⟨0, inf, .fin (r / 2), .fin (r / 2)⟩ := by
    unfold hrule newRule newBox
    rw [hneg, h12]
    simp only [Bool.false_eq_true, if_false, fin_mul]
    rw [show 1 / 2 * r = r / 2 by ring]
  have i2 : (ofInt 2 : XR) = .fin 2 := by show XR.fin _ = _; simp
  have e2 : (vbox zero (be.underline st.font st.dpi * ofInt 2) : TNode XR) = .box ⟨0, .fin 0, .fin 0, .fin (t * 2)⟩ := by
    rw [vbox, newBox, ht, i2, fin_mul, zero_fin]
  have s1 : (vspace (.list .h a ca)).val = a.box.height.val + a.box.depth.val := hna.2.1.val_add hna.2.2.1
  have s2 : (vspace (.box ⟨0, .fin 0, .fin 0, .fin (t * 2)⟩ : TNode XR)).val = 2 * t := by
    refine (space_of_box (by linarith) le_rfl (fun h => rfl)).trans ?_
    ring
  have s3 : (vspace (.rule ⟨0, inf, .fin (r / 2), .fin (r / 2)⟩ : TNode XR)).val = r := by
    refine (space_of_box (by linarith) (by linarith) (fun h => h)).trans ?_
    ring
  rw [e1, e2]
  simp only [Stack]
  rw [s1, s2, s3]
  refine ⟨⟨le_rfl, ?_⟩, trivial, ?_, trivial, ⟨?_, ?_⟩, trivial⟩
  · linarith
  · simp only [Slot, val_fin]
    intro _ _
    constructor <;> linarith
  · linarith
  · linarith

theorem hbox_good {k : Nat} {w : XR} (h : IsNum w) : Fits M G k (hbox w) := by
  refine ⟨numT_hbox h _, ?_⟩
  rw [hbox, Inv]; show (0 : Int) ≤ 6; omega

theorem kern_good {k : Nat} {w : XR} (h : IsNum w) : Fits M G k (newKern w) := by
  refine ⟨numT_kern h _, ?_⟩
  rw [newKern, Inv]; show (0 : Int) ≤ 6; omega

theorem shrink_good {k : Nat} {n : TNode XR} (h : Fits M G k n) : Fits M G k (n.shrink be) :=
  ⟨shrink_numT _ _ _ h.1, shrink_inv be n _ k h.1 h.2⟩

theorem genfrac_fits (hb : Numeric be) (hM : Metered be M G) (hG : G true) {k : Nat} {dl ds : Bool} {rule : XR} {a b n : TNode XR} {st : TState XR} {t : ℚ}
    (hs : PosState st) (hname : st.font.name ≠ []) (ht : be.underline st.font st.dpi = .fin t) (ht0 : 0 < t)
    (hr : rule = be.underline st.font st.dpi ∨ rule = zero) (ha : Fits M G k a) (hbn : Fits M G k b)
    (e : genfrac be dl rule ds a b st = .ok n) : Fits M G k n := by
  refine ⟨?_, ?_⟩
  · refine genfrac_num hb hs ?_ ha.1 hbn.1 e
    rcases hr with rfl | rfl
    · exact hb.underline _ _ hs.1.num hs.2.num
    · exact IsNum.zero
  have hr' : ∃ r : ℚ, rule = .fin r ∧ 0 ≤ r ∧ r ≤ t := by
    rcases hr with rfl | rfl
    · exact ⟨t, ht, by linarith, le_rfl⟩
    · exact ⟨0, zero_fin, le_rfl, by linarith⟩
  obtain ⟨r, rfl, hr0, hrt⟩ := hr'
  have hu : IsNum (be.underline st.font st.dpi) := hb.underline _ _ hs.1.num hs.2.num
  have two : IsNum (ofInt 2 : XR) := IsNum.int 2
  unfold genfrac at e
  dsimp only at e
  have ha' : Fits M G k (if ds = true then a else a.shrink be) := by split; exacts [ha, shrink_good ha]
  have hb' : Fits M G k (if ds = true then b else b.shrink be) := by split; exacts [hbn, shrink_good hbn]
  revert e
  generalize (if ds = true then a else a.shrink be) = a' at *
  generalize (if ds = true then b else b.shrink be) = b' at *
  intro e
  have hw := ha'.1.node.width.max hb'.1.node.width
  obtain ⟨ca, a0, a1⟩ := centred_good ha' hw
  obtain ⟨cb, b0, b1⟩ := centred_good hb' hw
  revert e ca a0 a1 cb b0 b1
  generalize centredTo a' (GoFloat.max a'.width b'.width) = pa
  generalize centredTo b' (GoFloat.max a'.width b'.width) = pb
  intro e ca a0 a1 cb b0 b1
  have hna : NumHead pa.1 := by have := ca.1; rw [NumT] at this; exact this.1
  have hnb : NumHead pb.1 := by have := cb.1; rw [NumT] at this; exact this.1
  have up : ∀ {p : LHead XR × List (TNode XR)}, NumT false (.list .h p.1 p.2) → NumT true (.list .h p.1 p.2) := by
    intro p h; rw [NumT] at h ⊢; exact h
  have hcs : ∀ n ∈ [.list .h pa.1 pa.2,
    vbox zero (be.underline st.font st.dpi * ofInt 2), hrule be st (.fin r), vbox zero (be.underline st.font st.dpi * ofInt 2),
    .list .h pb.1 pb.2], NumT true n ∧ Inv M G k n := by
      have hsp : NumT true (vbox zero (be.underline st.font st.dpi * ofInt 2)) := numT_box ⟨IsNum.zero, IsNum.zero, hu.mul two⟩ _
      have hsp' : Inv M G k (vbox zero (be.underline st.font st.dpi * ofInt 2)) := by rw [vbox, Inv]; show (0 : Int) ≤ 6; omega
      intro n hn
      simp only [List.mem_cons, List.not_mem_nil, or_false] at hn
      rcases hn with rfl | rfl | rfl | rfl | rfl
      · exact ⟨up ca.1, ca.2⟩
      · exact ⟨hsp, hsp'⟩
      · refine ⟨hrule_numT ⟨r, rfl⟩ hu, ?_⟩
        rw [hrule, newRule, Inv]; show (0 : Int) ≤ 6; omega
      · exact ⟨hsp, hsp'⟩
      · exact ⟨up cb.1, cb.2⟩
  obtain ⟨v, hv, v1, v2, v3, v4⟩ := vpack_num (l := [.list .h pa.1 pa.2,
    vbox zero (be.underline st.font st.dpi * ofInt 2), hrule be st (.fin r), vbox zero (be.underline st.font st.dpi * ofInt 2),
    .list .h pb.1 pb.2])
    (fun n hn => (hcs n hn).1.vnode) LHead.zero zero IsNum.zero true inf (.inr rfl)
  obtain ⟨f1, f2⟩ := vpack_full (fun n hn => (hcs n hn).1.vnode) hv
  have hstack := frac_stack (be := be) (st := st) (T := v.box.height.val + v.box.depth.val) ht ht0 hr0 hrt pa.1 pb.1 pa.2 pb.2
    (by linarith) (by linarith) (by
      have hneg : lt (.fin r : XR) (.fin 0) = false := by simp [hr0]
      have h12 : (ofRat 1 2 : XR) = .fin (1 / 2) := by show XR.fin _ = _; norm_num
      have i2 : (ofInt 2 : XR) = .fin 2 := by show XR.fin _ = _; simp
      rw [f1]
      simp only [List.map_cons, List.map_nil, List.sum_cons, List.sum_nil, fullV, vbox, hrule, newRule, newBox, hneg, Bool.false_eq_true, if_false,
        ht, i2, h12, fin_mul, val_fin, zero_fin]
      ring) hna
  rw [hv, Res.ok_bind] at e
  split at e
  · rename_i hk
    have hfs : IsNum (st.withType mathDefault).font.size := hs.1.num
    have hm1 := hb.ymax _ _ _ _ hfs hs.2.num hk
    have hm2 := hb.ymin _ _ _ _ hfs hs.2.num hk
    have hsh : IsNum (pb.1.box.height -
        (((be.metrics bs!"=" (st.withType mathDefault).font st.dpi true).ymax +
          (be.metrics bs!"=" (st.withType mathDefault).font st.dpi true).ymin) / ofInt 2 - ofInt 3 * be.underline st.font st.dpi)) := by
      refine hnb.2.1.sub (((hm1.add hm2).div two ?_).sub ((IsNum.int 3).mul hu))
      simp
    revert e hsh
    generalize (pb.1.box.height -
        (((be.metrics bs!"=" (st.withType mathDefault).font st.dpi true).ymax +
          (be.metrics bs!"=" (st.withType mathDefault).font st.dpi true).ymin) / ofInt 2 - ofInt 3 * be.underline st.font st.dpi)) = sh
    intro e hsh
    have hg : Fits M G k (.list .v (v.setShift sh) [.list .h pa.1 pa.2,
        vbox zero (be.underline st.font st.dpi * ofInt 2), hrule be st (.fin r), vbox zero (be.underline st.font st.dpi * ofInt 2),
        .list .h pb.1 pb.2]) := by
      refine ⟨numT_shift v1 v2 v3 hsh (fun n hn => (hcs n hn).1) _, ?_⟩
      rw [Inv]
      refine ⟨?_, .inl ⟨hstack, invs_iff.2 fun n hn => (hcs n hn).2⟩⟩
      show v.box.size ≤ 6
      rw [f2]; omega
    have hbox := hlist_good hb (mem2 hg (hbox_good (two.mul hu)))
    split at e
    · unfold autoSizedDelimiter at e
      dsimp only at e
      obtain ⟨l, hl, e⟩ := Res.bind_eq_ok.1 e
      obtain ⟨r, hr', e⟩ := Res.bind_eq_ok.1 e
      have hmx := maxDims_num hbox.1.node
      obtain ⟨_, _, rfl, nl, -⟩ := auto_good (k := k) hb hM hG (by simp) hmx.1 hmx.2 hs.1 hs.2 hname hl
      obtain ⟨_, _, rfl, nr, -⟩ := auto_good (k := k) hb hM hG (by simp) hmx.1 hmx.2 hs.1 hs.2 hname hr'
      simp only [Res.ok.injEq] at e
      subst e
      exact (hlist_good hb (mem3 nl hbox nr)).2
    · simp only [Res.ok.injEq] at e
      subst e
      exact hbox.2
  · cases e

/-! ## Bars -/

theorem ruled_bar (be : Backend XR) (st : TState XR) (nd : LHead XR) (cs : List (TNode XR)) (w h d t e H : ℚ)
    (hm : Measured nd w h d) (ht : be.underline st.font st.dpi = .fin t) (ht0 : 0 < t) (he : st.font.size * st.dpi / ofInt 1200 = .fin e)
    (hH : 2 * t + h ≤ H + e) (hx : H + e - t - h ≤ 1000000000) :
    ∃ hb b g, ruled be st (.list .h nd cs) (.fin H) (.fin d) = .ok (.list .v hb [.rule b, .glue g, .list .h nd cs]) ∧
      hb.box.size = 0 ∧ b.size = 0 ∧ g.size = 0 ∧ Bar hb [.rule b, .glue g, .list .h nd cs] b g nd cs (H + e - t - h) := by
  obtain ⟨h1, h2, h3, h4, h5, h6⟩ := hm
  have hneg : lt (ofInt (-1) : XR) zero = true := by decide +kernel
  have hrule_eq : hrule be st (ofInt (-1)) = .rule ⟨0, pinf, .fin (1 / 2 * t), .fin (1 / 2 * t)⟩ := by
    simp [hrule, newRule, newBox, hneg, ht, ofRat, inf]
  have hg : (newGlue bs!"fill" : Res (GlueD XR)) = .ok ⟨0, zero, ofInt 1, 2, zero, 0⟩ := by decide +kernel
  unfold ruled
  rw [hg, Res.ok_bind, he, hrule_eq]
  dsimp only
  have hall : vpackAll [.rule ⟨0, pinf, .fin (1 / 2 * t), .fin (1 / 2 * t)⟩, .glue ⟨0, zero, ofInt 1, 2, zero, 0⟩, .list .h nd cs] Dims.zero =
      .ok ⟨.fin (t + h), .fin (max 0 w), .fin d, addAt (fun _ => zero) 2 (ofInt 1), addAt (fun _ => zero) 0 zero⟩ := by
    have hinf : isInf (pinf : XR) = true := rfl
    simp only [vpackAll, vpackDims, Res.ok_bind, Dims.zero, h1, h2, h3, hinf, if_true, zero_fin, fin_add, fin_isInf, Bool.false_eq_true, if_false,
      fin_max]
    congr 3; ring
  have hvp1 : ∃ v : LHead XR, vpack LHead.zero [.rule ⟨0, pinf, .fin (1 / 2 * t), .fin (1 / 2 * t)⟩, .glue ⟨0, zero, ofInt 1, 2, zero, 0⟩, .list .h nd cs]
      zero true inf = .ok v ∧ v.box.size = 0 := by
    unfold vpack
    rw [hall, Res.ok_bind]
    refine ⟨_, rfl, ?_⟩
    rw [(finishGlue_box _ _ _ _).1]; rfl
  obtain ⟨v, hv, v1⟩ := hvp1
  rw [hv, Res.ok_bind]
  have hnlt : lt (.fin d : XR) (.fin d) = false := by simp
  have hvp2 : vpack v [.rule ⟨0, pinf, .fin (1 / 2 * t), .fin (1 / 2 * t)⟩, .glue ⟨0, zero, ofInt 1, 2, zero, 0⟩, .list .h nd cs]
      (.fin H + .fin e) false (.fin d) =
      .ok ⟨⟨0, .fin (max 0 w), .fin (H + e), .fin d⟩, v.shift, .fin (H + e - t - h), 1, 2⟩ := by
    unfold vpack
    rw [hall, Res.ok_bind]
    have hs0 : eq (.fin (H + e - t - h) : XR) zero = false := by
      rw [zero_fin]; simp only [fin_eq, decide_eq_false_iff_not]; intro h0; linarith
    have hp : pos (.fin (H + e - t - h) : XR) = true := by
      unfold pos; rw [zero_fin]; simp only [fin_lt, decide_eq_true_eq]; linarith
    have hsub : (.fin H + .fin e - .fin (t + h) : XR) = .fin (H + e - t - h) := by
      rw [fin_add, fin_sub]; congr 1; ring
    have ho : determineOrder (addAt (fun _ => zero) 2 (ofInt 1) : Fin 4 → XR) = 2 := by decide +kernel
    have ht2 : (addAt (fun _ => zero) 2 (ofInt 1) : Fin 4 → XR) 2 = .fin 1 := by decide +kernel
    have hd1 : (.fin (H + e - t - h) / .fin 1 : XR) = .fin (H + e - t - h) := by rw [fin_div _ _ one_ne_zero, div_one]
    have hz1 : eq (.fin 1 : XR) zero = false := by decide +kernel
    simp only [hnlt, Bool.false_eq_true, if_false, hsub]
    unfold finishGlue
    rw [hs0, hp]
    simp only [Bool.false_eq_true, if_false, if_true]
    unfold setGlue
    simp only [ho, ht2, hz1, hd1, Bool.not_false, if_true, v1, fin_add]
  rw [hvp2, Res.ok_bind]
  refine ⟨_, _, _, rfl, rfl, rfl, rfl, rfl, rfl, rfl, rfl, ?_, hx, zero_fin, ?_, rfl, ?_, ?_, ?_, ?_⟩
  · linarith
  · show XR.fin _ = _; simp
  · simp only [val_fin]; linarith
  · simp only [val_fin]; linarith
  · simp only [val_fin, h2, h3]; ring
  · simp only [val_fin, h2, h3]; linarith

theorem bar_good {k : Nat} {st : TState XR} {nd : LHead XR} {cs : List (TNode XR)} {w h d t e H : ℚ} {n : TNode XR} (hb : Numeric be) (hs : PosState st)
    (hm : Measured nd w h d) (hg : Fits M G k (.list .h nd cs)) (ht : be.underline st.font st.dpi = .fin t) (ht0 : 0 < t)
    (he : st.font.size * st.dpi / ofInt 1200 = .fin e) (hH : 2 * t + h ≤ H + e) (hx : H + e - t - h ≤ 1000000000)
    (hn : ruled be st (.list .h nd cs) (.fin H) (.fin d) = .ok n) : Fits M G (k + 1) n := by
  obtain ⟨hd, b, g, hr, z1, z2, z3, hbar⟩ := ruled_bar be st nd cs w h d t e H hm ht ht0 he hH hx
  have hnum : NumT true (.list .h nd cs) := by have := hg.1; rw [NumT] at this ⊢; exact this
  refine ⟨ruled_num hb hs hnum ⟨H, rfl⟩ ⟨d, rfl⟩ hn, ?_⟩
  rw [hr] at hn
  cases hn
  rw [Inv, z1]
  refine ⟨by omega, .inr ⟨k, b, g, nd, cs, _, rfl, hbar, invs_iff.2 (mem3 ?_ ?_ hg.2)⟩⟩
  · rw [Inv, z2]; omega
  · rw [Inv, z3]; omega

theorem body_measured (hb : Numeric be) {l : List (TNode XR)} (h : ∀ n ∈ l, NumT false n) :
    ∃ w ht d : ℚ, Measured (hbody be l).1 w ht d := by
  obtain ⟨⟨w, a⟩, ⟨ht, b0, b⟩, ⟨d, c0, c⟩, s⟩ := hpack_num (fun n hn => (insertKerns_numT hb h n hn).node) LHead.zero _ IsNum.zero true
  exact ⟨w, ht, d, a, b, c, by show (hpack LHead.zero (insertKerns be l) zero true).shift = _; rw [s]; simp [LHead.zero], b0, c0⟩

theorem body_good (hb : Numeric be) {k : Nat} {l : List (TNode XR)} (h : ∀ n ∈ l, Fits M G k n) : Fits M G k (.list .h (hbody be l).1 (hbody be l).2) :=
  hlist_good hb h

theorem over_good (hb : Numeric be) {k : Nat} {b : List (TNode XR)} {n : TNode XR} {st : TState XR} {t e : ℚ} (hs : PosState st)
    (ht : be.underline st.font st.dpi = .fin t) (ht0 : 0 < t) (he : st.font.size * st.dpi / ofInt 1200 = .fin e) (he0 : 0 ≤ e)
    (hx : 2 * t + e ≤ 1000000000) (hg : ∀ n ∈ b, Fits M G k n)
    (h : buildOverline be (hbody be b).1 (hbody be b).2 st = .ok n) : Fits M G (k + 1) n := by
  have hB := body_good hb hg
  obtain ⟨w, hh, d, hm⟩ := body_measured hb (fun n hn => (hg n hn).1)
  revert h hB hm
  generalize hbody be b = p
  intro h hB hm
  obtain ⟨b1, e1, m1, -, -⟩ := wrap_list be .h p.1 p.2 w hh d hm.width hm.height hm.depth hm.shift hm.above hm.below
  have g1 : Fits M G k (hlistOf be [.list .h p.1 p.2] true) := hlist_good hb (by simpa using hB)
  unfold buildOverline at h
  dsimp only at h
  have i3 : (ofInt 3 : XR) = .fin 3 := by show XR.fin _ = _; simp
  rw [hm.height, hm.depth, hm.shift, ht, i3, fin_sub, fin_mul, fin_add, fin_add, e1] at h
  rw [e1] at g1
  obtain ⟨rhs, hr, h⟩ := Res.bind_eq_ok.1 h
  rw [sub_zero, add_zero] at hr
  have g2 := bar_good hb hs m1 g1 ht ht0 he (by linarith) (by linarith) hr
  simp only [Res.ok.injEq] at h
  subst h
  exact hlist_good hb (by simpa using g2)

theorem sqrt_good (hb : Numeric be) (hM : Metered be M G) (hG : G true) {k : Nat} {root : Option (TNode XR)} {b : List (TNode XR)} {n : TNode XR} {st : TState XR} {t e : ℚ}
    (hs : PosState st) (hname : st.font.name ≠ []) (hA : 0 ≤ (M bs!"\\__sqrt__" st.font.name st.font.typ st.dpi true).1)
    (hD : 0 ≤ (M bs!"\\__sqrt__" st.font.name st.font.typ st.dpi true).2)
    (ht : be.underline st.font st.dpi = .fin t) (ht0 : 0 < t) (he : st.font.size * st.dpi / ofInt 1200 = .fin e) (he0 : 0 ≤ e)
    (hx : 4 * t + e ≤ 1000000000) (hroot : ∀ r, root = some r → Fits M G k r) (hg : ∀ n ∈ b, Fits M G k n)
    (h : buildSqrt be root (hbody be b).1 (hbody be b).2 st = .ok n) : Fits M G (k + 1) n := by
  have hu : IsNum (be.underline st.font st.dpi) := hb.underline _ _ hs.1.num hs.2.num
  have hB := body_good hb hg
  obtain ⟨w, hh, d, hm⟩ := body_measured hb (fun n hn => (hg n hn).1)
  revert h hB hm
  generalize hbody be b = p
  intro h hB hm
  obtain ⟨b1, c1, e1, m1, -⟩ := padded_list be p.1 p.2 w hh d (2 * t) hm
  have g1 : Fits M G k (hlistOf be [hbox (.fin (2 * t)), .list .h p.1 p.2, hbox (.fin (2 * t))] true) :=
    hlist_good hb (mem3 (hbox_good ⟨_, rfl⟩) hB (hbox_good ⟨_, rfl⟩))
  rw [e1] at g1
  unfold buildSqrt at h
  dsimp only at h
  have i5 : (ofInt 5 : XR) = .fin 5 := by show XR.fin _ = _; simp
  have i2 : (ofInt 2 : XR) = .fin 2 := by show XR.fin _ = _; simp
  rw [hm.height, hm.depth, hm.shift, ht, i5, i2, fin_sub, fin_mul, fin_mul, fin_add, fin_add, e1, sub_zero, add_zero] at h
  obtain ⟨check, hc, h⟩ := Res.bind_eq_ok.1 h
  obtain ⟨ch, cc, rfl, gc, hdims⟩ := auto_good (k := k) hb hM hG (by simp) ⟨_, rfl⟩ ⟨_, rfl⟩ hs.1 hs.2 hname hc
  have h0 := hm.above
  have d0 := hm.below
  obtain ⟨q1, q2⟩ := hdims (by simp only [val_fin]; linarith) hA hD
  simp only [TNode.height, TNode.depth, TNode.width] at h
  rw [q1, q2] at h
  obtain ⟨rhs, hr, h⟩ := Res.bind_eq_ok.1 h
  have g2 := bar_good hb hs m1 g1 ht ht0 he (by linarith) (by linarith) hr
  have up1 : ∀ {n : TNode XR}, Fits M G k n → Fits M G (k + 1) n := fun h => ⟨h.1, h.2.up _ _⟩
  have hcn : NumHead ch := by have := gc.1; rw [NumT] at this; exact this.1
  have key : ∀ rt : TNode XR, Fits M G k rt → (vpack LHead.zero [hlistOf be [rt] true] zero true inf >>= fun hd =>
      Res.ok (hlistOf be [.list .v (hd.setShift (-(.fin (hh + 5 * t)) * ofRat 6 10)) [hlistOf be [rt] true],
        newKern (-ch.box.width * ofRat 5 10), .list .h ch cc, rhs] true)) = .ok n → Fits M G (k + 1) n := by
    intro rt gr h
    have gl : Fits M G k (hlistOf be [rt] true) := hlist_good hb (by simpa using gr)
    obtain ⟨hd1, cs1, el⟩ : ∃ hd1 cs1, hlistOf be [rt] true = .list .h hd1 cs1 := ⟨_, _, rfl⟩
    have hdim : 0 ≤ hd1.box.height.val ∧ 0 ≤ hd1.box.depth.val := by
      obtain ⟨_, _, _, hm'⟩ := body_measured hb (l := [rt]) (by simpa using gr.1)
      have : hd1 = (hbody be [rt]).1 := by
        have : hlistOf be [rt] true = .list .h (hbody be [rt]).1 (hbody be [rt]).2 := rfl
        rw [el] at this; cases this; rfl
      rw [this, hm'.height, hm'.depth]
      exact ⟨hm'.above, hm'.below⟩
    rw [el] at h gl
    have gl' : NumT true (.list .h hd1 cs1) := by have := gl.1; rw [NumT] at this ⊢; exact this
    obtain ⟨v, hv, v1, v2, v3, -⟩ := vpack_num (l := [.list .h hd1 cs1]) (by simpa using gl'.vnode) LHead.zero zero IsNum.zero true inf (.inr rfl)
    obtain ⟨f1, f2⟩ := vpack_full (by simpa using gl'.vnode) hv
    rw [hv, Res.ok_bind] at h
    simp only [Res.ok.injEq] at h
    subst h
    refine hlist_good hb ?_
    intro n hn
    simp only [List.mem_cons, List.not_mem_nil, or_false] at hn
    rcases hn with rfl | rfl | rfl | rfl
    · refine ⟨numT_shift v1 v2 v3 (IsNum.mul ⟨_, by rw [fin_neg]⟩ (IsNum.rat _ _)) (by simpa using gl') _, ?_⟩
      rw [Inv]
      refine ⟨by show v.box.size ≤ 6; rw [f2]; omega, .inl ⟨?_, ?_⟩⟩
      · show Stack (v.box.height.val + v.box.depth.val) 0 [.list .h hd1 cs1]
        rw [f1]
        simp only [Stack, Slot, fullV, List.map_cons, List.map_nil, List.sum_cons, List.sum_nil]
        exact ⟨⟨le_rfl, by linarith⟩, trivial⟩
      · exact ⟨gl.2.up _ _, trivial⟩
    · exact kern_good (hcn.1.neg.mul (IsNum.rat _ _))
    · exact up1 gc
    · exact g2
  cases root with
  | none => exact key _ (hbox_good (hcn.1.mul (IsNum.rat _ _))) h
  | some r => exact key _ (shrink_good (shrink_good (hroot r rfl))) h

end Verif
