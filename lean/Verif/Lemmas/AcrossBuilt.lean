import Verif.Lemmas.Across
/-! # What mtex builds is as wide as what it is made of -/

namespace Verif
open Spec GoFloat XR Props

section
variable (be : Backend XR) (A : Advances) (G : Bool → Prop) (D : XR) (s : ℚ)

/-- A node that does not go back, as the element of a horizontal list to be made. -/
def Top : TNode XR → Prop
  | .char c => c.dpi = D ∧ 0 ≤ s ∧ c.font.size = .fin s ∧ ∃ m, G m ∧ be.known c.c c.font c.dpi m = true ∧
      c.metrics.advance.val = A c.c c.font.name c.font.typ c.dpi m * s
  | .list _ _ _ => True
  | .kern k => 0 ≤ k.width.val
  | .box b => 0 ≤ b.width.val
  | _ => False

/-- The invariant of the nodes made by mtex -/
def Goes (n : TNode XR) : Prop := NumT false n ∧ InvW A G n ∧ Top be A G D s n
end

variable {be : Backend XR} {A : Advances} {G : Bool → Prop} {D : XR} {s : ℚ}

/-- How far the node reaches from its reference point -/
def lead : TNode XR → ℚ
  | .char c => c.metrics.advance.val
  | n => n.width.val

/-- The sum of the widths -/
def wsum (l : List (TNode XR)) : ℚ := (l.map fun n => n.width.val).sum

@[simp] theorem wsum_nil : wsum [] = 0 := rfl
@[simp] theorem wsum_cons (n : TNode XR) (l : List (TNode XR)) : wsum (n :: l) = n.width.val + wsum l := by simp [wsum]

theorem natural_val {l : List (TNode XR)} (h : ∀ n ∈ l, NumNode n) : naturalWidth l = .fin (wsum l) := by
  have key : ∀ (l : List (TNode XR)) (q : ℚ), (∀ n ∈ l, NumNode n) → l.foldl (fun x n => x + n.width) (.fin q) = .fin (q + wsum l) := by
    intro l
    induction l with
    | nil => intro q _; simp
    | cons n l ih =>
      intro q h
      rw [List.foldl_cons, (h n (by simp)).width.eq_val, fin_add, ih _ (fun n hn => h n (by simp [hn])), wsum_cons]
      congr 1; ring
  unfold naturalWidth
  rw [zero_fin, key l 0 h, zero_add]

theorem hpack_wsum {l : List (TNode XR)} (h : ∀ n ∈ l, NumNode n) (hd : LHead XR) : (hpack hd l zero true).box.width = .fin (wsum l) := by
  rw [(C40_hpack_width hd l zero).2, natural_val h, zero_fin, fin_add, zero_add]

theorem kern_step (hA : ∀ c n t d m, 0 ≤ A c n t d m) (hD : IsNum D) {n : TNode XR} (h : Goes be A G D s n) {o : Option (TNode XR)} (hk : o ≠ none → KernFits be A G s)
    (ho : ∀ n', o = some n' → Goes be A G D s n') :
    ∃ κ : ℚ, n.width.val + (n.kerning be o).val = lead n + κ ∧ -lead n ≤ κ ∧ (o = none → κ = 0) ∧ ∀ n', o = some n' → -lead n' ≤ κ := by
  have nonneg : ∀ n : TNode XR, Goes be A G D s n → 0 ≤ lead n := by
    intro n h
    obtain ⟨h1, h2, h3⟩ := h
    cases n with
    | char c =>
      obtain ⟨-, h0, -, m, -, -, e⟩ := h3
      show 0 ≤ c.metrics.advance.val
      rw [e]
      exact mul_nonneg (hA _ _ _ _ _) h0
    | list k nd cs => cases k <;> simp only [InvW] at h2 <;> exact h2.2.1
    | kern k => exact h3
    | box b => exact h3
    | glue => exact h3.elim
    | rule => exact h3.elim
    | accent => exact h3.elim
  have other : (∀ c, n ≠ .char c) → ∃ κ : ℚ, n.width.val + (n.kerning be o).val = lead n + κ ∧ -lead n ≤ κ ∧ (o = none → κ = 0) ∧ ∀ n', o = some n' → -lead n' ≤ κ := by
    intro hc
    refine ⟨0, ?_, by linarith [nonneg n h], fun _ => rfl, fun n' e => by linarith [nonneg n' (ho n' e)]⟩
    cases n <;> first | exact absurd rfl (hc _) | exact h.2.2.elim | (simp [TNode.kerning, lead])
  cases n with
  | char c =>
    obtain ⟨h1, -, h4, h5, h9, m, h6, h7, h8⟩ := h
    rw [NumT] at h1
    obtain ⟨-, w, -, -, a, -, d⟩ := h1
    have base : (c.metrics.advance - c.width).val = c.metrics.advance.val - c.width.val := a.val_sub w
    have a0 : 0 ≤ c.metrics.advance.val := by rw [h8]; exact mul_nonneg (hA _ _ _ _ _) h5
    have plain : ((c.metrics.advance - c.width) + zero : XR).val = c.metrics.advance.val - c.width.val := by
      rw [(a.sub w).val_add IsNum.zero, base, zero_fin]; simp
    cases o with
    | none =>
      refine ⟨0, ?_, by show -c.metrics.advance.val ≤ 0; linarith, fun _ => rfl, fun _ e => by cases e⟩
      show c.width.val + ((c.metrics.advance - c.width) + zero : XR).val = c.metrics.advance.val + 0
      rw [plain]; ring
    | some n' =>
      have hn' := ho n' rfl
      have l' := nonneg n' hn'
      cases n' with
      | char c' =>
        obtain ⟨h1', -, h4', h5', h9', m', h6', h7', h8'⟩ := hn'
        rw [NumT] at h1'
        obtain ⟨-, w', -, -, a', -, d'⟩ := h1'
        obtain ⟨ch, sz, wd, ht, dp, mt, ⟨fn, ft, fs⟩, dpi, mth⟩ := c
        obtain ⟨ch', sz', wd', ht', dp', mt', ⟨fn', ft', fs'⟩, dpi', mth'⟩ := c'
        dsimp only at *
        subst h4
        subst h4'
        subst h9
        subst h9'
        obtain ⟨k, k1, k2, k3⟩ := hk (by simp) ch fn ft m ch' fn' ft' m' dpi' h6 h6' hD h7 h7'
        refine ⟨k, ?_, ?_, (fun e => by cases e), fun n' e => ?_⟩
        · show wd.val + ((mt.advance - wd) + be.kern ⟨fn, ft, .fin s⟩ ch ⟨fn', ft', .fin s⟩ ch' dpi' : XR).val = mt.advance.val + k
          rw [k1, (a.sub w).val_add ⟨k, rfl⟩, base]; simp only [val_fin]; ring
        · show -mt.advance.val ≤ k
          rw [h8]; exact k2
        · cases e
          show -mt'.advance.val ≤ k
          rw [h8']; exact k3
      | accent => exact hn'.2.2.elim
      | glue => exact hn'.2.2.elim
      | rule => exact hn'.2.2.elim
      | list k nd cs =>
        refine ⟨0, ?_, by show -c.metrics.advance.val ≤ 0; linarith, fun _ => rfl, fun _ e => by cases e; linarith⟩
        show c.width.val + ((c.metrics.advance - c.width) + zero : XR).val = c.metrics.advance.val + 0
        rw [plain]; ring
      | kern k =>
        refine ⟨0, ?_, by show -c.metrics.advance.val ≤ 0; linarith, fun _ => rfl, fun _ e => by cases e; linarith⟩
        show c.width.val + ((c.metrics.advance - c.width) + zero : XR).val = c.metrics.advance.val + 0
        rw [plain]; ring
      | box b =>
        refine ⟨0, ?_, by show -c.metrics.advance.val ≤ 0; linarith, fun _ => rfl, fun _ e => by cases e; linarith⟩
        show c.width.val + ((c.metrics.advance - c.width) + zero : XR).val = c.metrics.advance.val + 0
        rw [plain]; ring
  | list => exact other (fun _ => by simp)
  | kern => exact other (fun _ => by simp)
  | box => exact other (fun _ => by simp)
  | glue => exact h.2.2.elim
  | rule => exact h.2.2.elim
  | accent => exact h.2.2.elim

theorem kerns_wsum (hb : Numeric be) {n : TNode XR} {l : List (TNode XR)} (hn : NumNode n) (hl : ∀ m ∈ l, NumNode m) :
    wsum (insertKerns be (n :: l)) = n.width.val + (n.kerning be l.head?).val + wsum (insertKerns be l) := by
  have hk := kerning_num hb hn l.head? (fun m hm => hl m (List.mem_of_mem_head? hm))
  rw [insertKerns]
  obtain ⟨q, hq⟩ := hk
  simp only [hq]
  by_cases h0 : q = 0
  · rw [if_neg (by rw [zero_fin]; simp [h0])]
    rw [wsum_cons, h0, val_fin]; ring
  · rw [if_pos (by rw [zero_fin]; simp [h0])]
    rw [wsum_cons, wsum_cons]
    show _ + (q + _) = _
    rw [val_fin]; ring

theorem kerns_rest (hb : Numeric be) (hA : ∀ c n t d m, 0 ≤ A c n t d m) (hD : IsNum D) : ∀ (l : List (TNode XR)) (κ : ℚ), (2 ≤ l.length → KernFits be A G s) → (∀ n ∈ l, Goes be A G D s n) → (l.head? = none → κ = 0) →
    (∀ n', l.head? = some n' → -lead n' ≤ κ) → 0 ≤ κ + wsum (insertKerns be l)
  | [], κ, _, _, h0, _ => by rw [h0 rfl]; simp [insertKerns]
  | n :: l, κ, hk, h, _, h1 => by
    have hn := h n (by simp)
    have hl : ∀ m ∈ l, Goes be A G D s m := fun m hm => h m (by simp [hm])
    obtain ⟨κ', e, k1, k2, k3⟩ := kern_step hA hD hn (o := l.head?) (fun hne => hk (by cases l <;> simp at hne ⊢)) (fun n' e => hl n' (List.mem_of_mem_head? e))
    rw [kerns_wsum hb hn.1.node (fun m hm => (hl m hm).1.node), e]
    have := kerns_rest hb hA hD l κ' (fun h => hk (by simp; omega)) hl k2 k3
    have := h1 n rfl
    linarith

theorem place_lead {W p : ℚ} {n : TNode XR} (h : Goes be A G D s n) (hp : 0 ≤ p) (hW : p + lead n ≤ W) : Place A G W p n := by
  obtain ⟨-, -, h⟩ := h
  cases n with
  | char c =>
    obtain ⟨-, h0, h9, m, h6, -, h8⟩ := h
    exact ⟨hp, by rw [h9]; exact h0, m, h6, by rw [h9, val_fin, ← h8]; exact hW⟩
  | list => exact ⟨hp, hW⟩
  | kern => trivial
  | box => trivial
  | glue => exact h.elim
  | rule => exact h.elim
  | accent => exact h.elim

theorem kerns_row (hb : Numeric be) (hA : ∀ c n t d m, 0 ≤ A c n t d m) (hD : IsNum D) : ∀ (l : List (TNode XR)) (p W : ℚ), (2 ≤ l.length → KernFits be A G s) → (∀ n ∈ l, Goes be A G D s n) → 0 ≤ p →
    W = p + wsum (insertKerns be l) → Row A G W p (insertKerns be l)
  | [], _, _, _, _, _, _ => trivial
  | n :: l, p, W, hk2, h, hp, hW => by
    have hn := h n (by simp)
    have hl : ∀ m ∈ l, Goes be A G D s m := fun m hm => h m (by simp [hm])
    obtain ⟨κ', e, k1, k2, k3⟩ := kern_step hA hD hn (o := l.head?) (fun hne => hk2 (by cases l <;> simp at hne ⊢)) (fun n' e => hl n' (List.mem_of_mem_head? e))
    have hr := kerns_rest hb hA hD l κ' (fun h => hk2 (by simp; omega)) hl k2 k3
    rw [kerns_wsum hb hn.1.node (fun m hm => (hl m hm).1.node), e] at hW
    have hplace := place_lead hn hp (show p + lead n ≤ W by linarith)
    have hk := kerning_num hb hn.1.node l.head? (fun m hm => (hl m (List.mem_of_mem_head? hm)).1.node)
    obtain ⟨q, hq⟩ := hk
    rw [hq, val_fin] at e
    have ih := kerns_row hb hA hD l (p + (n.width.val + q)) W (fun h => hk2 (by simp; omega)) hl (by linarith) (by linarith)
    rw [insertKerns]
    simp only [hq]
    by_cases h0 : q = 0
    · rw [if_neg (by rw [zero_fin]; simp [h0]), Row]
      refine ⟨hplace, ?_⟩
      rw [h0, add_zero] at ih
      exact ih
    · rw [if_pos (by rw [zero_fin]; simp [h0]), Row, Row]
      refine ⟨hplace, trivial, ?_⟩
      show Row A G W (p + n.width.val + q) _
      rw [add_assoc]; exact ih

theorem kerns_invW {l : List (TNode XR)} (h : ∀ n ∈ l, InvW A G n) : ∀ n ∈ insertKerns be l, InvW A G n := by
  induction l with
  | nil => intro n hn; cases hn
  | cons a l ih =>
    have ha := h a (by simp)
    have ih := ih (fun n hn => h n (by simp [hn]))
    rw [insertKerns]
    split
    · intro n hn
      simp only [List.mem_cons] at hn
      rcases hn with rfl | rfl | hn
      · exact ha
      · rw [newKern, InvW]; show (0 : Int) ≤ 6; omega
      · exact ih n hn
    · intro n hn
      simp only [List.mem_cons] at hn
      rcases hn with rfl | hn
      · exact ha
      · exact ih n hn

/-- A horizontal list packed around its nodes, with any shift -/
theorem packed_goes (hb : Numeric be) (hA : ∀ c n t d m, 0 ≤ A c n t d m) (hD : IsNum D) {l : List (TNode XR)} (hk : 2 ≤ l.length → KernFits be A G s)
    (h : ∀ n ∈ l, Goes be A G D s n) (z : XR) :
    InvW A G (.list .h { hpack LHead.zero (insertKerns be l) zero true with shift := z } (insertKerns be l)) := by
  have hn : ∀ n ∈ insertKerns be l, NumNode n := fun n hn => (insertKerns_numT hb (fun n hn => (h n hn).1) n hn).node
  have hw := hpack_wsum hn LHead.zero
  rw [InvW]
  show (hpack LHead.zero (insertKerns be l) zero true).box.size ≤ 6 ∧ 0 ≤ (hpack LHead.zero (insertKerns be l) zero true).box.width.val ∧
    (Row A G (hpack LHead.zero (insertKerns be l) zero true).box.width.val 0 _ ∨ _) ∧ _
  rw [hpack_size, hw, val_fin]
  refine ⟨zero_size, ?_, .inl (kerns_row hb hA hD l 0 _ hk h le_rfl (by rw [zero_add])), invWs_iff.2 (kerns_invW fun n hn => (h n hn).2.1)⟩
  have := kerns_rest hb hA hD l 0 hk h (fun _ => rfl) ?_
  · linarith
  · intro n' e
    have hn' := h n' (List.mem_of_mem_head? e)
    obtain ⟨κ, e1, k1, k2, k3⟩ := kern_step hA hD hn' (o := none) (fun h => absurd rfl h) (fun _ e => by cases e)
    rw [k2 rfl] at k1
    exact k1

theorem hlist_goes (hb : Numeric be) (hA : Advancing be A G s) (hD : IsNum D) {l : List (TNode XR)} (h : ∀ n ∈ l, Goes be A G D s n) :
    Goes be A G D s (hlistOf be l true) :=
  ⟨hlistOf_num hb fun n hn => (h n hn).1, packed_goes hb hA.forth hD (fun _ => hA.kern) h (hpack LHead.zero (insertKerns be l) zero true).shift, trivial⟩

theorem newChar_goes (hb : Numeric be) {z : ℚ} (hA : Advancing be A G z) {c : GoString} {st : TState XR} {m : Bool} (hm : G m) {ch : CharD XR}
    (hs : st.font.size = .fin s) (hs0 : 0 ≤ s) (hd : st.dpi = D) (hD : IsNum D) (h : newChar be c st m = .ok ch) : Goes be A G D s (.char ch) := by
  have hnum := (newChar_num hb ⟨s, hs⟩ (by rw [hd]; exact hD) h).1
  unfold newChar at h
  split at h
  · rename_i hk
    simp only [Res.ok.injEq] at h
    subst h
    refine ⟨by rw [NumT]; exact ⟨rfl, hnum⟩, by rw [InvW]; show (0 : Int) ≤ 6; omega, ?_⟩
    obtain ⟨⟨n, t, sz⟩, dpi⟩ := st
    dsimp only at hs hd hk
    subst hs
    subst hd
    refine ⟨rfl, hs0, rfl, m, hm, hk, ?_⟩
    show (be.metrics c ⟨n, t, .fin s⟩ dpi m).advance.val = _
    rw [hA.advance c n t s dpi m hm hD hk]; rfl
  · cases h

theorem kern_goes {w : XR} (h : IsNN w) : Goes be A G D s (newKern w) := by
  refine ⟨numT_kern h.num _, by rw [newKern, InvW]; show (0 : Int) ≤ 6; omega, ?_⟩
  obtain ⟨q, h0, rfl⟩ := h
  exact h0

theorem hbox_goes {w : XR} (h : IsNN w) : Goes be A G D s (hbox w) := by
  refine ⟨numT_hbox h.num _, by rw [hbox, InvW]; show (0 : Int) ≤ 6; omega, ?_⟩
  obtain ⟨q, h0, rfl⟩ := h
  exact h0

theorem Goes.list_width {k : LKind} {nd : LHead XR} {cs : List (TNode XR)} (h : Goes be A G D s (.list k nd cs)) : IsNN nd.box.width := by
  obtain ⟨h1, h2, -⟩ := h
  rw [NumT] at h1
  refine ⟨_, ?_, h1.1.1.eq_val⟩
  cases k <;> simp only [InvW] at h2 <;> exact h2.2.1

/-- A character of adapted size: its list -/
theorem auto_goes (hb : Numeric be) (hA : Advancing be A G s) (hG : G true) {c : GoString} (hc : c ∈ [bs!"(", bs!")", bs!"\\__sqrt__"]) {h d : XR}
    (hh : IsNum h) (hd : IsNum d) (h0 : 0 ≤ h.val + d.val) {st : TState XR} (hs : st.font.size = .fin s) (hs0 : 0 < s) (hdpi : st.dpi = D)
    (hD : IsPos D) (hname : st.font.name ≠ []) {n : TNode XR} (e : autoHeightChar be c h d st zero = .ok n) :
    ∃ nd cs, n = .list .h nd cs ∧ Goes be A G D s n := by
  have hsp : IsPos st.font.size := ⟨s, hs0, hs⟩
  have hdp : IsPos st.dpi := by rw [hdpi]; exact hD
  obtain ⟨nd, cs, rfl, hnum⟩ := auto_num hb hc hh hd hsp hdp e
  refine ⟨nd, cs, rfl, numT_h hnum _, ?_, trivial⟩
  replace e := autoHeightChar_ok e
  unfold autoHeightBody at e
  obtain ⟨ch, hch, e⟩ := Res.bind_eq_ok.1 e
  have hk : be.known c st.font st.dpi true = true := by
    unfold newChar at hch
    split at hch
    · assumption
    · cases hch
  obtain ⟨n1, t⟩ := newChar_num hb hsp.num hdp.num hch
  have hz : eq (zero : XR) zero = true := by rw [zero_fin]; simp
  dsimp only at e
  rw [if_pos hname, hz, if_pos rfl] at e
  obtain ⟨ch', hch', e'⟩ := Res.bind_eq_ok.1 e
  simp only [Res.ok.injEq, TNode.list.injEq, true_and] at e'
  obtain ⟨rfl, rfl⟩ := e'
  have hup : ∃ q : ℚ, (be.metrics c st.font st.dpi true).height = .fin q ∧ 0 < q := by
    obtain ⟨⟨n, ty, sz⟩, dpi⟩ := st
    dsimp only at hs hk hdp
    subst hs
    exact hA.upright c n ty dpi hc hdp hk
  obtain ⟨q, hq, q0⟩ := hup
  rw [hq] at t
  obtain ⟨p1, rfl⟩ := hh
  obtain ⟨p2, rfl⟩ := hd
  simp only [val_fin] at h0
  rw [t, hs, fin_add, fin_div _ _ (ne_of_gt q0), fin_mul] at hch'
  have hgood := newChar_goes (D := D) (st := ⟨⟨st.font.name, st.font.typ, _⟩, st.dpi⟩) hb hA hG rfl (mul_nonneg (le_of_lt hs0) (div_nonneg h0 (le_of_lt q0))) hdpi hD.num hch'
  exact packed_goes hb hA.forth hD.num (fun h => by simp at h) (by simpa using hgood) _

theorem shrink_goes_list {k : LKind} {nd : LHead XR} {cs : List (TNode XR)} (h : Goes be A G D s (.list k nd cs)) :
    Goes be A G D s ((TNode.list k nd cs).shrink be) :=
  ⟨shrink_numT _ _ _ h.1, shrink_invW be _ _ h.1 h.2.1, by rw [TNode.shrink]; trivial⟩

/-! ## Fractions -/

theorem centred_goes {nd : LHead XR} {cs : List (TNode XR)} (h : Goes be A G D s (.list .h nd cs)) {W : ℚ} (hW : nd.box.width.val ≤ W) :
    Goes be A G D s (.list .h (centredTo (.list .h nd cs) (.fin W)).1 (centredTo (.list .h nd cs) (.fin W)).2) ∧
      (centredTo (.list .h nd cs) (.fin W)).1.box.width = .fin W ∧ (centredTo (.list .h nd cs) (.fin W)).1.shift = .fin 0 := by
  have hw := h.list_width
  have hnum := centred_num h.1 (w := .fin W) ⟨W, rfl⟩
  have hnode : NumNode (.list .h nd cs) := h.1.node
  obtain ⟨w, w0, hw⟩ := hw
  rw [hw, val_fin] at hW
  obtain ⟨p, hp, hx⟩ : ∃ p : Dims XR, ([.glue ssGlue, .list .h nd cs, .glue ssGlue] : List (TNode XR)).foldl (fun p n => hpackDims n p) Dims.zero = p ∧
      p.x = .fin w ∧ p.st = addAt (addAt (Dims.zero : Dims XR).st 1 (ofInt 1)) 1 (ofInt 1) := by
    refine ⟨_, rfl, ?_⟩
    obtain ⟨-, a, d, s⟩ := hnode
    simp only [List.foldl_cons, List.foldl_nil, hpackDims, a.isInf, d.isInf, Bool.or_self, Bool.false_eq_true, if_false, hw, ssGlue, Dims.zero, zero_fin, fin_add,
      and_true]
    congr 1; ring
  have hw1 : (centredTo (.list .h nd cs) (.fin W)).1.box.width = .fin W := (C40_hpack_width _ _ _).1
  have hs1 : (centredTo (.list .h nd cs) (.fin W)).1.shift = .fin 0 := by
    show (hpack (F := XR) _ _ _ _).shift = _
    rw [(hpack_box _ _ _ _ _ hp).2, (hpack_box _ _ _ _ _ hp).2]; simp [LHead.zero]
  refine ⟨⟨numT_h hnum _, ?_, trivial⟩, hw1, hs1⟩
  have hsz : (centredTo (.list .h nd cs) (.fin W)).1.box.size = 0 := by
    show (hpack (F := XR) _ _ _ _).box.size = _
    rw [hpack_size, hpack_size]; rfl
  rw [InvW, hsz, hw1, val_fin]
  refine ⟨by omega, by linarith, .inr ⟨ssGlue, ssGlue, nd, cs, (W - w) / 2, ⟨rfl, ?_, ?_, rfl, ?_, ?_, ?_, ?_⟩⟩, ?_⟩
  · simp [ssGlue]
  · simp [ssGlue]
  · show (0 : Int) ≤ 6; omega
  · show (hpack (F := XR) _ _ _ _).sign = 0 ∨ _
    have hset : (centredTo (.list .h nd cs) (.fin W)).1 = hpack (hpack LHead.zero [.glue ssGlue, .list .h nd cs, .glue ssGlue] zero true)
      [.glue ssGlue, .list .h nd cs, .glue ssGlue] (.fin W) false := rfl
    rw [← hset]
    have : (centredTo (.list .h nd cs) (.fin W)).1.sign = 0 ∨ ((centredTo (.list .h nd cs) (.fin W)).1.sign = 1 ∧
      (centredTo (.list .h nd cs) (.fin W)).1.order = 1 ∧ (centredTo (.list .h nd cs) (.fin W)).1.set = .fin ((W - w) / 2)) := by
      rw [hset, hpack, hp, hx.1, hx.2]
      simp only [Bool.false_eq_true, if_false, fin_sub]
      unfold finishGlue
      by_cases h0 : W - w = 0
      · rw [if_pos (by rw [zero_fin]; simp [h0])]; exact .inl rfl
      · rw [if_neg (by rw [zero_fin]; simp [h0])]
        have hp : pos (.fin (W - w) : XR) = true := by
          unfold pos; rw [zero_fin, fin_lt, decide_eq_true_eq]
          rcases lt_or_eq_of_le hW with h | h
          · linarith
          · exact absurd (by rw [h]; ring) h0
        rw [if_pos hp]
        have ho : determineOrder (addAt (addAt (Dims.zero : Dims XR).st 1 (ofInt 1)) 1 (ofInt 1)) = 1 := by decide +kernel
        have ht : (addAt (addAt (Dims.zero : Dims XR).st 1 (ofInt 1)) 1 (ofInt 1)) 1 = .fin 2 := by decide +kernel
        have hz : eq (.fin 2 : XR) zero = false := by decide +kernel
        unfold setGlue
        simp only [ho, ht, hz, Bool.not_false, if_true]
        right
        exact ⟨trivial, trivial, fin_div _ _ (by norm_num)⟩
    exact this
  · linarith
  · show nd.box.width.val + _ ≤ (centredTo (.list .h nd cs) (.fin W)).1.box.width.val
    rw [hw, hw1, val_fin, val_fin]; linarith
  · have hg : InvW A G (.glue ssGlue) := by rw [InvW]; show (0 : Int) ≤ 6; omega
    exact invWs_iff.2 (mem3 (P := InvW A G) hg h.2.1 hg)

theorem vpackDims_wide {n : TNode XR} (h : VNode n) {p q : Dims XR} (hp : VDims p) (e : vpackDims n p = .ok q) :
    p.a.val ≤ q.a.val ∧ ∀ k nd cs, n = .list k nd cs → nd.box.width.val ≤ q.a.val := by
  obtain ⟨h1, h2, h3⟩ := hp
  have mx : ∀ {w : XR}, (IsNum w ∨ w = .pinf) → p.a.val ≤ (if isInf w then p.a else GoFloat.max p.a w).val := by
    rintro w (hw | rfl)
    · rw [hw.isInf, if_neg (by simp), h2.val_max hw]; exact le_max_left _ _
    · exact le_rfl
  cases n with
  | box b =>
    simp only [vpackDims, Res.ok.injEq] at e
    subst e
    exact ⟨mx (.inl h.1), fun _ _ _ e => by cases e⟩
  | char c => exact h.elim
  | accent c => exact h.elim
  | list k hd cs =>
    obtain ⟨w, -⟩ := h
    simp only [vpackDims, Res.ok.injEq] at e
    subst e
    refine ⟨mx (.inl w), fun _ _ _ e => ?_⟩
    cases e
    simp only
    rw [w.isInf, if_neg (by simp), h2.val_max w]; exact le_max_right _ _
  | rule b =>
    simp only [vpackDims, Res.ok.injEq] at e
    subst e
    exact ⟨mx h.1, fun _ _ _ e => by cases e⟩
  | glue g =>
    simp only [vpackDims, Res.ok.injEq] at e
    subst e
    exact ⟨le_rfl, fun _ _ _ e => by cases e⟩
  | kern k =>
    simp only [vpackDims, Res.ok.injEq] at e
    subst e
    exact ⟨le_rfl, fun _ _ _ e => by cases e⟩

theorem vpackAll_wide {l : List (TNode XR)} (h : ∀ n ∈ l, VNode n) {p q : Dims XR} (hp : VDims p) (e : vpackAll l p = .ok q) :
    p.a.val ≤ q.a.val ∧ ∀ k nd cs, .list k nd cs ∈ l → nd.box.width.val ≤ q.a.val := by
  induction l generalizing p with
  | nil => simp only [vpackAll, Res.ok.injEq] at e; subst e; exact ⟨le_rfl, fun _ _ _ h => by cases h⟩
  | cons n l ih =>
    obtain ⟨r, e1, hr⟩ := vpackDims_num (h n (by simp)) hp
    rw [vpackAll, e1, Res.ok_bind] at e
    obtain ⟨i1, i2⟩ := ih (fun n hn => h n (by simp [hn])) hr e
    obtain ⟨j1, j2⟩ := vpackDims_wide (h n (by simp)) hp e1
    refine ⟨le_trans j1 i1, fun k nd cs hm => ?_⟩
    rcases List.mem_cons.1 hm with rfl | hm
    · exact le_trans (j2 _ _ _ rfl) i1
    · exact i2 _ _ _ hm

/-- A vertical list is as wide as what it is made of. -/
theorem vpack_wide {l : List (TNode XR)} (h : ∀ n ∈ l, VNode n) {hd v : LHead XR} {w d : XR} {add : Bool} (e : vpack hd l w add d = .ok v) :
    0 ≤ v.box.width.val ∧ (∀ k nd cs, .list k nd cs ∈ l → nd.box.width.val ≤ v.box.width.val) ∧ v.box.size = hd.box.size := by
  obtain ⟨q, e1, -⟩ := vpackAll_num h (p := Dims.zero) ⟨IsNum.zero, IsNum.zero, IsNum.zero⟩
  obtain ⟨i1, i2⟩ := vpackAll_wide h (p := Dims.zero) ⟨IsNum.zero, IsNum.zero, IsNum.zero⟩ e1
  unfold vpack at e
  rw [e1, Res.ok_bind] at e
  simp only [Res.ok.injEq] at e
  subst e
  rw [(finishGlue_box _ _ _ _).1]
  refine ⟨?_, i2, rfl⟩
  have : (Dims.zero : Dims XR).a.val = 0 := by simp [Dims.zero]
  rw [this] at i1
  exact i1

/-- A vertical list of unshifted horizontal lists, rules of any width, boxes and glue -/
theorem vlist_invW {l : List (TNode XR)} (hv : ∀ n ∈ l, VNode n) (hi : ∀ n ∈ l, InvW A G n) {hd v : LHead XR} {w d s : XR} {add : Bool}
    (e : vpack hd l w add d = .ok v) (hz : hd.box.size ≤ 6)
    (hl : ∀ n ∈ l, (∃ nd cs, n = .list .h nd cs ∧ nd.shift = .fin 0) ∨ (∃ b, n = .rule b ∧ b.width = .pinf) ∨ (∃ b, n = .box b) ∨ ∃ g, n = .glue g) :
    InvW A G (.list .v (v.setShift s) l) := by
  obtain ⟨h1, h2, h3⟩ := vpack_wide hv e
  rw [InvW]
  refine ⟨by show v.box.size ≤ 6; rw [h3]; exact hz, h1, ?_, invWs_iff.2 hi⟩
  intro n hn
  rcases hl n hn with ⟨nd, cs, rfl, e⟩ | ⟨b, rfl, e⟩ | ⟨b, rfl⟩ | ⟨g, rfl⟩
  · exact ⟨e, h2 _ _ _ hn⟩
  · exact e
  · trivial
  · trivial

theorem hrule_eq (be : Backend XR) (st : TState XR) (t : XR) : ∃ b : BoxD XR, hrule be st t = .rule b ∧ b.width = .pinf ∧ b.size = 0 :=
  ⟨_, rfl, rfl, rfl⟩

theorem genfrac_goes (hb : Numeric be) (hA : Advancing be A G s) (hG : G true) {dl ds : Bool} {rule : XR} {an bn : LHead XR} {ac bc : List (TNode XR)} {n : TNode XR}
    {st : TState XR} (hs : st.font.size = .fin s) (hs0 : 0 < s) (hdpi : st.dpi = D) (hD : IsPos D) (hname : st.font.name ≠ [])
    (hr : rule = be.underline st.font st.dpi ∨ rule = zero) (ha : Goes be A G D s (.list .h an ac)) (hbn : Goes be A G D s (.list .h bn bc))
    (e : genfrac be dl rule ds (.list .h an ac) (.list .h bn bc) st = .ok n) : Goes be A G D s n := by
  have hps : PosState st := ⟨⟨s, hs0, hs⟩, by rw [hdpi]; exact hD⟩
  obtain ⟨t, ht, t0⟩ : ∃ t : ℚ, be.underline st.font st.dpi = .fin t ∧ 0 ≤ t := by
    obtain ⟨⟨n, ty, sz⟩, dpi⟩ := st
    dsimp only at hs hdpi
    subst hs
    exact hA.line n ty dpi (by rw [hdpi]; exact hD)
  have hu : IsNum (be.underline st.font st.dpi) := ⟨t, ht⟩
  have hru : IsNum rule := by
    rcases hr with rfl | rfl
    · exact hu
    · exact IsNum.zero
  have two : IsNum (ofInt 2 : XR) := IsNum.int 2
  have hsh : ∀ (nd : LHead XR) (cs : List (TNode XR)), Goes be A G D s (.list .h nd cs) →
      ∃ nd' cs', (if ds = true then TNode.list .h nd cs else (TNode.list .h nd cs).shrink be) = .list .h nd' cs' ∧ Goes be A G D s (.list .h nd' cs') := by
    intro nd cs h
    cases ds
    · have := shrink_goes_list h
      rw [TNode.shrink] at this
      exact ⟨nd.shrink, shrinkAll be cs, by rw [TNode.shrink]; rfl, this⟩
    · exact ⟨nd, cs, rfl, h⟩
  unfold genfrac at e
  dsimp only at e
  obtain ⟨an', ac', ea, ga⟩ := hsh an ac ha
  obtain ⟨bn', bc', eb, gb⟩ := hsh bn bc hbn
  rw [ea, eb] at e
  obtain ⟨wa, wa0, ewa⟩ := ga.list_width
  obtain ⟨wb, wb0, ewb⟩ := gb.list_width
  have hW : GoFloat.max (TNode.list .h an' ac').width (TNode.list .h bn' bc').width = .fin (Max.max wa wb) := by
    show GoFloat.max an'.box.width bn'.box.width = _
    rw [ewa, ewb, fin_max]
  rw [hW] at e
  obtain ⟨ca, ca1, ca2⟩ := centred_goes ga (W := Max.max wa wb) (by rw [ewa]; exact le_max_left _ _)
  obtain ⟨cb, cb1, cb2⟩ := centred_goes gb (W := Max.max wa wb) (by rw [ewb]; exact le_max_right _ _)
  revert e ca ca1 ca2 cb cb1 cb2
  generalize centredTo (.list .h an' ac') (.fin (Max.max wa wb)) = pa
  generalize centredTo (.list .h bn' bc') (.fin (Max.max wa wb)) = pb
  intro e ca ca1 ca2 cb cb1 cb2
  have hnb : NumHead pb.1 := by have := cb.1; rw [NumT] at this; exact this.1
  have up : ∀ {p : LHead XR × List (TNode XR)}, NumT false (.list .h p.1 p.2) → NumT true (.list .h p.1 p.2) := by
    intro p h; rw [NumT] at h ⊢; exact h
  obtain ⟨rb, hrb, rb1, rb2⟩ := hrule_eq be st rule
  have hcs : ∀ n ∈ [.list .h pa.1 pa.2,
    vbox zero (be.underline st.font st.dpi * ofInt 2), hrule be st rule, vbox zero (be.underline st.font st.dpi * ofInt 2),
    .list .h pb.1 pb.2], NumT true n ∧ InvW A G n ∧
      ((∃ nd cs, n = .list .h nd cs ∧ nd.shift = .fin 0) ∨ (∃ b, n = .rule b ∧ b.width = .pinf) ∨ (∃ b, n = .box b) ∨ ∃ g, n = .glue g) := by
      have hsp : NumT true (vbox zero (be.underline st.font st.dpi * ofInt 2)) := numT_box ⟨IsNum.zero, IsNum.zero, hu.mul two⟩ _
      have hsp' : InvW A G (vbox zero (be.underline st.font st.dpi * ofInt 2)) := by rw [vbox, InvW]; show (0 : Int) ≤ 6; omega
      intro n hn
      simp only [List.mem_cons, List.not_mem_nil, or_false] at hn
      rcases hn with rfl | rfl | rfl | rfl | rfl
      · exact ⟨up ca.1, ca.2.1, .inl ⟨_, _, rfl, ca2⟩⟩
      · exact ⟨hsp, hsp', .inr (.inr (.inl ⟨_, rfl⟩))⟩
      · refine ⟨hrule_numT hru hu, ?_, .inr (.inl ⟨rb, hrb, rb1⟩)⟩
        rw [hrb, InvW, rb2]; omega
      · exact ⟨hsp, hsp', .inr (.inr (.inl ⟨_, rfl⟩))⟩
      · exact ⟨up cb.1, cb.2.1, .inl ⟨_, _, rfl, cb2⟩⟩
  obtain ⟨v, hv, v1, v2, v3, v4⟩ := vpack_num (l := [.list .h pa.1 pa.2,
    vbox zero (be.underline st.font st.dpi * ofInt 2), hrule be st rule, vbox zero (be.underline st.font st.dpi * ofInt 2),
    .list .h pb.1 pb.2])
    (fun n hn => (hcs n hn).1.vnode) LHead.zero zero IsNum.zero true inf (.inr rfl)
  rw [hv, Res.ok_bind] at e
  split at e
  · rename_i hk
    have hfs : IsNum (st.withType mathDefault).font.size := hps.1.num
    have hm1 := hb.ymax _ _ _ _ hfs hps.2.num hk
    have hm2 := hb.ymin _ _ _ _ hfs hps.2.num hk
    have hsh : IsNum (pb.1.box.height -
        (((be.metrics bs!"=" (st.withType mathDefault).font st.dpi true).ymax +
          (be.metrics bs!"=" (st.withType mathDefault).font st.dpi true).ymin) / ofInt 2 - ofInt 3 * be.underline st.font st.dpi)) := by
      refine hnb.2.1.sub (((hm1.add hm2).div two ?_).sub ((IsNum.int 3).mul hu))
      simp
    revert e hsh
    generalize (pb.1.box.height -
        (((be.metrics bs!"=" (st.withType mathDefault).font st.dpi true).ymax +
          (be.metrics bs!"=" (st.withType mathDefault).font st.dpi true).ymin) / ofInt 2 - ofInt 3 * be.underline st.font st.dpi)) = sh
    intro e hsh
    have hg : Goes be A G D s (.list .v (v.setShift sh) [.list .h pa.1 pa.2,
        vbox zero (be.underline st.font st.dpi * ofInt 2), hrule be st rule, vbox zero (be.underline st.font st.dpi * ofInt 2),
        .list .h pb.1 pb.2]) :=
      ⟨numT_shift v1 v2 v3 hsh (fun n hn => (hcs n hn).1) _,
        vlist_invW (fun n hn => (hcs n hn).1.vnode) (fun n hn => (hcs n hn).2.1) hv zero_size (fun n hn => (hcs n hn).2.2), trivial⟩
    have h2t : IsNN (ofInt 2 * be.underline st.font st.dpi) := ⟨2 * t, by linarith, by rw [ht, ofInt_fin, fin_mul]; norm_num⟩
    have hbx := hlist_goes hb hA hD.num (mem2 hg (hbox_goes h2t))
    split at e
    · unfold autoSizedDelimiter at e
      dsimp only at e
      obtain ⟨l, hl, e⟩ := Res.bind_eq_ok.1 e
      obtain ⟨r, hr', e⟩ := Res.bind_eq_ok.1 e
      have hmx := maxDims_num hbx.1.node
      have hmn : 0 ≤ (maxDims [hlistOf be [.list .v (v.setShift sh) [.list .h pa.1 pa.2,
        vbox zero (be.underline st.font st.dpi * ofInt 2), hrule be st rule, vbox zero (be.underline st.font st.dpi * ofInt 2),
        .list .h pb.1 pb.2], hbox (ofInt 2 * be.underline st.font st.dpi)] true]).1.val + (maxDims [hlistOf be [.list .v (v.setShift sh) [.list .h pa.1 pa.2,
        vbox zero (be.underline st.font st.dpi * ofInt 2), hrule be st rule, vbox zero (be.underline st.font st.dpi * ofInt 2),
        .list .h pb.1 pb.2], hbox (ofInt 2 * be.underline st.font st.dpi)] true]).2.val := by
        have h1 := hbx.1.node.hd
        simp only [maxDims, List.foldl_cons, List.foldl_nil]
        rw [IsNum.zero.val_max h1.1, IsNum.zero.val_max h1.2, zero_fin, val_fin]
        exact add_nonneg (le_max_left _ _) (le_max_left _ _)
      obtain ⟨_, _, rfl, nl⟩ := auto_goes hb hA hG (by simp) hmx.1 hmx.2 hmn hs hs0 hdpi hD hname hl
      obtain ⟨_, _, rfl, nr⟩ := auto_goes hb hA hG (by simp) hmx.1 hmx.2 hmn hs hs0 hdpi hD hname hr'
      simp only [Res.ok.injEq] at e
      subst e
      exact hlist_goes hb hA hD.num (mem3 nl hbx nr)
    · simp only [Res.ok.injEq] at e
      subst e
      exact hbx
  · cases e

/-! ## Bars -/

theorem ruled_goes (hb : Numeric be) {st : TState XR} (hs : PosState st) {nd : LHead XR} {cs : List (TNode XR)} (hg : Goes be A G D s (.list .h nd cs))
    (hsh : nd.shift = .fin 0) {h d : XR} (hh : IsNum h) (hd : IsNum d) {n : TNode XR} (e : ruled be st (.list .h nd cs) h d = .ok n) :
    Goes be A G D s n ∧ ∃ hd cs, n = .list .v hd cs := by
  have hu : IsNum (be.underline st.font st.dpi) := hb.underline _ _ hs.1.num hs.2.num
  have hnum : NumT true (.list .h nd cs) := by have := hg.1; rw [NumT] at this ⊢; exact this
  have hr := ruled_num hb hs hnum hh hd e
  unfold ruled at e
  obtain ⟨g, hgl, e⟩ := Res.bind_eq_ok.1 e
  dsimp only at e
  obtain ⟨v, hv, e⟩ := Res.bind_eq_ok.1 e
  obtain ⟨v', hv', e⟩ := Res.bind_eq_ok.1 e
  simp only [Res.ok.injEq] at e
  subst e
  have hg' : g = ⟨0, zero, ofInt 1, 2, zero, 0⟩ := by
    have : (newGlue bs!"fill" : Res (GlueD XR)) = .ok ⟨0, zero, ofInt 1, 2, zero, 0⟩ := by decide +kernel
    rw [this] at hgl
    cases hgl; rfl
  obtain ⟨rb, hrb, rb1, rb2⟩ := hrule_eq be st (ofInt (-1))
  have hcs : ∀ n ∈ [hrule be st (ofInt (-1)), .glue g, .list .h nd cs], NumT true n ∧ InvW A G n ∧
      ((∃ nd cs, n = .list .h nd cs ∧ nd.shift = .fin 0) ∨ (∃ b, n = .rule b ∧ b.width = .pinf) ∨ (∃ b, n = .box b) ∨ ∃ g, n = .glue g) := by
    intro n hn
    simp only [List.mem_cons, List.not_mem_nil, or_false] at hn
    rcases hn with rfl | rfl | rfl
    · refine ⟨hrule_numT (IsNum.int _) hu, ?_, .inr (.inl ⟨rb, hrb, rb1⟩)⟩
      rw [hrb, InvW, rb2]; omega
    · refine ⟨?_, ?_, .inr (.inr (.inr ⟨_, rfl⟩))⟩
      · rw [hg', NumT]; exact IsNum.zero
      · rw [hg', InvW]; show (0 : Int) ≤ 6; omega
    · exact ⟨hnum, hg.2.1, .inl ⟨_, _, rfl, hsh⟩⟩
  have hz := (vpack_wide (fun n hn => (hcs n hn).1.vnode) hv).2.2
  have := vlist_invW (s := v'.shift) (fun n hn => (hcs n hn).1.vnode) (fun n hn => (hcs n hn).2.1) hv' (by rw [hz]; exact zero_size) (fun n hn => (hcs n hn).2.2)
  exact ⟨⟨hr, this, trivial⟩, _, _, rfl⟩

theorem hlistOf_shift (hb : Numeric be) {l : List (TNode XR)} (h : ∀ n ∈ l, NumT false n) :
    (hpack LHead.zero (insertKerns be l) zero true).shift = .fin 0 := by
  rw [(hpack_num (fun n hn => (insertKerns_numT hb h n hn).node) LHead.zero _ IsNum.zero true).2.2.2]; simp [LHead.zero]

theorem over_goes (hb : Numeric be) (hA : Advancing be A G s) {b : List (TNode XR)} {n : TNode XR} {st : TState XR} (hs : PosState st) (hD : IsPos D)
    (hg : ∀ n ∈ b, Goes be A G D s n) (h : buildOverline be (hbody be b).1 (hbody be b).2 st = .ok n) : Goes be A G D s n := by
  have hu : IsNum (be.underline st.font st.dpi) := hb.underline _ _ hs.1.num hs.2.num
  have hB : Goes be A G D s (.list .h (hbody be b).1 (hbody be b).2) := hlist_goes hb hA hD.num hg
  obtain ⟨w, hh, d, hm⟩ := body_measured hb (fun n hn => (hg n hn).1)
  revert h hB hm
  generalize hbody be b = p
  intro h hB hm
  have g1 : Goes be A G D s (hlistOf be [.list .h p.1 p.2] true) := hlist_goes hb hA hD.num (by simpa using hB)
  have s1 := hlistOf_shift hb (l := [.list .h p.1 p.2]) (by simpa using hB.1)
  unfold buildOverline at h
  dsimp only at h
  obtain ⟨rhs, hr, h⟩ := Res.bind_eq_ok.1 h
  have hnum : NumHead p.1 := by have := hB.1; rw [NumT] at this; exact this.1
  obtain ⟨g2, -⟩ := ruled_goes hb hs g1 s1 (((hnum.2.1.sub hnum.2.2.2)).add ((IsNum.int 3).mul hu)) (hnum.2.2.1.add hnum.2.2.2) hr
  simp only [Res.ok.injEq] at h
  subst h
  exact hlist_goes hb hA hD.num (by simpa using g2)

/-! ## Radicals -/

theorem sqrt_goes (hb : Numeric be) (hA : Advancing be A G s) (hG : G true) {b : List (TNode XR)} {n : TNode XR} {st : TState XR}
    (hs : st.font.size = .fin s) (hs0 : 0 < s) (hdpi : st.dpi = D) (hD : IsPos D) (hname : st.font.name ≠ [])
    (hg : ∀ n ∈ b, Goes be A G D s n) (h : buildSqrt be none (hbody be b).1 (hbody be b).2 st = .ok n) : Goes be A G D s n := by
  have hps : PosState st := ⟨⟨s, hs0, hs⟩, by rw [hdpi]; exact hD⟩
  obtain ⟨t, ht, t0⟩ : ∃ t : ℚ, be.underline st.font st.dpi = .fin t ∧ 0 ≤ t := by
    obtain ⟨⟨n, ty, sz⟩, dpi⟩ := st
    dsimp only at hs hdpi
    subst hs
    exact hA.line n ty dpi (by rw [hdpi]; exact hD)
  have hu : IsNum (be.underline st.font st.dpi) := ⟨t, ht⟩
  have hnumN : NumT false n := (num_closed hb).sqrt none b st n hps (fun r e => by cases e) (fun n hn => (hg n hn).1) h
  have hB : Goes be A G D s (.list .h (hbody be b).1 (hbody be b).2) := hlist_goes hb hA hD.num hg
  obtain ⟨w, hh, d, hm⟩ := body_measured hb (fun n hn => (hg n hn).1)
  revert h hB hm
  generalize hbody be b = p
  intro h hB hm
  have i5 : (ofInt 5 : XR) = .fin 5 := by show XR.fin _ = _; simp
  have i2 : (ofInt 2 : XR) = .fin 2 := by show XR.fin _ = _; simp
  have g1 : Goes be A G D s (hlistOf be [hbox (.fin (2 * t)), .list .h p.1 p.2, hbox (.fin (2 * t))] true) :=
    hlist_goes hb hA hD.num (mem3 (hbox_goes ⟨2 * t, by linarith, rfl⟩) hB (hbox_goes ⟨2 * t, by linarith, rfl⟩))
  have s1 := hlistOf_shift hb (l := [hbox (.fin (2 * t)), .list .h p.1 p.2, hbox (.fin (2 * t))])
    (mem3 (P := NumT false) (numT_hbox ⟨_, rfl⟩ _) hB.1 (numT_hbox ⟨_, rfl⟩ _))
  unfold buildSqrt at h
  dsimp only at h
  rw [hm.height, hm.depth, hm.shift, ht, i5, i2, fin_sub, fin_mul, fin_mul, fin_add, fin_add, sub_zero, add_zero] at h
  obtain ⟨check, hc, h⟩ := Res.bind_eq_ok.1 h
  have h0 := hm.above
  have d0 := hm.below
  obtain ⟨ch, cc, rfl, gc⟩ := auto_goes hb hA hG (by simp) ⟨_, rfl⟩ ⟨_, rfl⟩ (by simp only [val_fin]; linarith) hs hs0 hdpi hD hname hc
  have hcn : NumHead ch := by have := gc.1; rw [NumT] at this; exact this.1
  obtain ⟨cw, cw0, ecw⟩ := gc.list_width
  simp only [TNode.height, TNode.depth, TNode.width, ecw] at h
  obtain ⟨rhs, hr, h⟩ := Res.bind_eq_ok.1 h
  obtain ⟨g2, rh, rc, rfl⟩ := ruled_goes hb hps g1 s1 (hcn.2.1.sub hcn.2.2.2) (hcn.2.2.1.add hcn.2.2.2) hr
  obtain ⟨rw', rw0, erw⟩ := g2.list_width
  have half : (.fin cw * ofRat 5 10 : XR) = .fin (cw / 2) := by
    show XR.fin cw * XR.fin _ = _
    rw [fin_mul]; congr 1; norm_num; ring
  have nhalf : (-.fin cw * ofRat 5 10 : XR) = .fin (-(cw / 2)) := by
    show -XR.fin cw * XR.fin _ = _
    rw [fin_neg, fin_mul]; congr 1; norm_num; ring
  rw [half, nhalf] at h
  obtain ⟨v, hv, h⟩ := Res.bind_eq_ok.1 h
  have gh : Goes be A G D s (hbox (.fin (cw / 2))) := hbox_goes ⟨cw / 2, by linarith, rfl⟩
  have gl : Goes be A G D s (hlistOf be [hbox (.fin (cw / 2))] true) := hlist_goes hb hA hD.num (by simpa using gh)
  have sl := hlistOf_shift hb (l := [hbox (.fin (cw / 2))]) (by simpa using gh.1)
  have hkl : insertKerns be [hbox (.fin (cw / 2))] = [hbox (.fin (cw / 2))] := by
    simp [insertKerns, TNode.kerning, hbox, zero_fin]
  have hv' : ∀ n ∈ [hlistOf be [hbox (.fin (cw / 2))] true], NumT true n := by
    intro n hn
    rw [List.mem_singleton] at hn
    subst hn
    have := gl.1
    unfold hlistOf at this ⊢
    rw [NumT] at this ⊢; exact this
  obtain ⟨v0, v1, v2⟩ := vpack_wide (fun n hn => (hv' n hn).vnode) hv
  have hvw : cw / 2 ≤ v.box.width.val := by
    have := v1 .h _ _ (List.mem_singleton.2 rfl)
    simp only [if_true, hkl] at this
    rw [hpack_wsum (by intro n hn; rw [List.mem_singleton] at hn; subst hn; exact gh.1.node)] at this
    simpa [wsum, hbox, newBox, TNode.width] using this
  have ivl : InvW A G (.list .v (v.setShift (-(ch.box.height - ch.shift) * ofRat 6 10)) [hlistOf be [hbox (.fin (cw / 2))] true]) :=
    vlist_invW (fun n hn => (hv' n hn).vnode) (by simpa using gl.2.1) hv zero_size
      (by intro n hn; rw [List.mem_singleton] at hn; subst hn; exact .inl ⟨_, _, rfl, sl⟩)
  revert h ivl hnumN
  generalize (-(ch.box.height - ch.shift) * ofRat 6 10) = vs
  generalize hlistOf be [hbox (.fin (cw / 2))] true = l1
  intro hnumN h ivl
  simp only [Res.ok.injEq] at h
  subst h
  have hk : insertKerns be [.list .v (v.setShift vs) [l1], newKern (.fin (-(cw / 2))), .list .h ch cc, .list .v rh rc] =
      [.list .v (v.setShift vs) [l1], newKern (.fin (-(cw / 2))), .list .h ch cc, .list .v rh rc] := by
    simp [insertKerns, TNode.kerning, newKern, zero_fin]
  refine ⟨hnumN, ?_, trivial⟩
  have hnode : ∀ n ∈ [.list .v (v.setShift vs) [l1], newKern (.fin (-(cw / 2))), .list .h ch cc, .list .v rh rc], NumNode n := by
    unfold hlistOf at hnumN
    dsimp only at hnumN
    rw [if_pos rfl, hk, NumT] at hnumN
    exact fun n hn => (numTs_iff.1 hnumN.2 n hn).node
  have hw := hpack_wsum hnode LHead.zero
  have hws : wsum [.list .v (v.setShift vs) [l1], newKern (.fin (-(cw / 2))), .list .h ch cc, .list .v rh rc] =
      v.box.width.val + cw / 2 + rw' := by
    simp only [wsum_cons, wsum_nil, TNode.width, newKern, LHead.setShift, ecw, erw, val_fin]; ring
  unfold hlistOf
  dsimp only
  rw [if_pos rfl, hk, InvW, hpack_size, hw, hws, val_fin]
  refine ⟨zero_size, by linarith, .inl ?_, ?_⟩
  · simp only [Row, Place, TNode.width, newKern, LHead.setShift, ecw, erw, val_fin, zero_add]
    refine ⟨⟨le_rfl, ?_⟩, trivial, ⟨?_, ?_⟩, ⟨?_, ?_⟩, trivial⟩ <;> linarith
  · refine invWs_iff.2 fun n hn => ?_
    simp only [List.mem_cons, List.not_mem_nil, or_false] at hn
    rcases hn with rfl | rfl | rfl | rfl
    · exact ivl
    · rw [newKern, InvW]; show (0 : Int) ≤ 6; omega
    · exact gc.2.1
    · exact g2.2.1

/-- A blank that is not negative -/
theorem space_goes (hA : Advancing be A G s) (hG : G true) {st : TState XR} {w : ℚ} (hs : st.font.size = .fin s) (hs0 : 0 ≤ s) (hdpi : IsNum st.dpi) (hw : 0 ≤ w) {n : TNode XR}
    (e : makeSpace be st (.fin w) = .ok n) : Goes be A G D s n := by
  unfold makeSpace at e
  dsimp only at e
  split at e
  · rename_i hk
    simp only [Res.ok.injEq] at e
    subst e
    rw [hs] at hk ⊢
    rw [hA.advance _ _ _ _ _ _ hG hdpi hk, fin_mul]
    exact kern_goes ⟨_, mul_nonneg (mul_nonneg (hA.forth _ _ _ _ _) hs0) hw, rfl⟩
  · cases e

end Verif
