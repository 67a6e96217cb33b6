import Verif.Lemmas.Box
import Verif.Lemmas.Exact
import Verif.Model.Ship
import Verif.Model.Krfl
/-! # C40-C45: packing -/

namespace Verif.Props
open Verif Verif.Spec GoFloat

section
variable {F : Type} [GoFloat F]

/-! ## C40 -/

/-- **C40** For every arithmetic: `HPack(w, false)` gives exactly the width `w`; `HPack(w, true)`
gives `w` plus the sum of the children's widths. -/
theorem C40_hpack_width (hd : LHead F) (cs : List (TNode F)) (w : F) :
    (hpack hd cs w false).box.width = w ∧ (hpack hd cs w true).box.width = w + naturalWidth cs := by
  constructor <;> (rw [hpack_eq]; exact congrArg BoxD.width (finishGlue_box _ _ _ _).1)

/-- **C40** A fresh `HListOf` has its natural width (added to zero), kerns included. -/
theorem C40_hlistOf_width (be : Backend F) (els : List (TNode F)) (doKern : Bool) :
    ∃ hd cs, hlistOf be els doKern = .list .h hd cs ∧ hd.box.width = zero + naturalWidth cs :=
  ⟨_, _, rfl, (C40_hpack_width _ _ _).2⟩

/-- **C40** `HPack` changes neither the children nor the shift. -/
theorem C40_hpack_shift (hd : LHead F) (cs : List (TNode F)) (w : F) (add : Bool) :
    (hpack hd cs w add).shift = hd.shift := by rw [hpack_eq]; exact (finishGlue_box _ _ _ _).2

/-! ## C41 -/

/-- **C41** The height (depth) of a packed list is not below zero nor below what any child reaches
above (below) the baseline. -/
theorem C41_encloses [MaxLaws F] (hd : LHead F) (cs : List (TNode F)) (w : F) (add : Bool) :
    lt (hpack hd cs w add).box.height zero = false ∧ lt (hpack hd cs w add).box.depth zero = false ∧
    ∀ n ∈ cs, ∀ above below, reach n = some (above, below) →
      lt (hpack hd cs w add).box.height above = false ∧ lt (hpack hd cs w add).box.depth below = false := by
  rw [hpack_eq]
  simp only [(finishGlue_box _ _ _ _).1]
  exact ⟨(hsum_a_keep cs Dims.zero _).1 (MaxLaws.lt_self _), (hsum_a_keep cs Dims.zero _).2 (MaxLaws.lt_self _),
    fun n hn a b h => hsum_ge cs Dims.zero n hn (a, b) h⟩

/-- **C41** The height and the depth are zero or attained by a child. -/
theorem C41_attained [MaxLaws F] (hd : LHead F) (cs : List (TNode F)) (w : F) (add : Bool) :
    let r := (hpack hd cs w add).box
    (r.height = zero ∨ ∃ n ∈ cs, ∃ below, reach n = some (r.height, below)) ∧
    (r.depth = zero ∨ ∃ n ∈ cs, ∃ above, reach n = some (above, r.depth)) := by
  dsimp only
  rw [hpack_eq]
  simp only [(finishGlue_box _ _ _ _).1]
  have h := hsum_or cs (Dims.zero (F := F))
  constructor
  · rcases h.1 with h | ⟨n, hn, q, hq, e⟩
    · left; exact h
    · right; exact ⟨n, hn, q.2, by rw [hq, e]⟩
  · rcases h.2 with h | ⟨n, hn, q, hq, e⟩
    · left; exact h
    · right; exact ⟨n, hn, q.1, by rw [hq, e]⟩

/-! ## C42 -/

theorem kerned_insert (be : Backend F) (l : List (TNode F)) : Kerned (TNode.kerning be) l (insertKerns be l) := by
  induction l with
  | nil => exact .nil
  | cons n l ih =>
    unfold insertKerns
    by_cases h : eq (n.kerning be l.head?) zero = true
    · simp only [h]; exact .same h ih
    · simp only [Bool.not_eq_true] at h; simp only [h]; exact .kern h ih

/-- **C42** With kerning, the children of `HListOf(elements, true)` are the elements with, after
each, a kern for its non-zero kerning with the next element, and nothing else. -/
theorem C42_kerned (be : Backend F) (els : List (TNode F)) :
    ∃ hd cs, hlistOf be els true = .list .h hd cs ∧ Kerned (TNode.kerning be) els cs :=
  ⟨_, _, rfl, kerned_insert be els⟩

/-- **C42** Without kerning, the children are the elements. -/
theorem C42_plain (be : Backend F) (els : List (TNode F)) : ∃ hd, hlistOf be els false = .list .h hd els := ⟨_, rfl⟩

/-- **C42** The relation is a function: there is one way to kern. -/
theorem C42_unique (k : TNode F → Option (TNode F) → F) (l a b : List (TNode F)) (ha : Kerned k l a) (hb : Kerned k l b) :
    a = b := by
  induction ha generalizing b with
  | nil => cases hb; rfl
  | same h _ ih => cases hb with
    | same _ hb => rw [ih _ hb]
    | kern h' _ => simp [h] at h'
  | kern h _ ih => cases hb with
    | same h' _ => simp [h] at h'
    | kern _ hb => rw [ih _ hb]

/-- **C42** The kerning of a glyph: the space missing to its advance width, plus the backend's kerning
if the next node is a glyph.  Other nodes have none. -/
theorem C42_kerning (be : Backend F) (n : TNode F) (next : Option (TNode F)) :
    n.kerning be next = match n with
      | .char c | .accent c =>
        (c.metrics.advance - c.width) + match next with
          | some (.char d) | some (.accent d) => be.kern c.font c.c d.font d.c c.dpi
          | _ => zero
      | _ => zero := by
  cases n <;> simp [TNode.kerning, CharD.kerning] <;> (cases next with | none => rfl | some m => cases m <;> rfl)

/-- **C42** The elements survive, in order: they are a subsequence of the children. -/
theorem C42_sublist (be : Backend F) (els : List (TNode F)) :
    ∃ hd cs, hlistOf be els true = .list .h hd cs ∧ els.Sublist cs := by
  refine ⟨_, _, rfl, ?_⟩
  simp only [if_true]
  induction els with
  | nil => exact .slnil
  | cons n l ih =>
    unfold insertKerns
    dsimp only
    split
    · exact (ih.cons _).cons_cons _
    · exact ih.cons_cons _

/-! ## C43 -/

/-- **C43** `VPack` panics exactly if a glyph stands directly in the list. -/
theorem C43_panics (hd : LHead F) (cs : List (TNode F)) (h : F) (add : Bool) (m : F) :
    (∃ e, vpack hd cs h add m = .panic e) ↔ ∃ n ∈ cs, isGlyph n = true := by
  constructor
  · intro ⟨e, he⟩
    refine Classical.byContradiction fun hn => ?_
    rw [vpack_eq hd cs h add m (fun n hm => by
      cases hg : isGlyph n
      · rfl
      · exact absurd ⟨n, hm, hg⟩ hn)] at he
    cases he
  · intro hg
    obtain ⟨e, he⟩ := vpackAll_panic cs (Dims.zero (F := F)) hg
    exact ⟨e, by unfold vpack; rw [he]; rfl⟩

/-- **C43** Otherwise, with `VPack(h, add, m)`: the depth is that of the last node, cut to `m`, the
excess going to the height; the height is `h`, or `h` plus the natural height and the excess. -/
theorem C43_dims (hd : LHead F) (cs : List (TNode F)) (h : F) (add : Bool) (m : F)
    (hg : ∀ n ∈ cs, isGlyph n = false) : ∃ r, vpack hd cs h add m = .ok r ∧
      (lt m (lastDepth cs) = false → r.box.depth = lastDepth cs ∧
        r.box.height = if add then h + naturalHeight cs else h) ∧
      (lt m (lastDepth cs) = true → r.box.depth = m ∧
        r.box.height = if add then h + (naturalHeight cs + (lastDepth cs - m)) else h) ∧
      r.box.width = (vwidths cs).foldl GoFloat.max zero ∧ r.shift = hd.shift := by
  refine ⟨_, vpack_eq hd cs h add m hg, ?_, ?_, ?_, ?_⟩
  · intro hl; simp only [(finishGlue_box _ _ _ _).1, hl]; exact ⟨rfl, rfl⟩
  · intro hl; simp only [(finishGlue_box _ _ _ _).1, hl]; exact ⟨rfl, rfl⟩
  · exact congrArg BoxD.width (finishGlue_box _ _ _ _).1
  · exact (finishGlue_box _ _ _ _).2

/-- **C43** The depth never exceeds the given bound. -/
theorem C43_depth_bound [MaxLaws F] (hd : LHead F) (cs : List (TNode F)) (h : F) (add : Bool) (m : F) (r : LHead F)
    (hr : vpack hd cs h add m = .ok r) : lt m r.box.depth = false := by
  by_cases hg : ∀ n ∈ cs, isGlyph n = false
  · obtain ⟨r', e, h1, h2, _⟩ := C43_dims hd cs h add m hg
    rw [hr] at e; cases e
    cases hl : lt m (lastDepth cs)
    · rw [(h1 hl).1]; exact hl
    · rw [(h2 hl).1]; exact MaxLaws.lt_self m
  · have : ∃ n ∈ cs, isGlyph n = true := by
      refine Classical.byContradiction fun hn => hg fun n hm => ?_
      cases hq : isGlyph n
      · rfl
      · exact absurd ⟨n, hm, hq⟩ hn
    obtain ⟨e, he⟩ := (C43_panics hd cs h add m).2 this
    rw [hr] at he; cases he

theorem foldl_max_keep [MaxLaws F] (l : List F) (a c : F) (h : lt a c = false) : lt (l.foldl GoFloat.max a) c = false := by
  induction l generalizing a with
  | nil => exact h
  | cons b l ih => exact ih _ (MaxLaws.max_left _ _ _ h)

theorem foldl_max_spec [MaxLaws F] (ws : List F) (z : F) :
    (∀ w ∈ ws, lt (ws.foldl GoFloat.max z) w = false) ∧ (ws.foldl GoFloat.max z = z ∨ ws.foldl GoFloat.max z ∈ ws) := by
  induction ws generalizing z with
  | nil => exact ⟨(fun w hw => by cases hw), .inl rfl⟩
  | cons a l ih =>
    rw [List.foldl_cons]
    constructor
    · intro w hw
      rcases List.mem_cons.1 hw with rfl | hw
      · exact foldl_max_keep _ _ _ (MaxLaws.max_right _ _ _ (MaxLaws.lt_self _))
      · exact (ih _).1 w hw
    · rcases (ih (GoFloat.max z a)).2 with h | h
      · rw [h]; rcases MaxLaws.max_or z a with e | e <;> rw [e] <;> simp
      · exact .inr (List.mem_cons_of_mem _ h)

/-- **C43** The width of a vertical list is not below zero nor below any finite width of its boxes,
and is one of these. -/
theorem C43_width [MaxLaws F] (hd : LHead F) (cs : List (TNode F)) (h : F) (add : Bool) (m : F) (r : LHead F)
    (hr : vpack hd cs h add m = .ok r) :
    lt r.box.width zero = false ∧ (∀ w ∈ vwidths cs, lt r.box.width w = false) ∧
      (r.box.width = zero ∨ r.box.width ∈ vwidths cs) := by
  have hg : ∀ n ∈ cs, isGlyph n = false := by
    intro n hm
    cases hq : isGlyph n
    · rfl
    · obtain ⟨e, he⟩ := (C43_panics hd cs h add m).2 ⟨n, hm, hq⟩
      rw [hr] at he; cases he
  obtain ⟨r', e, _, _, hw, _⟩ := C43_dims hd cs h add m hg
  rw [hr] at e; cases e
  rw [hw]
  exact ⟨foldl_max_keep _ _ _ (MaxLaws.lt_self _), foldl_max_spec _ _⟩

/-! ## C44 -/

/-- **C44** `HPack`: with the slack `x`, the width less the natural width, glue is set by the rule. -/
theorem C44_hpack (hd : LHead F) (cs : List (TNode F)) (w : F) (add : Bool) :
    GlueRule (hpack hd cs w add) ((hpack hd cs w add).box.width - naturalWidth cs) cs := by
  have h : (hpack hd cs w add).box.width = if add then w + naturalWidth cs else w := by
    rw [hpack_eq]; exact congrArg BoxD.width (finishGlue_box _ _ _ _).1
  rw [h, hpack_eq]
  exact finishGlue_spec _ _ _

/-- **C44** `VPack`: the same with the heights. -/
theorem C44_vpack (hd : LHead F) (cs : List (TNode F)) (h : F) (add : Bool) (m : F) (r : LHead F)
    (hr : vpack hd cs h add m = .ok r) :
    GlueRule r (r.box.height - (if lt m (lastDepth cs) then naturalHeight cs + (lastDepth cs - m) else naturalHeight cs)) cs := by
  have hg : ∀ n ∈ cs, isGlyph n = false := by
    intro n hm
    cases hq : isGlyph n
    · rfl
    · obtain ⟨e, he⟩ := (C43_panics hd cs h add m).2 ⟨n, hm, hq⟩
      rw [hr] at he; cases he
  rw [vpack_eq hd cs h add m hg] at hr
  cases hr
  simp only [(finishGlue_box _ _ _ _).1]
  exact finishGlue_spec _ _ _

/-! ## C45 -/

/-- What is observable of a list's header, except the glue setting of a rigid list. -/
def Visible (hd : LHead F) : BoxD F × F × Int × Fin 4 × Option F :=
  (hd.box, hd.shift, hd.sign, hd.order, if hd.sign = 0 then none else some hd.set)

theorem finishGlue_visible (a b : LHead F) (x : F) (st sh : Fin 4 → F) (h1 : a.box = b.box) (h2 : a.shift = b.shift) :
    Visible (finishGlue a x st sh) = Visible (finishGlue b x st sh) := by
  unfold finishGlue setGlue Visible
  split
  · simp [h1, h2]
  · split
    · dsimp only; split <;> simp [h1, h2]
    · dsimp only; split <;> simp [h1, h2]

/-- **C45** Two lists with the same children, shift and size level are the same after the same
`HPack`, whatever was done to them before, in all but the glue setting of a rigid list. -/
theorem C45_hpack_history (a b : LHead F) (cs : List (TNode F)) (w : F) (add : Bool)
    (h1 : a.shift = b.shift) (h2 : a.box.size = b.box.size) :
    Visible (hpack a cs w add) = Visible (hpack b cs w add) := by
  rw [hpack_eq, hpack_eq]
  exact finishGlue_visible _ _ _ _ _ (by simp [h2]) h1

/-- **C45** The same for `VPack`. -/
theorem C45_vpack_history (a b : LHead F) (cs : List (TNode F)) (h : F) (add : Bool) (m : F)
    (h1 : a.shift = b.shift) (h2 : a.box.size = b.box.size) (ra rb : LHead F)
    (ea : vpack a cs h add m = .ok ra) (eb : vpack b cs h add m = .ok rb) : Visible ra = Visible rb := by
  have hg : ∀ n ∈ cs, isGlyph n = false := by
    intro n hm
    cases hq : isGlyph n
    · rfl
    · obtain ⟨e, he⟩ := (C43_panics a cs h add m).2 ⟨n, hm, hq⟩
      rw [ea] at he; cases he
  rw [vpack_eq _ _ _ _ _ hg] at ea eb
  cases ea; cases eb
  exact finishGlue_visible _ _ _ _ _ (by simp [h2]) h1

/-- **C45** Packing twice is packing once, in all that is visible. -/
theorem C45_hpack_twice (a : LHead F) (cs : List (TNode F)) (w w' : F) (add add' : Bool) :
    Visible (hpack (hpack a cs w' add') cs w add) = Visible (hpack a cs w add) := by
  apply C45_hpack_history
  · exact C40_hpack_shift _ _ _ _
  · rw [hpack_eq, (finishGlue_box _ _ _ _).1]

end

/-! ## Exact arithmetic -/

open XR

theorem stack_sum (cs : List (TNode XR)) (q : XR × XR) (hg : ∀ n ∈ cs, isGlyph n = false) :
    (cs.foldl stack q).1 + (cs.foldl stack q).2 = q.1 + q.2 + (cs.map vsize).foldl (· + ·) (.fin 0) := by
  induction cs generalizing q with
  | nil => simp [add_zero']
  | cons n l ih =>
    rw [List.foldl_cons, ih _ fun m hm => hg m (List.mem_cons_of_mem _ hm), List.map_cons, List.foldl_cons,
      foldl_add_fin _ (fin 0 + vsize n), zero_add', ← add_assoc']
    congr 1
    cases n <;> simp only [stack, vsize, TNode.height, TNode.depth, zero_fin, add_zero'] <;> ac_rfl

/-- **C43** (exact) Height plus depth of a packed vertical list is the sum of the sizes of its nodes
plus `h`: the depth that is cut is conserved.  (The bound `m` may be anything but `-∞`.) -/
theorem C43_conserved (hd : LHead XR) (cs : List (TNode XR)) (h m : XR) (hm : m ≠ .ninf) (r : LHead XR)
    (hr : vpack hd cs h true m = .ok r) :
    r.box.height + r.box.depth = h + (cs.map vsize).foldl (· + ·) (.fin 0) := by
  have hg : ∀ n ∈ cs, isGlyph n = false := by
    intro n hm'
    cases hq : isGlyph n
    · rfl
    · obtain ⟨e, he⟩ := (C43_panics hd cs h true m).2 ⟨n, hm', hq⟩
      rw [hr] at he; cases he
  obtain ⟨r', e, h1, h2, _⟩ := C43_dims hd cs h true m hg
  rw [hr] at e; cases e
  have hs := stack_sum cs (zero, zero) hg
  rw [foldl_stack_zero] at hs
  change naturalHeight cs + lastDepth cs = _ at hs
  rw [zero_fin, zero_add', zero_add'] at hs
  cases hl : GoFloat.lt m (lastDepth cs)
  · rw [(h1 hl).1, (h1 hl).2, if_pos rfl, add_assoc', hs]
  · rw [(h2 hl).1, (h2 hl).2, if_pos rfl, ← hs, add_assoc', add_assoc']
    congr 2
    cases m with
    | fin q => generalize lastDepth cs = d; cases d <;> simp [sub_def, add_def, XR.add, XR.neg]
    | pinf => generalize lastDepth cs = d at hl; cases d <;> simp [lt_def, XR.lt] at hl
    | ninf => exact absurd rfl hm
    | nan => generalize lastDepth cs = d at hl; cases d <;> simp [lt_def, XR.lt] at hl

/-- **C44** (exact) A set list takes up exactly its slack: the glue setting times the total at the
chosen order is the slack, if that total is finite. -/
theorem C44_takes_up (r : LHead XR) (x : XR) (cs : List (TNode XR)) (h : GlueRule r x cs) (hs : r.sign ≠ 0) (q : ℚ)
    (ht : (if r.sign = 1 then stretchTotal cs r.order else shrinkTotal cs r.order) = .fin q) :
    r.set * .fin q = x := by
  have key : ∀ t : XR, t = .fin q → GoFloat.eq t zero = false → x / t * .fin q = x := by
    intro t ht h0
    subst ht
    simp only [zero_fin, fin_eq, decide_eq_false_iff_not] at h0
    cases x with
    | fin a => rw [fin_div _ _ h0, fin_mul, div_mul_cancel₀ _ h0]
    | nan => rfl
    | pinf =>
      rcases lt_or_gt_of_ne h0 with h | h
      · simp [div_def, mul_def, XR.div, XR.mul, signInf, h, h0, h.le]
      · simp [div_def, mul_def, XR.div, XR.mul, signInf, h0, not_lt.2 h.le]
    | ninf =>
      rcases lt_or_gt_of_ne h0 with h | h
      · simp [div_def, mul_def, XR.div, XR.mul, signInf, h, h0]
      · simp [div_def, mul_def, XR.div, XR.mul, signInf, h0, h, not_lt.2 h.le]
  unfold GlueRule at h
  split at h
  · exact absurd h.1 hs
  · split at h
    · rcases h with ⟨h1, h2, h3⟩ | ⟨h1, _⟩
      · rw [if_pos h1] at ht; rw [h3]; exact key _ ht h2.1
      · exact absurd h1 hs
    · rcases h with ⟨h1, h2, h3⟩ | ⟨h1, _⟩
      · rw [h1, if_neg (by decide)] at ht; rw [h3]; exact key _ ht h2.1
      · exact absurd h1 hs

/-- **C44** (exact) So after `HPack(w, false)` of finite material, either the list is rigid or natural
width plus what the glue takes is `w`. -/
theorem C44_fills (hd : LHead XR) (cs : List (TNode XR)) (w n q : ℚ) (hn : naturalWidth cs = .fin n)
    (hs : (hpack hd cs (.fin w) false).sign ≠ 0)
    (ht : (if (hpack hd cs (.fin w) false).sign = 1 then stretchTotal cs (hpack hd cs (.fin w) false).order
      else shrinkTotal cs (hpack hd cs (.fin w) false).order) = .fin q) :
    naturalWidth cs + (hpack hd cs (.fin w) false).set * .fin q = .fin w := by
  have h := C44_hpack hd cs (.fin w) false
  rw [(C40_hpack_width hd cs _).1, hn, fin_sub] at h
  rw [C44_takes_up _ _ cs h hs q ht, hn, fin_add]
  congr 1; ring

/-! ## Concrete cases -/

/-- a list of boxes, a kern, a list lowered by 3, and two `fil` glues -/
def exKids : List (TNode XR) :=
  [.glue ⟨0, .fin 1, .fin 1, 1, .fin 0, 0⟩, .box ⟨0, .fin 5, .fin 10, .fin 2⟩, newKern (.fin (-1)),
   .list .h { LHead.zero with box := ⟨0, .fin 7, .fin 4, .fin 1⟩, shift := .fin 3 } [],
   .glue ⟨0, .fin 1, .fin 1, 1, .fin 0, 0⟩, .rule ⟨0, .fin 2, .pinf, .pinf⟩]

example : naturalWidth exKids = .fin 15 := by decide +kernel
example : (hpack LHead.zero exKids (.fin 40) false).box = ⟨0, .fin 40, .fin 10, .fin 4⟩ := by decide +kernel
example : (hpack LHead.zero exKids (.fin 40) true).box = ⟨0, .fin 55, .fin 10, .fin 4⟩ := by decide +kernel
example : (hpack LHead.zero exKids (.fin 40) false).sign = 1 ∧ (hpack LHead.zero exKids (.fin 40) false).order = 1 ∧
    (hpack LHead.zero exKids (.fin 40) false).set = .fin (25 / 2) := by decide +kernel
example : exKids.map (fun n => reach n) =
    [none, some (.fin 10, .fin 2), none, some (.fin 1, .fin 4), none, none] := by decide +kernel
/-- nothing to shrink: rigid -/
example : (hpack LHead.zero exKids (.fin 10) false).sign = 0 := by decide +kernel
/-- a vertical list whose last box has depth 20, cut to 5 -/
example : (match vpack (F := XR) LHead.zero [.box ⟨0, .fin 1, .fin 10, .fin 2⟩, newKern (.fin 3), .box ⟨0, .fin 9, .fin 10, .fin 20⟩]
      (.fin 0) true (.fin 5) with | .ok r => some r.box | _ => none) = some ⟨0, .fin 9, .fin 40, .fin 5⟩ := by decide +kernel
/-- a `Char` in a vertical list -/
example : ∃ n ∈ ([.char (rawChar [97] ⟨⟨[], [], .fin 1⟩, .fin 72⟩ true)] : List (TNode XR)), isGlyph n = true :=
  ⟨_, List.mem_cons_self, rfl⟩

/-- **C45** The glue setting of a rigid list can be stale: stretched to 40 and then packed to its natural
width, the list is rigid but still reports the setting 25/2 where a fresh list reports 0. -/
theorem C45_stale :
    (hpack (hpack LHead.zero exKids (.fin 40) false) exKids (.fin 0) true).set = .fin (25 / 2) ∧
    (hpack (hpack LHead.zero exKids (.fin 40) false) exKids (.fin 0) true).sign = 0 ∧
    (hpack LHead.zero exKids (.fin 0) true).set = .fin 0 := by decide +kernel

/-- kerning: `A` is narrower than its advance width by 1 and kerned by -3 before `V` -/
def exBe : Backend XR where
  kern _ a _ b _ := if a = bs!"A" ∧ b = bs!"V" then .fin (-3) else .fin 0
  metrics _ f _ _ := ⟨f.size, f.size, f.size, .fin 0, f.size, .fin 0, f.size, f.size⟩
  known _ _ _ _ := true
  xheight _ _ := some (.fin 1)
  underline _ _ := .fin 1
def exChar (c : GoString) : TNode XR :=
  .char { rawChar c ⟨⟨[], [], .fin 10⟩, .fin 72⟩ true with width := .fin 9, metrics :=
    ⟨.fin 10, .fin 0, .fin 0, .fin 0, .fin 0, .fin 0, .fin 0, .fin 0⟩ }
example : (insertKerns exBe [exChar bs!"A", exChar bs!"V", newKern (.fin 1)]).map TNode.width =
    [.fin 9, .fin (-2), .fin 9, .fin 1, .fin 1] := by decide +kernel

end Verif.Props
