import Verif.Lemmas.Zoom
/-! # Shipping at another scale -/

namespace Verif
open GoFloat Spec XR

theorem Alike.bind {α β α' β' : Type} {P : α → α' → Prop} {Q : β → β' → Prop} {r : Res α} {r' : Res α'} {f : α → Res β} {f' : α' → Res β'}
    (h : Alike P r r') (k : ∀ a a', P a a' → Alike Q (f a) (f' a')) : Alike Q (r >>= f) (r' >>= f') := by
  cases r <;> cases r' <;> first | exact k _ _ h | exact h | exact h.elim

variable {κ e d : ℚ}

theorem near_exact {a : XR} : Near κ e a (a * .fin κ) := .inl rfl

theorem near_up {e' : ℚ} (h : e ≤ e') {a b : XR} (hn : Near κ e a b) : Near κ e' a b := by
  rcases hn with hn | ⟨p, q, h1, h2, h3⟩
  · exact .inl hn
  · exact .inr ⟨p, q, h1, h2, h3.trans h⟩

theorem near_zero {a b : XR} (hn : Near κ 0 a b) : b = a * .fin κ := by
  rcases hn with hn | ⟨p, q, rfl, rfl, h3⟩
  · exact hn
  · have : q - κ * p = 0 := abs_eq_zero.1 (le_antisymm h3 (abs_nonneg _))
    rw [fin_mul, mul_comm, sub_eq_zero.1 this]

theorem near_add (hκ : 0 < κ) {a b : XR} (hn : Near κ e a b) (c : XR) : Near κ e (a + c) (b + c * .fin κ) := by
  rcases hn with rfl | ⟨p, q, rfl, rfl, h3⟩
  · exact .inl (add_mul_pos _ _ hκ).symm
  · have h0 : κ ≠ 0 := hκ.ne'
    have h1 : ¬ κ < 0 := not_lt.2 hκ.le
    cases c with
    | fin c => exact .inr ⟨p + c, q + c * κ, rfl, rfl, by rw [show q + c * κ - κ * (p + c) = q - κ * p by ring]; exact h3⟩
    | _ => left; simp [add_def, mul_def, XR.add, XR.mul, signInf, h0, h1, hκ]

theorem near_sub (hκ : 0 < κ) {a b : XR} (hn : Near κ e a b) (c : XR) : Near κ e (a - c) (b - c * .fin κ) := by
  rw [sub_add', sub_add', ← neg_mul' _ hκ]
  exact near_add hκ hn _

/-- The cursor, apart from what the glue has added. -/
def Tracks (κ e : ℚ) (q q' : GlueSt XR) (a b : XR) : Prop := ∃ A B, Near κ e A B ∧ a = A + ofInt q.g ∧ b = B + ofInt q'.g

theorem tracks_zero {a b : XR} (h : Near κ e a b) : Tracks κ e .zero .zero a b :=
  ⟨a, b, h, by simp [GlueSt.zero, add_zero'], by simp [GlueSt.zero, add_zero']⟩

theorem tracks_near (he : 0 ≤ e) {q q' : GlueSt XR} {a b : XR} (h : Tracks κ e q q' a b) (hq : |(q'.g : ℚ) - κ * q.g| ≤ d) (hκ : 0 < κ) : Near κ (e + d) a b := by
  have h0 : κ ≠ 0 := hκ.ne'
  have h1 : ¬ κ < 0 := not_lt.2 hκ.le
  obtain ⟨A, B, hn, rfl, rfl⟩ := h
  rw [ofInt_fin, ofInt_fin]
  rcases hn with rfl | ⟨p, r, rfl, rfl, h3⟩
  · cases A with
    | fin A =>
      refine .inr ⟨A + q.g, A * κ + q'.g, rfl, rfl, ?_⟩
      rw [show A * κ + (q'.g : ℚ) - κ * (A + q.g) = q'.g - κ * q.g by ring]
      exact hq.trans (by linarith)
    | _ => left; simp [add_def, mul_def, XR.add, XR.mul, signInf, h0, h1, hκ]
  · refine .inr ⟨p + q.g, r + q'.g, rfl, rfl, ?_⟩
    rw [show r + (q'.g : ℚ) - κ * (p + q.g) = (r - κ * p) + (q'.g - κ * q.g) by ring]
    exact (abs_add_le _ _).trans (add_le_add h3 hq)

theorem tracks_add (hκ : 0 < κ) {q q' : GlueSt XR} {a b : XR} (h : Tracks κ e q q' a b) (c : XR) : Tracks κ e q q' (a + c) (b + c * .fin κ) := by
  obtain ⟨A, B, hn, rfl, rfl⟩ := h
  exact ⟨A + c, B + c * .fin κ, near_add hκ hn c, by rw [add_assoc', add_comm' _ c, add_assoc'], by rw [add_assoc', add_comm' _ (c * _), add_assoc']⟩

/-- A step of glue. -/
theorem tracks_glue (hκ : 0 < κ) {q q' r r' : GlueSt XR} {a b : XR} (h : Tracks κ e q q' a b) (w : XR) :
    Tracks κ e r r' (a + (w - ofInt q.g + ofInt r.g)) (b + (w * .fin κ - ofInt q'.g + ofInt r'.g)) := by
  obtain ⟨A, B, hn, rfl, rfl⟩ := h
  have key : ∀ (A w : XR) (g r : Int), A + ofInt g + (w - ofInt g + ofInt r) = A + w + ofInt r := by
    intro A w g r
    rw [ofInt_fin, ofInt_fin]
    cases A <;> cases w <;> simp [add_def, sub_def, XR.add, XR.neg]
    ring
  exact ⟨A + w, B + w * .fin κ, near_add hκ hn w, key _ _ _ _, key _ _ _ _⟩

theorem abs_max (s : ℚ) : GoFloat.max (.fin s : XR) (-.fin s) = .fin |s| := by
  rw [fin_neg, fin_max]; rfl

theorem fin_of_add {a b : XR} {t : ℚ} (h : a + b = .fin t) : ∃ x y, a = .fin x ∧ b = .fin y ∧ x + y = t := by
  cases a <;> cases b <;> simp [add_def, XR.add] at h
  exact ⟨_, _, rfl, rfl, h⟩

theorem fin_of_max {a : XR} {t : ℚ} (h : GoFloat.max a (-a) = .fin t) : ∃ x, a = .fin x ∧ t = |x| := by
  cases a with
  | fin a => rw [abs_max] at h; cases h; exact ⟨a, rfl, rfl⟩
  | _ => simp [max_def, XR.max, neg_def, XR.neg] at h

theorem glueSum_glue {g : GlueD XR} {l : List (TNode XR)} {t : ℚ} (h : glueSum (.glue g :: l) = .fin t) :
    ∃ a b u : ℚ, g.stretch = .fin a ∧ g.shrink = .fin b ∧ glueSum l = .fin u ∧ t = |a| + |b| + u := by
  rw [glueSum] at h
  obtain ⟨x, u, h1, h2, rfl⟩ := fin_of_add h
  obtain ⟨y, y', h3, h4, rfl⟩ := fin_of_add h1
  obtain ⟨a, ha, rfl⟩ := fin_of_max h3
  obtain ⟨b, hb, rfl⟩ := fin_of_max h4
  exact ⟨a, b, u, ha, hb, h2, rfl⟩

theorem glueSum_nonneg {l : List (TNode XR)} {t : ℚ} (h : glueSum l = .fin t) : 0 ≤ t := by
  induction l generalizing t with
  | nil => cases h; rfl
  | cons n l ih =>
    cases n with
    | glue g =>
      obtain ⟨a, b, u, -, -, h3, rfl⟩ := glueSum_glue h
      have := ih h3
      positivity
    | _ => rw [glueSum] at h; exact ih h; all_goals simp

theorem clamp_small {a : ℚ} (h : |a| ≤ 1000000000) : clamp (.fin a : XR) = .fin a := by
  have := abs_le.1 h
  unfold clamp
  rw [ofInt_fin, ofInt_fin, fin_lt, fin_lt]
  rw [if_neg (by simp; linarith), if_neg (by simp; linarith)]

theorem round_scaled (hκ : 0 < κ) {a : ℚ} (h1 : |a| ≤ 1000000000) (h2 : κ * |a| ≤ 1000000000) :
    |((round (clamp (.fin (κ * a) : XR)) : Int) : ℚ) - κ * (round (clamp (.fin a : XR)) : Int)| ≤ (1 + κ) / 2 := by
  rw [clamp_small h1, clamp_small (by rw [abs_mul, abs_of_pos hκ]; exact h2)]
  show |(roundQ (κ * a) : ℚ) - κ * (roundQ a : ℚ)| ≤ _
  have n1 := roundQ_near (κ * a)
  have n2 := roundQ_near a
  rw [abs_le] at n1 n2 ⊢
  constructor <;> nlinarith [n1.1, n1.2, n2.1, n2.2, mul_le_mul_of_nonneg_left n2.1 hκ.le, mul_le_mul_of_nonneg_left n2.2 hκ.le]

/-- What is known of the glue still to come in a list. -/
def GlueFine (κ L d : ℚ) (hd : LHead XR) (cs : List (TNode XR)) (q q' : GlueSt XR) : Prop :=
  |(q'.g : ℚ) - κ * q.g| ≤ d ∧ (cs.any isGlue = true → d = (1 + κ) / 2 ∧
    ∃ s t T : ℚ, hd.set = .fin s ∧ q.glue = .fin t ∧ q'.glue = .fin t ∧ glueSum cs = .fin T ∧ |s| * (|t| + T) ≤ L)

theorem glueFine_step {L : ℚ} (hκ : 0 < κ) (h1 : L ≤ 1000000000) (h2 : κ * L ≤ 1000000000) {hd hd' : LHead XR} {g : GlueD XR}
    {l : List (TNode XR)} {q q' : GlueSt XR} (hf : GlueFine κ L d hd (.glue g :: l) q q') {z : Zoom XR} (hset : hd'.set = hd.set * .fin κ)
    (hs : hd'.sign = hd.sign) (ho : hd'.order = hd.order) :
    GlueFine κ L d hd l (glueStep hd g q).2 (glueStep hd' (z.glue g) q').2 := by
  obtain ⟨hq, hf⟩ := hf
  obtain ⟨rfl, s, t, T, e1, e2, e3, e4, e5⟩ := hf (by simp [isGlue])
  obtain ⟨a, b, u, e6, e7, e8, rfl⟩ := glueSum_glue e4
  have hu := glueSum_nonneg e8
  have hset' : hd'.set = .fin (κ * s) := by rw [hset, e1, fin_mul, mul_comm]
  have key : ∀ y : ℚ, |y| ≤ |a| + |b| → |s| * (|t + y| + u) ≤ L ∧
      |((round (clamp (.fin (κ * s) * (.fin t + .fin y) : XR)) : Int) : ℚ) - κ * (round (clamp (.fin s * (.fin t + .fin y) : XR)) : Int)| ≤ (1 + κ) / 2 := by
    intro y hy
    have ht : |t + y| ≤ |t| + |y| := abs_add_le _ _
    have hL : |s| * (|t + y| + u) ≤ L := le_trans (mul_le_mul_of_nonneg_left (by linarith) (abs_nonneg _)) e5
    refine ⟨hL, ?_⟩
    rw [fin_add, fin_mul, fin_mul, mul_assoc]
    have hm : |s * (t + y)| ≤ L := by
      rw [abs_mul]
      exact le_trans (mul_le_mul_of_nonneg_left (by linarith) (abs_nonneg _)) hL
    exact round_scaled hκ (hm.trans h1) (le_trans (mul_le_mul_of_nonneg_left hm hκ.le) h2)
  have hsame : GlueFine κ L ((1 + κ) / 2) hd l q q' :=
    ⟨hq, fun _ => ⟨rfl, s, t, u, e1, e2, e3, e8, by
      refine le_trans (mul_le_mul_of_nonneg_left ?_ (abs_nonneg _)) e5
      have := abs_nonneg a; have := abs_nonneg b; linarith⟩⟩
  unfold glueStep
  dsimp only
  have es : (z.glue g).stretch = g.stretch := rfl
  have eh : (z.glue g).shrink = g.shrink := rfl
  have eso : (z.glue g).stretchOrder = g.stretchOrder := rfl
  have eho : (z.glue g).shrinkOrder = g.shrinkOrder := rfl
  rw [hs, ho, es, eh, eso, eho, hset', e1, e2, e3, e6, e7]
  have ha := abs_nonneg a
  have hb := abs_nonneg b
  by_cases c1 : hd.sign ≠ 0
  · rw [if_pos c1, if_pos c1]
    by_cases c2 : hd.sign = 1
    · rw [if_pos c2, if_pos c2]
      by_cases c3 : g.stretchOrder = hd.order
      · rw [if_pos c3, if_pos c3]
        exact ⟨(key a (by linarith)).2, fun _ => ⟨rfl, s, t + a, u, e1, rfl, rfl, e8, (key a (by linarith)).1⟩⟩
      · rw [if_neg c3, if_neg c3]; exact hsame
    · rw [if_neg c2, if_neg c2]
      by_cases c3 : g.shrinkOrder = hd.order
      · rw [if_pos c3, if_pos c3]
        exact ⟨(key b (by linarith)).2, fun _ => ⟨rfl, s, t + b, u, e1, rfl, rfl, e8, (key b (by linarith)).1⟩⟩
      · rw [if_neg c3, if_neg c3]; exact hsame
  · rw [if_neg c1, if_neg c1]; exact hsame


theorem glueFine_skip {L : ℚ} {hd : LHead XR} {n : TNode XR} {l : List (TNode XR)} {q q' : GlueSt XR} (hn : isGlue n = false)
    (hf : GlueFine κ L d hd (n :: l) q q') : GlueFine κ L d hd l q q' := by
  refine ⟨hf.1, fun h => ?_⟩
  obtain ⟨h1, s, t, T, e1, e2, e3, e4, e5⟩ := hf.2 (by simp [h])
  refine ⟨h1, s, t, T, e1, e2, e3, ?_, e5⟩
  cases n with
  | glue g => cases hn
  | _ => rw [glueSum] at e4; exact e4; all_goals simp

/-- What glue can add to the error in a list. -/
def slack (κ : ℚ) (cs : List (TNode XR)) : ℚ := if cs.any isGlue then (1 + κ) / 2 else 0

theorem slack_nonneg (hκ : 0 < κ) (cs : List (TNode XR)) : 0 ≤ slack κ cs := by
  unfold slack; split
  · linarith
  · exact le_refl _

theorem glueFine_zero {L : ℚ} (hκ : 0 < κ) {hd : LHead XR} {cs : List (TNode XR)}
    (h : cs.any isGlue = true → ∃ s t : ℚ, hd.set = .fin s ∧ glueSum cs = .fin t ∧ |s| * t ≤ L) :
    GlueFine κ L (slack κ cs) hd cs .zero .zero := by
  refine ⟨?_, fun hc => ?_⟩
  · simp [GlueSt.zero]; exact slack_nonneg hκ cs
  · obtain ⟨s, t, e1, e2, e3⟩ := h hc
    exact ⟨by unfold slack; rw [if_pos hc], s, 0, t, e1, by simp [GlueSt.zero], by simp [GlueSt.zero], e2, by simpa using e3⟩

section
variable {k l L E : ℚ} (hk : 0 < k) (hl : 0 < l) (hκ : 0 < k * l) (h1 : L ≤ 1000000000) (h2 : k * l * L ≤ 1000000000)

theorem zoom_isEmpty {F : Type} [GoFloat F] (z : Zoom F) (cs : List (TNode F)) : (z.nodes cs).isEmpty = cs.isEmpty := by cases cs <;> rfl

/-- The drawing calls made so far. -/
def OpsNear (k l E : ℚ) (a b : List (Draw XR)) : Prop := List.Forall₂ (NearDraw (k * l) k l E) a b

theorem opsNear_add {a b : List (Draw XR)} {x y : Draw XR} (h : OpsNear k l E a b) (hx : NearDraw (k * l) k l E x y) : OpsNear k l E (a ++ [x]) (b ++ [y]) :=
  List.rel_append h (.cons hx .nil)

/-- The state inside a horizontal list. -/
structure HNear (k l E e : ℚ) (q q' : GlueSt XR) (st st' : ShipSt XR) : Prop where
  h : Tracks (k * l) e q q' st.h st'.h
  v : Near (k * l) e st.v st'.v
  ops : OpsNear k l E st.ops st'.ops

/-- The state inside a vertical list. -/
structure VNear (k l E e : ℚ) (q q' : GlueSt XR) (st st' : ShipSt XR) : Prop where
  v : Tracks (k * l) e q q' st.v st'.v
  h : Near (k * l) e st.h st'.h
  ops : OpsNear k l E st.ops st'.ops

/-- What a pass through a list ends with. -/
def EndNear (k l E : ℚ) (a b : ShipSt XR × List (TNode XR)) : Prop := OpsNear k l E a.1.ops b.1.ops

/-- What one step in a horizontal list ends with. -/
def HStep (k l E e : ℚ) (q q' : GlueSt XR) (a b : ShipSt XR × TNode XR × GlueSt XR) : Prop := a.2.2 = q ∧ b.2.2 = q' ∧ HNear k l E e q q' a.1 b.1
/-- What one step in a vertical list ends with. -/
def VStep (k l E e : ℚ) (q q' : GlueSt XR) (a b : ShipSt XR × TNode XR × GlueSt XR) : Prop := a.2.2 = q ∧ b.2.2 = q' ∧ VNear k l E e q q' a.1 b.1

/-- The offset at another scale. -/
def zoff (z : Zoom XR) (o : Off XR) : Off XR := ⟨z.len o.h, z.len o.v⟩

local notation "Z" => Zoom.by hk hl

include hκ in
theorem nearDraw_rect {e : ℚ} {x y x' y' : XR} (hE : e ≤ E) (hx : Near (k * l) e x x') (hy : Near (k * l) e y y') (w h : XR) :
    NearDraw (k * l) k l E (renderRule x y w h) (renderRule x' y' (w * .fin (k * l)) (h * .fin (k * l))) :=
  ⟨near_up hE hx, near_up hE hy, near_up hE (near_add hκ hx w), near_up hE (near_add hκ hy h)⟩

include hκ h1 h2
mutual
theorem zoom_hNode (o : Off XR) (hd : LHead XR) : ∀ (n : TNode XR) (e d : ℚ) (base base' : XR) (q q' : GlueSt XR) (st st' : ShipSt XR), 0 ≤ e → 0 ≤ d →
    isGlue n = false → GlueWithin L n → e + d + glueNest n * ((1 + k * l) / 2) ≤ E → |(q'.g : ℚ) - k * l * q.g| ≤ d → Near (k * l) e base base' →
    HNear k l E e q q' st st' →
    Alike (HStep k l E e q q') (hNode o hd base n q st) (hNode (zoff Z o) ((Z).head hd) base' ((Z).node n) q' st')
  | .char c, e, d, base, base', q, q', st, st', he, hd0, _, _, hE, hq, hb, hs => by
    simp only [glueNest, Nat.cast_zero, zero_mul, add_zero] at hE
    rw [Zoom.node, hNode, hNode]
    refine ⟨rfl, rfl, tracks_add hκ hs.h _, hs.v, opsNear_add hs.ops ⟨near_up hE (near_add hκ (tracks_near he hs.h hq hκ) _), ?_, rfl, rfl, rfl⟩⟩
    exact near_up (by linarith) (near_add hκ hs.v _)
  | .accent c, e, d, base, base', q, q', st, st', he, hd0, _, _, hE, hq, hb, hs => by
    simp only [glueNest, Nat.cast_zero, zero_mul, add_zero] at hE
    rw [Zoom.node, hNode, hNode]
    refine ⟨rfl, rfl, tracks_add hκ hs.h _, hs.v, opsNear_add hs.ops ⟨near_up hE (near_sub hκ (near_add hκ (tracks_near he hs.h hq hκ) _) _), ?_, rfl, rfl, rfl⟩⟩
    exact near_up (by linarith) (near_add hκ (near_add hκ hs.v _) _)
  | .kern c, e, d, base, base', q, q', st, st', he, hd0, _, _, hE, hq, hb, hs => by
    rw [Zoom.node, hNode, hNode]
    exact ⟨rfl, rfl, tracks_add hκ hs.h _, hs.v, hs.ops⟩
  | .glue _, _, _, _, _, _, _, _, _, _, _, h, _, _, _, _, _ => by cases h
  | .box b, e, d, base, base', q, q', st, st', he, hd0, _, _, hE, hq, hb, hs => by
    rw [Zoom.node, hNode, hNode]
    have hrh : (if isInf ((Z).box b).height then ((Z).head hd).box.height else ((Z).box b).height) =
        (Z).len (if isInf b.height then hd.box.height else b.height) := by
      show (if isInf ((Z).len b.height) then _ else _) = _
      rw [(Z).isInf]; split <;> rfl
    have hw : ((Z).box b).width = (Z).len b.width := rfl
    rw [hrh, hw, Zoom'.pos, Zoom'.pos]
    generalize (pos (_ : XR) && pos (_ : XR)) = c
    cases c
    · exact ⟨rfl, rfl, tracks_add hκ hs.h _, hs.v, hs.ops⟩
    · rfl
  | .rule b, e, d, base, base', q, q', st, st', he, hd0, _, _, hE, hq, hb, hs => by
    simp only [glueNest, Nat.cast_zero, zero_mul, add_zero] at hE
    rw [Zoom.node, hNode, hNode]
    have hrh : (if isInf ((Z).box b).height then ((Z).head hd).box.height else ((Z).box b).height) =
        (Z).len (if isInf b.height then hd.box.height else b.height) := by
      show (if isInf ((Z).len b.height) then _ else _) = _
      rw [(Z).isInf]; split <;> rfl
    have hrd : (if isInf ((Z).box b).depth then ((Z).head hd).box.depth else ((Z).box b).depth) =
        (Z).len (if isInf b.depth then hd.box.depth else b.depth) := by
      show (if isInf ((Z).len b.depth) then _ else _) = _
      rw [(Z).isInf]; split <;> rfl
    have hw : ((Z).box b).width = (Z).len b.width := rfl
    rw [hrh, hrd, hw, Zoom'.pos, Zoom'.pos]
    generalize (if isInf b.height then hd.box.height else b.height) = rh
    generalize (if isInf b.depth then hd.box.depth else b.depth) = rd
    generalize (pos rh && pos b.width) = c
    cases c
    · exact ⟨rfl, rfl, tracks_add hκ hs.h _, hs.v, hs.ops⟩
    · exact ⟨rfl, rfl, tracks_add hκ hs.h _, hb, opsNear_add hs.ops (nearDraw_rect hκ hE (near_add hκ (tracks_near he hs.h hq hκ) _)
        (near_up (by linarith) (near_add hκ (near_add hκ hb _) _)) _ _)⟩
  | .list .plain nd cs, e, d, base, base', q, q', st, st', he, hd0, _, _, hE, hq, hb, hs => by
    rw [Zoom.node, hNode, hNode]
    have hrh : (if isInf ((Z).head nd).box.height then ((Z).head hd).box.height else ((Z).head nd).box.height) =
        (Z).len (if isInf nd.box.height then hd.box.height else nd.box.height) := by
      show (if isInf ((Z).len nd.box.height) then _ else _) = _
      rw [(Z).isInf]; split <;> rfl
    have hw : ((Z).head nd).box.width = (Z).len nd.box.width := rfl
    rw [hrh, hw, Zoom'.pos, Zoom'.pos]
    generalize (pos (_ : XR) && pos (_ : XR)) = c
    cases c
    · exact ⟨rfl, rfl, tracks_add hκ hs.h _, hs.v, hs.ops⟩
    · rfl
  | .list .h nd cs, e, d, base, base', q, q', st, st', he, hd0, _, hG, hE, hq, hb, hs => by
    rw [Zoom.node, hNode, hNode, zoom_isEmpty]
    rw [GlueWithin] at hG
    by_cases hc : cs.isEmpty = true
    · rw [if_pos hc, if_pos hc]
      exact ⟨rfl, rfl, tracks_add hκ hs.h _, hs.v, hs.ops⟩
    · rw [if_neg hc, if_neg hc]
      have hbn : Near (k * l) (e + d) (base + nd.shift) (base' + ((Z).head nd).shift) := near_up (by linarith) (near_add hκ hb _)
      refine Alike.bind (zoom_hLoop o nd cs (e + d) (slack (k * l) cs) _ _ _ _ _ _ (by linarith) (slack_nonneg hκ cs) hG.1 ?_ (glueFine_zero hκ hG.2) hbn
        ⟨tracks_zero (tracks_near he hs.h hq hκ), hbn, hs.ops⟩) ?_
      · rw [glueNest] at hE
        refine le_trans (le_of_eq ?_) hE
        unfold slack
        split
        · push_cast; ring
        · push_cast; ring
      · intro a b hab
        exact ⟨rfl, rfl, tracks_add hκ hs.h _, hb, hab⟩
  | .list .v nd cs, e, d, base, base', q, q', st, st', he, hd0, _, hG, hE, hq, hb, hs => by
    rw [Zoom.node, hNode, hNode, zoom_isEmpty]
    rw [GlueWithin] at hG
    by_cases hc : cs.isEmpty = true
    · rw [if_pos hc, if_pos hc]
      exact ⟨rfl, rfl, tracks_add hκ hs.h _, hs.v, hs.ops⟩
    · rw [if_neg hc, if_neg hc]
      have hbn : Near (k * l) (e + d) (base + nd.shift - nd.box.height) (base' + ((Z).head nd).shift - ((Z).head nd).box.height) :=
        near_up (by linarith) (near_sub hκ (near_add hκ hb _) _)
      have hh := tracks_near he hs.h hq hκ
      refine Alike.bind (zoom_vLoop o nd cs (e + d) (slack (k * l) cs) _ _ _ _ _ _ (by linarith) (slack_nonneg hκ cs) hG.1 ?_ (glueFine_zero hκ hG.2) hh
        ⟨tracks_zero hbn, hh, hs.ops⟩) ?_
      · rw [glueNest] at hE
        refine le_trans (le_of_eq ?_) hE
        unfold slack
        split
        · push_cast; ring
        · push_cast; ring
      · intro a b hab
        exact ⟨rfl, rfl, tracks_add hκ hs.h _, hb, hab⟩
theorem zoom_hLoop (o : Off XR) (hd : LHead XR) : ∀ (cs : List (TNode XR)) (e d : ℚ) (base base' : XR) (q q' : GlueSt XR) (st st' : ShipSt XR), 0 ≤ e → 0 ≤ d →
    GluesWithin L cs → e + d + glueNests cs * ((1 + k * l) / 2) ≤ E → GlueFine (k * l) L d hd cs q q' → Near (k * l) e base base' →
    HNear k l E e q q' st st' →
    Alike (EndNear k l E) (hLoop o hd base cs q st) (hLoop (zoff Z o) ((Z).head hd) base' ((Z).nodes cs) q' st')
  | [], e, d, base, base', q, q', st, st', _, _, _, _, _, _, hs => by rw [Zoom.nodes, hLoop, hLoop]; exact hs.ops
  | n :: cs, e, d, base, base', q, q', st, st', he, hd0, hG, hE, hf, hb, hs => by
    by_cases hn : isGlue n = true
    · cases n <;> first | cases hn | skip
      rename_i g
      rw [Zoom.nodes, hLoop, hLoop, Zoom.node, hNode, hNode]
      rw [GluesWithin] at hG
      have hE' : e + d + (glueNests cs : ℚ) * ((1 + k * l) / 2) ≤ E := by
        rw [glueNests] at hE
        refine le_trans (add_le_add (le_refl _) (mul_le_mul_of_nonneg_right ?_ (by positivity))) hE
        exact_mod_cast Nat.le_max_right _ _
      rw [Res.ok_bind, Res.ok_bind]
      refine Alike.bind (zoom_hLoop o hd cs e d base base' _ _ _ _ he hd0 hG.2 hE' (glueFine_step (z := Z) hκ h1 h2 hf rfl rfl rfl) hb
        ⟨tracks_glue hκ hs.h g.width, hs.v, hs.ops⟩) ?_
      intro a b hab
      exact hab
    · have hn : isGlue n = false := by simpa using hn
      rw [Zoom.nodes, hLoop, hLoop]
      rw [GluesWithin] at hG
      have hp : 0 ≤ (1 + k * l) / 2 := by positivity
      have hE' : e + d + (glueNests cs : ℚ) * ((1 + k * l) / 2) ≤ E := by
        rw [glueNests] at hE
        refine le_trans (add_le_add (le_refl _) (mul_le_mul_of_nonneg_right ?_ hp)) hE
        exact_mod_cast Nat.le_max_right _ _
      have hE2 : e + d + (glueNest n : ℚ) * ((1 + k * l) / 2) ≤ E := by
        rw [glueNests] at hE
        refine le_trans (add_le_add (le_refl _) (mul_le_mul_of_nonneg_right ?_ hp)) hE
        exact_mod_cast Nat.le_max_left _ _
      refine Alike.bind (zoom_hNode o hd n e d base base' q q' st st' he hd0 hn hG.1 hE2 hf.1 hb hs) ?_
      rintro ⟨st1, n1, q1⟩ ⟨st1', n1', q1'⟩ ⟨e1, e2, e3⟩
      dsimp only at e1 e2 e3
      subst e1 e2
      refine Alike.bind (zoom_hLoop o hd cs e d base base' _ _ _ _ he hd0 hG.2 hE' (glueFine_skip hn hf) hb e3) ?_
      intro a b hab
      exact hab
theorem zoom_vNode (o : Off XR) (hd : LHead XR) : ∀ (n : TNode XR) (e d : ℚ) (left left' : XR) (q q' : GlueSt XR) (st st' : ShipSt XR), 0 ≤ e → 0 ≤ d →
    isGlue n = false → GlueWithin L n → e + d + glueNest n * ((1 + k * l) / 2) ≤ E → |(q'.g : ℚ) - k * l * q.g| ≤ d → Near (k * l) e left left' →
    VNear k l E e q q' st st' →
    Alike (VStep k l E e q q') (vNode o hd left n q st) (vNode (zoff Z o) ((Z).head hd) left' ((Z).node n) q' st')
  | .char c, e, d, left, left', q, q', st, st', he, hd0, _, _, hE, hq, hb, hs => by
    rw [Zoom.node, vNode, vNode]; rfl
  | .accent c, e, d, left, left', q, q', st, st', he, hd0, _, _, hE, hq, hb, hs => by
    rw [Zoom.node, vNode, vNode]; rfl
  | .kern c, e, d, left, left', q, q', st, st', he, hd0, _, _, hE, hq, hb, hs => by
    rw [Zoom.node, vNode, vNode]
    exact ⟨rfl, rfl, tracks_add hκ hs.v _, hs.h, hs.ops⟩
  | .glue _, _, _, _, _, _, _, _, _, _, _, h, _, _, _, _, _ => by cases h
  | .box b, e, d, left, left', q, q', st, st', he, hd0, _, _, hE, hq, hb, hs => by
    rw [Zoom.node, vNode, vNode]
    have h1 : ((Z).box b).height + ((Z).box b).depth = (Z).len (b.height + b.depth) := (Z).add _ _
    have h2 : ((Z).box b).depth = (Z).len b.depth := rfl
    rw [h1, h2, Zoom'.pos, Zoom'.pos]
    generalize (pos (_ : XR) && pos (_ : XR)) = c
    cases c
    · exact ⟨rfl, rfl, hs.v, hs.h, hs.ops⟩
    · exact ⟨rfl, rfl, tracks_add hκ hs.v _, hs.h, hs.ops⟩
  | .list .plain nd cs, e, d, left, left', q, q', st, st', he, hd0, _, _, hE, hq, hb, hs => by
    rw [Zoom.node, vNode, vNode]
    have h1 : ((Z).head nd).box.height + ((Z).head nd).box.depth = (Z).len (nd.box.height + nd.box.depth) := (Z).add _ _
    have h2 : ((Z).head nd).box.depth = (Z).len nd.box.depth := rfl
    rw [h1, h2, Zoom'.pos, Zoom'.pos]
    generalize (pos (_ : XR) && pos (_ : XR)) = c
    cases c
    · exact ⟨rfl, rfl, hs.v, hs.h, hs.ops⟩
    · exact ⟨rfl, rfl, tracks_add hκ hs.v _, hs.h, hs.ops⟩
  | .rule b, e, d, left, left', q, q', st, st', he, hd0, _, _, hE, hq, hb, hs => by
    simp only [glueNest, Nat.cast_zero, zero_mul, add_zero] at hE
    rw [Zoom.node, vNode, vNode]
    have h1 : ((Z).box b).height + ((Z).box b).depth = (Z).len (b.height + b.depth) := (Z).add _ _
    have h2 : ((Z).box b).depth = (Z).len b.depth := rfl
    have hrw : (if isInf ((Z).box b).width then ((Z).head hd).box.width else ((Z).box b).width) =
        (Z).len (if isInf b.width then hd.box.width else b.width) := by
      show (if isInf ((Z).len b.width) then _ else _) = _
      rw [(Z).isInf]; split <;> rfl
    rw [h1, h2, hrw, Zoom'.pos, Zoom'.pos]
    generalize (if isInf b.width then hd.box.width else b.width) = rw
    generalize (pos (_ : XR) && pos (_ : XR)) = c
    cases c
    · exact ⟨rfl, rfl, hs.v, hs.h, hs.ops⟩
    · exact ⟨rfl, rfl, tracks_add hκ hs.v _, hs.h, opsNear_add hs.ops (nearDraw_rect hκ hE (near_up (by linarith) (near_add hκ hs.h _))
        (near_add hκ (near_add hκ (tracks_near he hs.v hq hκ) _) _) _ _)⟩
  | .list .h nd cs, e, d, left, left', q, q', st, st', he, hd0, _, hG, hE, hq, hb, hs => by
    rw [Zoom.node, vNode, vNode, zoom_isEmpty]
    rw [GlueWithin] at hG
    have h1 : ((Z).head nd).box.height + ((Z).head nd).box.depth = (Z).len (nd.box.height + nd.box.depth) := (Z).add _ _
    by_cases hc : cs.isEmpty = true
    · rw [if_pos hc, if_pos hc, h1]
      exact ⟨rfl, rfl, tracks_add hκ hs.v _, hs.h, hs.ops⟩
    · rw [if_neg hc, if_neg hc]
      dsimp only
      have hbn : Near (k * l) (e + d) (left + nd.shift) (left' + ((Z).head nd).shift) := near_up (by linarith) (near_add hκ hb _)
      have hv : Near (k * l) (e + d) (st.v + nd.box.height) (st'.v + ((Z).head nd).box.height) := near_add hκ (tracks_near he hs.v hq hκ) _
      refine Alike.bind (zoom_hLoop o { nd with box := { nd.box with width := hd.box.width } } cs (e + d) (slack (k * l) cs) _ _ _ _ _ _ (by linarith)
        (slack_nonneg hκ cs) hG.1 ?_ (glueFine_zero hκ hG.2) hv ⟨tracks_zero hbn, hv, hs.ops⟩) ?_
      · rw [glueNest] at hE
        refine le_trans (le_of_eq ?_) hE
        unfold slack
        split
        · push_cast; ring
        · push_cast; ring
      · intro a b hab
        exact ⟨rfl, rfl, tracks_add hκ (tracks_add hκ hs.v _) _, hb, hab⟩
  | .list .v nd cs, e, d, left, left', q, q', st, st', he, hd0, _, hG, hE, hq, hb, hs => by
    rw [Zoom.node, vNode, vNode, zoom_isEmpty]
    rw [GlueWithin] at hG
    have h1 : ((Z).head nd).box.height + ((Z).head nd).box.depth = (Z).len (nd.box.height + nd.box.depth) := (Z).add _ _
    by_cases hc : cs.isEmpty = true
    · rw [if_pos hc, if_pos hc, h1]
      exact ⟨rfl, rfl, tracks_add hκ hs.v _, hs.h, hs.ops⟩
    · rw [if_neg hc, if_neg hc]
      dsimp only
      have hbn : Near (k * l) (e + d) (left + nd.shift) (left' + ((Z).head nd).shift) := near_up (by linarith) (near_add hκ hb _)
      have hv : Near (k * l) (e + d) (st.v + nd.box.height - nd.box.height) (st'.v + ((Z).head nd).box.height - ((Z).head nd).box.height) :=
        near_sub hκ (near_add hκ (tracks_near he hs.v hq hκ) _) _
      refine Alike.bind (zoom_vLoop o { nd with box := { nd.box with width := hd.box.width } } cs (e + d) (slack (k * l) cs) _ _ _ _ _ _ (by linarith)
        (slack_nonneg hκ cs) hG.1 ?_ (glueFine_zero hκ hG.2) hbn ⟨tracks_zero hv, hbn, hs.ops⟩) ?_
      · rw [glueNest] at hE
        refine le_trans (le_of_eq ?_) hE
        unfold slack
        split
        · push_cast; ring
        · push_cast; ring
      · intro a b hab
        exact ⟨rfl, rfl, tracks_add hκ (tracks_add hκ hs.v _) _, hb, hab⟩
theorem zoom_vLoop (o : Off XR) (hd : LHead XR) : ∀ (cs : List (TNode XR)) (e d : ℚ) (left left' : XR) (q q' : GlueSt XR) (st st' : ShipSt XR), 0 ≤ e → 0 ≤ d →
    GluesWithin L cs → e + d + glueNests cs * ((1 + k * l) / 2) ≤ E → GlueFine (k * l) L d hd cs q q' → Near (k * l) e left left' →
    VNear k l E e q q' st st' →
    Alike (EndNear k l E) (vLoop o hd left cs q st) (vLoop (zoff Z o) ((Z).head hd) left' ((Z).nodes cs) q' st')
  | [], e, d, left, left', q, q', st, st', _, _, _, _, _, _, hs => by rw [Zoom.nodes, vLoop, vLoop]; exact hs.ops
  | n :: cs, e, d, left, left', q, q', st, st', he, hd0, hG, hE, hf, hb, hs => by
    by_cases hn : isGlue n = true
    · cases n <;> first | cases hn | skip
      rename_i g
      rw [Zoom.nodes, vLoop, vLoop, Zoom.node, vNode, vNode]
      rw [GluesWithin] at hG
      have hE' : e + d + (glueNests cs : ℚ) * ((1 + k * l) / 2) ≤ E := by
        rw [glueNests] at hE
        refine le_trans (add_le_add (le_refl _) (mul_le_mul_of_nonneg_right ?_ (by positivity))) hE
        exact_mod_cast Nat.le_max_right _ _
      rw [Res.ok_bind, Res.ok_bind]
      refine Alike.bind (zoom_vLoop o hd cs e d left left' _ _ _ _ he hd0 hG.2 hE' (glueFine_step (z := Z) hκ h1 h2 hf rfl rfl rfl) hb
        ⟨tracks_glue hκ hs.v g.width, hs.h, hs.ops⟩) ?_
      intro a b hab
      exact hab
    · have hn : isGlue n = false := by simpa using hn
      rw [Zoom.nodes, vLoop, vLoop]
      rw [GluesWithin] at hG
      have hp : 0 ≤ (1 + k * l) / 2 := by positivity
      have hE' : e + d + (glueNests cs : ℚ) * ((1 + k * l) / 2) ≤ E := by
        rw [glueNests] at hE
        refine le_trans (add_le_add (le_refl _) (mul_le_mul_of_nonneg_right ?_ hp)) hE
        exact_mod_cast Nat.le_max_right _ _
      have hE2 : e + d + (glueNest n : ℚ) * ((1 + k * l) / 2) ≤ E := by
        rw [glueNests] at hE
        refine le_trans (add_le_add (le_refl _) (mul_le_mul_of_nonneg_right ?_ hp)) hE
        exact_mod_cast Nat.le_max_left _ _
      refine Alike.bind (zoom_vNode o hd n e d left left' q q' st st' he hd0 hn hG.1 hE2 hf.1 hb hs) ?_
      rintro ⟨st1, n1, q1⟩ ⟨st1', n1', q1'⟩ ⟨e1, e2, e3⟩
      dsimp only at e1 e2 e3
      subst e1 e2
      refine Alike.bind (zoom_vLoop o hd cs e d left left' _ _ _ _ he hd0 hG.2 hE' (glueFine_skip hn hf) hb e3) ?_
      intro a b hab
      exact hab
end

end

end Verif
