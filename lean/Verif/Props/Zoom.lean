import Verif.Lemmas.ZoomWalk
import Verif.Lemmas.ZoomShip
import Verif.Props.Across
/-! # C85: the same document at another font size or resolution -/

namespace Verif.Props
open Verif Verif.Spec GoFloat XR

/-- **C85** Whatever a change of scale is, as long as the backend follows it: mtex.Parse of any document gives the same box, at
the other scale, or panics in the same way. -/
theorem C85_box {F : Type} [GoFloat F] (z : Zoom F) (be be' : Backend F) (hb : Zoomed z be be' (fun _ => True))
    (hneg : GoFloat.lt (ofInt (-1) : F) zero = true) (U : Nat → Bool) (num : GoString → Option F) (x : GoString) (size dpi : F) :
    mtexParse U be' num x (z.siz size) (z.res dpi) = Res.as (mtexParse U be num x size dpi) (fun q => (z.head q.1, z.nodes q.2)) := by
  cases hp : parseExpr U x with
  | ok root => exact (zoom_parse (z := z) (G := fun _ => True) hb trivial hneg U size dpi root hp (.inl trivial)).1
  | panic p => rw [mtexParse, mtexParse, hp]; rfl
  | fuel => rw [mtexParse, mtexParse, hp]; rfl

/-- **C85** In formulas, a backend that follows in math mode is enough. -/
theorem C85_formula {F : Type} [GoFloat F] (z : Zoom F) (be be' : Backend F) (hb : Zoomed z be be' (· = true))
    (hneg : GoFloat.lt (ofInt (-1) : F) zero = true) (U : Nat → Bool) (num : GoString → Option F) (x : GoString) (size dpi : F)
    (root : Node) (hp : parseExpr U x = .ok root) (hm : OnlyMath root) :
    mtexParse U be' num x (z.siz size) (z.res dpi) = Res.as (mtexParse U be num x size dpi) (fun q => (z.head q.1, z.nodes q.2)) :=
  (zoom_parse (z := z) (G := (· = true)) hb rfl hneg U size dpi root hp (.inr hm)).1

theorem neg_one_lt : GoFloat.lt (ofInt (-1) : XR) zero = true := by simp

/-- **C85** At `k` times the font size and `l` times the resolution the box has `k * l` times the width, the height and the depth. -/
theorem C85_dimensions {k l : ℚ} (hk : 0 < k) (hl : 0 < l) (be be' : Backend XR) (hb : Zoomed (.by hk hl) be be' (fun _ => True))
    (U : Nat → Bool) (num : GoString → Option XR) (x : GoString) (size dpi : XR) :
    Alike (fun r r' : LHead XR × List (TNode XR) => r'.1.box.width = r.1.box.width * .fin (k * l) ∧ r'.1.box.height = r.1.box.height * .fin (k * l) ∧
        r'.1.box.depth = r.1.box.depth * .fin (k * l))
      (mtexParse U be num x size dpi) (mtexParse U be' num x (size * .fin k) (dpi * .fin l)) := by
  have h := C85_box (.by hk hl) be be' hb neg_one_lt U num x size dpi
  change mtexParse U be' num x (size * .fin k) (dpi * .fin l) = _ at h
  rw [h]
  cases mtexParse U be num x size dpi with
  | ok r => exact ⟨rfl, rfl, rfl⟩
  | panic p => exact (rfl : p = p)
  | fuel => trivial

theorem within_glueless {L : ℚ} : (∀ n : TNode XR, glueNest n = 0 → GlueWithin L n) ∧ ∀ l : List (TNode XR), glueNests l = 0 → GluesWithin L l := by
  have key : ∀ m : Nat, (∀ n : TNode XR, sizeOf n ≤ m → glueNest n = 0 → GlueWithin L n) ∧
      ∀ l : List (TNode XR), sizeOf l ≤ m → glueNests l = 0 → GluesWithin L l := by
    intro m
    induction m with
    | zero =>
      constructor
      · intro n hn; cases n <;> simp at hn
      · intro n hn; cases n <;> simp at hn
    | succ m ih =>
      constructor
      · intro n hn h0
        cases n with
        | list kd hd cs =>
          rw [glueNest] at h0
          rw [GlueWithin]
          refine ⟨ih.2 cs (by simp at hn; omega) (by omega), fun h => ?_⟩
          rw [if_pos h] at h0
          omega
        | _ => rw [GlueWithin]; trivial; all_goals simp
      · intro l hl h0
        cases l with
        | nil => rw [GluesWithin]; trivial
        | cons n l =>
          rw [glueNests] at h0
          rw [GluesWithin]
          simp at hl
          exact ⟨ih.1 n (by omega) (Nat.le_zero.1 (h0 ▸ Nat.le_max_left _ _)), ih.2 l (by omega) (Nat.le_zero.1 (h0 ▸ Nat.le_max_right _ _))⟩
  exact ⟨fun n => (key _).1 n (le_refl _), fun l => (key _).2 l (le_refl _)⟩

/-- Shipping at another scale, when there is no glue at the top. -/
theorem ship_near {k l L : ℚ} (hk : 0 < k) (hl : 0 < l) (h1 : L ≤ 1000000000) (h2 : k * l * L ≤ 1000000000) {m : Nat} {cs : List (TNode XR)}
    (hG : GluesWithin L cs) (hg : cs.any isGlue = false) (hn : glueNests cs ≤ m) (hd : LHead XR) (ox oy : XR) :
    Alike (fun a b : ShipSt XR × List (TNode XR) => List.Forall₂ (NearDraw (k * l) k l (m * ((1 + k * l) / 2))) a.1.ops b.1.ops)
      (shipCall ox oy hd cs) (shipCall (ox * .fin (k * l)) (oy * .fin (k * l)) ((Zoom.by hk hl).head hd) ((Zoom.by hk hl).nodes cs)) := by
  have hκ := mul_pos hk hl
  have ho : (⟨ox * .fin (k * l), oy * .fin (k * l) + ((Zoom.by hk hl).head hd).box.height⟩ : Off XR) = zoff (.by hk hl) ⟨ox, oy + hd.box.height⟩ := by
    unfold zoff
    rw [show (Zoom.by hk hl).len (oy + hd.box.height) = (Zoom.by hk hl).len oy + (Zoom.by hk hl).len hd.box.height from ((Zoom.by hk hl).add _ _).symm]
    rfl
  unfold shipCall
  rw [ho]
  have hz : Near (k * l) 0 (zero : XR) zero := .inl (by simp)
  refine Alike.bind (zoom_hLoop hk hl hκ h1 h2 (E := m * ((1 + k * l) / 2)) _ hd cs 0 0 zero zero .zero .zero _ _ (le_refl _) (le_refl _) hG ?_ ⟨by simp [GlueSt.zero], ?_⟩ hz
    ⟨tracks_zero hz, hz, .nil⟩) ?_
  · rw [zero_add, zero_add]
    exact mul_le_mul_of_nonneg_right (by exact_mod_cast hn) (by positivity)
  · intro h; rw [hg] at h; cases h
  · intro a b hab; exact hab

/-- **C85** The drawing: the same glyphs at the other size, and the same rules, in the same order, where they should be up to
half a point, at either scale, for every fraction, binomial, radical or overline around them.  What glue takes up must be less than `10^9`
at either scale. -/
theorem C85_drawing {k l L : ℚ} (hk : 0 < k) (hl : 0 < l) (h1 : L ≤ 1000000000) (h2 : k * l * L ≤ 1000000000)
    (be be' : Backend XR) (hb : Zoomed (.by hk hl) be be' (fun _ => True))
    (U : Nat → Bool) (num : GoString → Option XR) (x : GoString) (size dpi ox oy : XR) (root : Node) (hp : parseExpr U x = .ok root)
    (hd : LHead XR) (cs : List (TNode XR)) (h : mtexParse U be num x size dpi = .ok (hd, cs)) (hG : GluesWithin L cs) :
    ∃ hd' cs', mtexParse U be' num x (size * .fin k) (dpi * .fin l) = .ok (hd', cs') ∧
      Alike (fun a b : ShipSt XR × List (TNode XR) => List.Forall₂ (NearDraw (k * l) k l (stackNest root * ((1 + k * l) / 2))) a.1.ops b.1.ops)
        (shipCall ox oy hd cs) (shipCall (ox * .fin (k * l)) (oy * .fin (k * l)) hd' cs') := by
  obtain ⟨e1, e2⟩ := zoom_parse (z := Zoom.by hk hl) (G := fun _ => True) hb trivial neg_one_lt U size dpi root hp (.inl trivial) (num := num) (x := x)
  rw [h] at e1
  refine ⟨_, _, e1, ?_⟩
  have ht := e2 _ h
  exact ship_near hk hl h1 h2 hG (noGlue_iff.2 fun n hn => (ht n hn).2.2) (glueNests_le.2 fun n hn => (ht n hn).2.1) hd ox oy

theorem nearDraw_exact {κ s r : ℚ} {a b : List (Draw XR)} (h : List.Forall₂ (NearDraw κ s r 0) a b) :
    b = a.map fun
      | .glyph x y f c d => .glyph (x * .fin κ) (y * .fin κ) { f with size := f.size * .fin s } c (d * .fin r)
      | .rect x1 y1 x2 y2 => .rect (x1 * .fin κ) (y1 * .fin κ) (x2 * .fin κ) (y2 * .fin κ) := by
  induction h with
  | nil => rfl
  | @cons a b _ _ h _ ih =>
    rw [List.map_cons, ← ih]
    congr 1
    cases a with
    | glyph x y f c d =>
      cases b with
      | glyph x' y' f' c' d' =>
        obtain ⟨e1, e2, e3, e4, e5⟩ := h
        rw [near_zero e1, near_zero e2, e3, e4, e5]
      | rect => exact h.elim
    | rect x1 y1 x2 y2 =>
      cases b with
      | glyph => exact h.elim
      | rect x1' y1' x2' y2' =>
        obtain ⟨e1, e2, e3, e4⟩ := h
        rw [near_zero e1, near_zero e2, near_zero e3, near_zero e4]

/-- **C85** Without fractions, binomials, radicals and overlines everything is drawn exactly where it should be. -/
theorem C85_exact {k l : ℚ} (hk : 0 < k) (hl : 0 < l) (be be' : Backend XR) (hb : Zoomed (.by hk hl) be be' (fun _ => True))
    (U : Nat → Bool) (num : GoString → Option XR) (x : GoString) (size dpi ox oy : XR) (root : Node) (hp : parseExpr U x = .ok root)
    (hs : stackNest root = 0) (hd : LHead XR) (cs : List (TNode XR)) (h : mtexParse U be num x size dpi = .ok (hd, cs)) :
    ∃ hd' cs', mtexParse U be' num x (size * .fin k) (dpi * .fin l) = .ok (hd', cs') ∧
      Alike (fun a b : ShipSt XR × List (TNode XR) => b.1.ops = a.1.ops.map fun
          | .glyph x y f c d => .glyph (x * .fin (k * l)) (y * .fin (k * l)) { f with size := f.size * .fin k } c (d * .fin l)
          | .rect x1 y1 x2 y2 => .rect (x1 * .fin (k * l)) (y1 * .fin (k * l)) (x2 * .fin (k * l)) (y2 * .fin (k * l)))
        (shipCall ox oy hd cs) (shipCall (ox * .fin (k * l)) (oy * .fin (k * l)) hd' cs') := by
  obtain ⟨-, e2⟩ := zoom_parse (z := Zoom.by hk hl) (G := fun _ => True) hb trivial neg_one_lt U size dpi root hp (.inl trivial) (num := num) (x := x)
  have ht := e2 _ h
  have hg : glueNests cs = 0 := Nat.le_zero.1 (glueNests_le.2 fun n hn => hs ▸ (ht n hn).2.1)
  obtain ⟨hd', cs', e3, e4⟩ := C85_drawing (L := 0) hk hl (by norm_num) (by simp) be be' hb U num x size dpi ox oy root hp hd cs h (within_glueless.2 cs hg)
  refine ⟨hd', cs', e3, ?_⟩
  rw [hs, Nat.cast_zero, zero_mul] at e4
  revert e4
  cases shipCall ox oy hd cs <;> cases shipCall (ox * .fin (k * l)) (oy * .fin (k * l)) hd' cs' <;> intro e4 <;> first | exact nearDraw_exact e4 | exact e4

/-! ## Concrete cases -/

/-- A backend whose answers are proportional to the font size and to the resolution -/
def exLinear : Backend XR where
  kern f _ _ _ d := f.size * d * .fin (-1 / 720)
  metrics c f d _ :=
    let w : ℚ := if c = bs!"i" then 1 / 3 else 1 / 2
    ⟨f.size * d * .fin (w / 72), f.size * d * .fin (1 / 72), f.size * d * .fin (w / 72), .fin 0, f.size * d * .fin (w / 72), .fin 0,
      f.size * d * .fin (1 / 72), f.size * d * .fin (1 / 72)⟩
  known _ _ _ _ := true
  xheight _ _ := some (.fin 1)
  underline f d := f.size * d * .fin (1 / 1440)

/-- It follows every change of size and resolution. -/
theorem exLinear_zoomed {k l : ℚ} (hk : 0 < k) (hl : 0 < l) : Zoomed (.by hk hl) exLinear exLinear (fun _ => True) := by
  have key : ∀ (a b : XR) (q : ℚ), a * .fin k * (b * .fin l) * .fin q = a * b * .fin q * .fin (k * l) := by
    intro a b q
    rw [mul_area' a b hk hl, mul_swap' _ _ (mul_pos hk hl)]
  have hz : (XR.fin 0 : XR) = (Zoom.by hk hl).len (.fin 0) := by show _ = XR.fin 0 * .fin (k * l); rw [fin_mul, zero_mul]
  constructor
  · intro f c f' c' d; exact key _ _ _
  · intro c f d m _
    show (⟨_, _, _, _, _, _, _, _⟩ : Metrics XR) = ⟨_, _, _, _, _, _, _, _⟩
    congr 1 <;> first | exact key _ _ _ | exact hz
  · intros; rfl
  · intros; rfl
  · intro f d; exact key _ _ _

/-- The width of the box and the drawing calls, shipped at the origin -/
def exAt (x : GoString) (size : ℚ) : Option (XR × List (Draw XR)) :=
  match mtexParse exU exLinear exNum x (.fin size) (.fin 72) with
  | .ok (hd, cs) =>
    match shipCall (.fin 0) (.fin 0) hd cs with
    | .ok (st, _) => some (hd.box.width, st.ops)
    | _ => none
  | _ => none

/-- a document without fractions, and the same at ten times the size -/
example : exAt bs!"$ia$" 2 = some (.fin (22 / 15), [.glyph (.fin 0) (.fin 2) ⟨bs!"default", bs!"it", .fin 2⟩ bs!"i" (.fin 72),
    .glyph (.fin (7 / 15)) (.fin 2) ⟨bs!"default", bs!"it", .fin 2⟩ bs!"a" (.fin 72)]) ∧
  exAt bs!"$ia$" 20 = some (.fin (44 / 3), [.glyph (.fin 0) (.fin 20) ⟨bs!"default", bs!"it", .fin 20⟩ bs!"i" (.fin 72),
    .glyph (.fin (14 / 3)) (.fin 20) ⟨bs!"default", bs!"it", .fin 20⟩ bs!"a" (.fin 72)]) := by decide +kernel
example : ∃ root, parseExpr exU bs!"$ia$" = .ok root ∧ stackNest root = 0 := ⟨.list [.math [36] 0 [.word 1 bs!"ia"] 3], by krfl, by decide⟩
mutual
/-- `GlueWithin`, computed -/
def glueOk (L : ℚ) : TNode XR → Bool
  | .list _ hd cs => gluesOk L cs && (!cs.any isGlue || match hd.set, glueSum cs with | .fin s, .fin t => decide (|s| * t ≤ L) | _, _ => false)
  | _ => true
/-- `GluesWithin`, computed -/
def gluesOk (L : ℚ) : List (TNode XR) → Bool
  | [] => true
  | n :: l => glueOk L n && gluesOk L l
end

mutual
theorem glueOk_sound (L : ℚ) : ∀ n : TNode XR, glueOk L n = true → GlueWithin L n
  | .list kd hd cs, h => by
    rw [glueOk, Bool.and_eq_true, Bool.or_eq_true] at h
    rw [GlueWithin]
    refine ⟨gluesOk_sound L cs h.1, fun hc => ?_⟩
    rcases h.2 with h | h
    · rw [hc] at h; cases h
    · split at h
      · next s t e1 e2 => exact ⟨s, t, e1, e2, by simpa using h⟩
      · cases h
  | .box _, _ => by rw [GlueWithin]; trivial; all_goals simp
  | .char _, _ => by rw [GlueWithin]; trivial; all_goals simp
  | .accent _, _ => by rw [GlueWithin]; trivial; all_goals simp
  | .rule _, _ => by rw [GlueWithin]; trivial; all_goals simp
  | .glue _, _ => by rw [GlueWithin]; trivial; all_goals simp
  | .kern _, _ => by rw [GlueWithin]; trivial; all_goals simp
theorem gluesOk_sound (L : ℚ) : ∀ l : List (TNode XR), gluesOk L l = true → GluesWithin L l
  | [], _ => by rw [GluesWithin]; trivial
  | n :: l, h => by
    rw [gluesOk, Bool.and_eq_true] at h
    rw [GluesWithin]
    exact ⟨glueOk_sound L n h.1, gluesOk_sound L l h.2⟩
end

/-- a fraction, whose glue takes up less than 10 -/
example : ∃ hd cs, mtexParse exU exLinear exNum bs!"$\\frac{i}{ab}$" (.fin 2) (.fin 72) = .ok (hd, cs) ∧ GluesWithin 10 cs := by
  have h : (match mtexParse exU exLinear exNum bs!"$\\frac{i}{ab}$" (.fin 2) (.fin 72) with | .ok (_, cs) => gluesOk 10 cs | _ => false) = true := by decide +kernel
  split at h
  · next hd cs e => exact ⟨hd, cs, e, gluesOk_sound _ _ h⟩
  · cases h

/-- **C85** With fractions the drawing is not exactly the same at another size: at size 2 the numerator begins where the denominator
does; at size 20 it begins 4 points further to the right, between two denominators that differ by nothing but the size. -/
theorem C85_rounding :
    (exAt bs!"$\\frac{i}{ab}$" 2).map (fun q => q.2.map fun | .rect a _ _ _ => a | .glyph a _ _ _ _ => a) = some [.fin 0, .fin 0, .fin 0, .fin (14 / 25)] ∧
    (exAt bs!"$\\frac{i}{ab}$" 20).map (fun q => q.2.map fun | .rect a _ _ _ => a | .glyph a _ _ _ _ => a) = some [.fin 4, .fin 0, .fin 0, .fin (28 / 5)] := by
  decide +kernel

end Verif.Props
