import Verif.Props.Zoom
import Verif.Props.ContainRender
import Verif.Props.Kern
/-! # C85 for mtex.Render -/

namespace Verif.Props
open Verif Verif.Spec GoFloat XR

variable {H : Type}

/-- What getInfo answers in math mode when nothing has been loaded in text mode. -/
theorem getInfo_formula {e : TtfEnv H} {B : XR} {s : TtfSt XR H} (hS : e.Sound ⟨B, False⟩ s) (c : GoString) (f : Font XR) (d : XR) :
    (e.getInfo c f d true s).1 = Res.as (e.load c f d true) (answer ⟨c, f, d⟩) := by
  rcases getInfo_cases e c f d true s with ⟨v', h1, h2⟩ | ⟨h0, v', hl, h2⟩ | ⟨-, p, hl, h2⟩ | ⟨-, hl, h2⟩ <;> rw [h2]
  · obtain ⟨k, hk, hks⟩ := TtfSt.find_some h1
    have := same_ident hks
    subst this
    rcases hS.base _ _ hk with hv | ⟨hf, -⟩
    · rw [hv, as_ok, answer, if_pos hks]
    · exact hf.elim
  · rw [hl, as_ok]
  · rw [hl, as_panic]
  · rw [hl, as_fuel]

section
variable {k : ℚ} (hk : 0 < k)

local notation "Z" => Zoom.by hk one_pos

/-- What is loaded, at another size -/
def valTimes (v : TtfVal XR H) : TtfVal XR H := { v with size := (Z).siz v.size, metrics := (Z).metrics v.metrics, offset := (Z).len v.offset }

theorem len_siz (a : XR) : (Z).len a = (Z).siz a := by show a * .fin (k * 1) = a * .fin k; rw [mul_one]
theorem res_id (a : XR) : (Z).res a = a := mul_one' a

theorem metrics_times (ps : GoString) (adv : Int) (b : Int × Int × Int × Int) (size d : XR) :
    ttfMetrics ps adv b ((Z).siz size) d = ((Z).metrics (ttfMetrics ps adv b size d).1, (Z).len (ttfMetrics ps adv b size d).2) := by
  have hoff : (if ps = bs!"Cmex10" then ((Z).len (size / ofInt 12 * ofInt (-b.2.1) / ofInt 64 - size / ofInt 12 * ofInt (-b.2.2.2) / ofInt 64)) / ofInt 2 +
        (Z).len size / ofInt 3 * d / ofInt 72 else zero) =
      (Z).len (if ps = bs!"Cmex10" then (size / ofInt 12 * ofInt (-b.2.1) / ofInt 64 - size / ofInt 12 * ofInt (-b.2.2.2) / ofInt 64) / ofInt 2 +
        size / ofInt 3 * d / ofInt 72 else zero) := by
    split
    · rw [(Z).div, (Z).div, (Z).mulr, (Z).div, (Z).add]
    · exact (Z).zero.symm
  unfold ttfMetrics
  dsimp only
  rw [← len_siz]
  simp only [Zoom.metrics, (Z).div, (Z).mulr, (Z).mull, (Z).sub]
  simp only [(Z).div, (Z).mulr, (Z).mull, (Z).sub] at hoff
  rw [hoff]
  simp only [(Z).add]

theorem load_times (e : TtfEnv H) (c : GoString) (f : Font XR) (d : XR) (m : Bool) :
    e.load c ((Z).font f) d m = Res.as (e.load c f d m) (valTimes hk) := by
  unfold TtfEnv.load
  refine bind_as (f := id) ?_ ?_
  · show e.getGlyph c f m = _
    cases e.getGlyph c f m <;> rfl
  · rintro ⟨ft, rn⟩ -
    dsimp only [id]
    cases e.lib.name ft with
    | none => rfl
    | some ps =>
    dsimp only
    cases e.lib.glyphIndex ft rn with
    | none => rfl
    | some idx =>
    dsimp only
    cases e.lib.glyphName ft idx with
    | none => rfl
    | some sn =>
    dsimp only
    split
    · rfl
    cases e.lib.glyphAdvance ft idx (e.lib.unitsPerEm ft * 6 * 64) with
    | none => rfl
    | some adv =>
    dsimp only
    split
    · rfl
    cases e.lib.glyphBounds ft idx (12 * 64) with
    | none => rfl
    | some b =>
    dsimp only
    rw [as_ok]
    show Res.ok (⟨_, _, _, _, _, _, _, _, _⟩ : TtfVal XR H) = _
    rw [show ((Z).font f).size = (Z).siz f.size from rfl, metrics_times]
    rfl

theorem answer_times (c : GoString) (f : Font XR) (d : XR) (v : TtfVal XR H) :
    answer ⟨c, (Z).font f, d⟩ (valTimes hk v) = valTimes hk (answer ⟨c, f, d⟩ v) := by
  unfold answer
  have : TtfKey.same (⟨c, (Z).font f, d⟩ : TtfKey XR) ⟨c, (Z).font f, d⟩ = TtfKey.same ⟨c, f, d⟩ ⟨c, f, d⟩ := by
    unfold TtfKey.same
    simp only [Zoom.font, Zoom.by, eq_mul' _ _ hk]
  rw [this]
  split
  · rfl
  · unfold valTimes TtfVal.zero Zoom.metrics
    simp only [(Z).zero]
    rw [← len_siz, (Z).zero]

theorem getInfo_times {e : TtfEnv H} {B B' : XR} {s s' : TtfSt XR H} (hS : e.Sound ⟨B, False⟩ s) (hS' : e.Sound ⟨B', False⟩ s') (c : GoString) (f : Font XR) (d : XR) :
    (e.getInfo c ((Z).font f) d true s').1 = Res.as (e.getInfo c f d true s).1 (valTimes hk) := by
  rw [getInfo_formula hS, getInfo_formula hS', load_times]
  cases e.load c f d true with
  | ok v => rw [as_ok, as_ok, as_ok, as_ok, answer_times]
  | panic p => rfl
  | fuel => rfl

/-- A TrueType backend without kerning follows the size in math mode. -/
theorem ttf_zoomed {e : TtfEnv H} (hu : Unkerned e) {B B' : XR} {s s' : TtfSt XR H} (hS : e.Sound ⟨B, False⟩ s) (hS' : e.Sound ⟨B', False⟩ s') :
    Zoomed Z (e.backend (false, s)) (e.backend (false, s')) (· = true) := by
  have hkern : ∀ (s : TtfSt XR H) f1 c1 f2 c2 d, (e.backend (false, s)).kern f1 c1 f2 c2 d = zero := by
    intro s f1 c1 f2 c2 d
    have key : ∀ q s2, e.kern f1 c1 f2 c2 d s = (.ok q, s2) → q = zero := by
      intro q s2 h
      unfold TtfEnv.kern at h
      split at h
      · split at h
        · split at h
          · split at h
            · cases h
            · split at h
              · next hq =>
                have hz : ∀ {h a b n c}, e.lib.kern h a b n = .ok c → c = 0 := by
                  intro h a b n c hc
                  rcases hu h a b n with h'' | h'' <;> rw [h''] at hc <;> cases hc
                  rfl
                rw [hz hq] at h
                cases h
                simp [fin_div]
              · cases h; rfl
              · cases h
          · cases h
          · cases h
        · cases h
        · cases h
      · cases h; rfl
    unfold TtfEnv.backend
    dsimp only
    split
    · next q s2 h => exact key q s2 h
    · rfl
  have hmet : ∀ (s : TtfSt XR H) c f d, (e.backend (false, s)).metrics c f d true =
      (match (e.getInfo c f d true s).1 with | .ok v => v.metrics | _ => TtfVal.metrics (H := H) .zero) := by
    intro s c f d
    unfold TtfEnv.backend
    dsimp only
    unfold TtfEnv.metrics
    cases e.getInfo c f d true s with
    | mk r s1 => cases r <;> rfl
  have hkn : ∀ (s : TtfSt XR H) c f d, (e.backend (false, s)).known c f d true =
      (match (e.getInfo c f d true s).1 with | .ok _ => true | _ => false) := by
    intro s c f d
    unfold TtfEnv.backend
    dsimp only
    unfold TtfEnv.metrics
    cases e.getInfo c f d true s with
    | mk r s1 => cases r <;> simp
  constructor
  · intro f c f' c' d
    rw [hkern, hkern, (Z).zero]
  · rintro c f d m rfl
    rw [hmet, hmet, res_id, getInfo_times hk hS hS']
    cases (e.getInfo c f d true s).1 with
    | ok v => rfl
    | _ => exact (zoom_zeroMetrics (Z)).symm
  · rintro c f d m rfl
    rw [hkn, hkn, res_id, getInfo_times hk hS hS']
    cases (e.getInfo c f d true s).1 <;> rfl
  · intro f d; rfl
  · intro f d
    rw [res_id]
    show ofRat 1 16 * ((Z).siz f.size) * d / ofInt 72 = (Z).len (ofRat 1 16 * f.size * d / ofInt 72)
    rw [← len_siz, (Z).mull, (Z).mulr, (Z).div]

/-- mtex.Parse with a TrueType backend, at two sizes. -/
theorem parseT_times (U : Nat → Bool) (e : TtfEnv H) (hu : Unkerned e) (num : GoString → Option XR) (x : GoString) (size : XR)
    (root : Node) (hp : parseExpr U x = .ok root) (hm : OnlyMath root) :
    Alike (fun a b : (LHead XR × List (TNode XR)) × TtfSt XR H => b.1 = ((Z).head a.1.1, (Z).nodes a.1.2) ∧ (∀ n ∈ a.1.2, Tame (stackNest root) n) ∧
        e.Sound ⟨size, False⟩ a.2 ∧ e.Sound ⟨(Z).siz size, False⟩ b.2 ∧ a.2.canvas = .new ∧ b.2.canvas = .new)
      (mtexParseT U e num x size (ofInt 72) .new) (mtexParseT U e num x ((Z).siz size) (ofInt 72) .new) := by
  have hkf : e.KernFine := by
    intro h a b n hh
    rcases hu h a b n with h' | h' <;> rw [h'] at hh <;> cases hh
  have h72 : eq (ofInt 72 : XR) (ofInt 72) = true := IsNum.self (IsNum.int _)
  have s1 := sim_parse_math U e num x size (ofInt 72) ⟨hkf, h72⟩ root hp hm .new (sound_new e)
  have s2 := sim_parse_math U e num x ((Z).siz size) (ofInt 72) ⟨hkf, h72⟩ root hp hm .new (sound_new e)
  have hz : ∀ s s' : TtfSt XR H, e.Sound ⟨size, False⟩ s → e.Sound ⟨(Z).siz size, False⟩ s' →
      mtexParse U (e.backend (false, s')) num x ((Z).siz size) (ofInt 72) =
        Res.as (mtexParse U (e.backend (false, s)) num x size (ofInt 72)) (fun q => ((Z).head q.1, (Z).nodes q.2)) ∧
      ∀ r, mtexParse U (e.backend (false, s)) num x size (ofInt 72) = .ok r → ∀ n ∈ r.2, Tame (stackNest root) n := by
    intro s s' hS hS'
    have := zoom_parse (z := Z) (G := (· = true)) (ttf_zoomed hk hu hS hS') rfl neg_one_lt U size (ofInt 72) root hp (.inr hm) (num := num) (x := x)
    rw [res_id] at this
    exact this
  unfold Simul at s1 s2
  cases r1 : mtexParseT U e num x size (ofInt 72) .new with
  | ok q1 =>
    obtain ⟨a, t⟩ := q1
    rw [r1] at s1
    obtain ⟨x1, S1, c1, -, b1⟩ := s1
    have p1 := b1 false t (.refl t) S1
    cases r2 : mtexParseT U e num x ((Z).siz size) (ofInt 72) .new with
    | ok q2 =>
      obtain ⟨a', t'⟩ := q2
      rw [r2] at s2
      obtain ⟨x2, S2, c2, -, b2⟩ := s2
      have p2 := b2 false t' (.refl t') S2
      obtain ⟨e1, e2⟩ := hz t t' S1 S2
      dsimp only at p1 p2
      rw [p1, p2] at e1
      cases e1
      exact ⟨rfl, e2 _ p1, S1, S2, c1, c2⟩
    | panic p =>
      rw [r2] at s2
      obtain ⟨t', x2, S2, p2⟩ := s2
      have e1 := (hz t t' S1 S2).1
      dsimp only at p1 p2
      rw [p1, p2] at e1
      cases e1
    | fuel =>
      rw [r2] at s2
      obtain ⟨t', x2, S2, p2⟩ := s2
      have e1 := (hz t t' S1 S2).1
      dsimp only at p1 p2
      rw [p1, p2] at e1
      cases e1
  | panic p =>
    rw [r1] at s1
    obtain ⟨t, x1, S1, p1⟩ := s1
    cases r2 : mtexParseT U e num x ((Z).siz size) (ofInt 72) .new with
    | ok q2 =>
      obtain ⟨a', t'⟩ := q2
      rw [r2] at s2
      obtain ⟨x2, S2, c2, -, b2⟩ := s2
      have p2 := b2 false t' (.refl t') S2
      have e1 := (hz t t' S1 S2).1
      dsimp only at p1 p2
      rw [p1, p2] at e1
      cases e1
    | panic p =>
      rw [r2] at s2
      obtain ⟨t', x2, S2, p2⟩ := s2
      have e1 := (hz t t' S1 S2).1
      dsimp only at p1 p2
      rw [p1, p2] at e1
      cases e1
      rfl
    | fuel =>
      rw [r2] at s2
      obtain ⟨t', x2, S2, p2⟩ := s2
      have e1 := (hz t t' S1 S2).1
      dsimp only at p1 p2
      rw [p1, p2] at e1
      cases e1
  | fuel =>
    rw [r1] at s1
    obtain ⟨t, x1, S1, p1⟩ := s1
    cases r2 : mtexParseT U e num x ((Z).siz size) (ofInt 72) .new with
    | ok q2 =>
      obtain ⟨a', t'⟩ := q2
      rw [r2] at s2
      obtain ⟨x2, S2, c2, -, b2⟩ := s2
      have p2 := b2 false t' (.refl t') S2
      have e1 := (hz t t' S1 S2).1
      dsimp only at p1 p2
      rw [p1, p2] at e1
      cases e1
    | panic p =>
      rw [r2] at s2
      obtain ⟨t', x2, S2, p2⟩ := s2
      have e1 := (hz t t' S1 S2).1
      dsimp only at p1 p2
      rw [p1, p2] at e1
      cases e1
    | fuel => trivial

theorem getInfo_canvas (e : TtfEnv H) (c : GoString) (f : Font XR) (d : XR) (m : Bool) (s : TtfSt XR H) : (e.getInfo c f d m s).2.canvas = s.canvas := by
  rcases getInfo_cases e c f d m s with ⟨v', h1, h2⟩ | ⟨h0, v', hl, h2⟩ | ⟨-, p, hl, h2⟩ | ⟨-, hl, h2⟩ <;> rw [h2]

include hk in
/-- The drawing calls, at two sizes. -/
theorem runDraws_times {e : TtfEnv H} {b b' : XR} {ε : ℚ} {l l' : List (Draw XR)} (h : List.Forall₂ (NearDraw (k * 1) k 1 ε) l l') :
    ∀ (s s' : TtfSt XR H), e.Sound ⟨b, False⟩ s → e.Sound ⟨b', False⟩ s' → List.Forall₂ (NearOp k ε) s.canvas.ops s'.canvas.ops →
    Alike (fun a b : Unit × TtfSt XR H => List.Forall₂ (NearOp k ε) a.2.canvas.ops b.2.canvas.ops) (runDraws e l s) (runDraws e l' s') := by
  induction h with
  | nil => intro s s' _ _ hc; exact hc
  | @cons d d' l l' hd _ ih =>
    intro s s' hS hS' hc
    unfold runDraws TM.bind
    refine Alike.bind (P := fun q q' : Unit × TtfSt XR H => e.Sound ⟨b, False⟩ q.2 ∧ e.Sound ⟨b', False⟩ q'.2 ∧ List.Forall₂ (NearOp k ε) q.2.canvas.ops q'.2.canvas.ops) ?_ ?_
    · cases d with
      | rect x1 y1 x2 y2 =>
        cases d' with
        | glyph => exact hd.elim
        | rect x1' y1' x2' y2' =>
          obtain ⟨e1, e2, e3, e4⟩ := hd
          rw [mul_one] at e1 e2 e3 e4
          exact ⟨⟨hS.loaded, hS.italic, hS.base⟩, ⟨hS'.loaded, hS'.italic, hS'.base⟩, List.rel_append hc (.cons ⟨e1, e2, e3, e4⟩ .nil)⟩
      | glyph x y f c d =>
        cases d' with
        | rect => exact hd.elim
        | glyph x' y' f' c' d' =>
          obtain ⟨e1, e2, rfl, rfl, rfl⟩ := hd
          rw [mul_one] at e1 e2
          rw [mul_one']
          have g : (e.getInfo c' { f with size := f.size * .fin k } d true s').1 = _ := getInfo_times hk hS hS' c' f d
          have t := getInfo_sound e c' f d true s (modeOk_math ⟨b, False⟩ _ f) hS
          have t' := getInfo_sound e c' { f with size := f.size * .fin k } d true s' (modeOk_math ⟨b', False⟩ _ _) hS'
          have u := getInfo_canvas e c' f d true s
          have u' := getInfo_canvas e c' { f with size := f.size * .fin k } d true s'
          unfold Draw.run TtfEnv.renderGlyph
          dsimp only
          revert g t t' u u'
          generalize e.getInfo c' f d true s = q
          generalize e.getInfo c' { f with size := f.size * .fin k } d true s' = q'
          obtain ⟨r, w⟩ := q
          obtain ⟨r', w'⟩ := q'
          intro g t t' u u'
          dsimp only at g t t' u u' ⊢
          obtain rfl : r' = Res.as r (valTimes hk) := g
          cases r with
          | ok v =>
            refine ⟨⟨t.loaded, t.italic, t.base⟩, ⟨t'.loaded, t'.italic, t'.base⟩, ?_⟩
            show List.Forall₂ _ (w.canvas ++ [_]) (w'.canvas ++ [_])
            rw [u, u']
            refine List.rel_append hc (.cons ⟨e1, e2, ?_⟩ .nil)
            simp only [valTimes, TtfVal.glyphD, glyphTimes, Zoom.metrics, Zoom.by, mul_one]
          | panic p => exact (rfl : p = p)
          | fuel => trivial
    · rintro ⟨_, w⟩ ⟨_, w'⟩ ⟨h1, h2, h3⟩
      exact ih w w' h1 h2 h3

end

/-- **C85** mtex.Render of a document of formulas, with fonts without kerning, at `k` times the size: the page is `k` times as wide; its height
is rounded up to whole points at either size; every glyph is the same, at `k` times the size; everything is where it should be up to half a point, at either
size, for every fraction, binomial, radical or overline around it.  If there are such, what glue takes up must be less
than `10^9` at either size. -/
theorem C85_render {k L : ℚ} (hk : 0 < k) (h1 : L ≤ 1000000000) (h2 : k * L ≤ 1000000000) (U : Nat → Bool) (e : TtfEnv H) (hu : Unkerned e)
    (num : GoString → Option XR) (x : GoString) (size dpi : XR) (root : Node) (hp : parseExpr U x = .ok root) (hm : OnlyMath root)
    (hG : stackNest root = 0 ∨ ∀ hd cs s, mtexParseT U e num x size (ofInt 72) .new = .ok ((hd, cs), s) → GluesWithin L cs) :
    Alike (fun c c' : RenderCall XR H => c'.w = c.w * .fin k ∧ (∃ t : XR, c.h = ceil t / .fin 72 ∧ c'.h = ceil (t * .fin k) / .fin 72) ∧ c'.dpi = c.dpi ∧
        List.Forall₂ (NearOp k (stackNest root * ((1 + k) / 2))) c.ops c'.ops)
      (renderT U e num x size dpi) (renderT U e num x (size * .fin k) dpi) := by
  have e72 : (ofInt 72 : XR) = .fin 72 := by rw [ofInt_fin]; norm_num
  have key := parseT_times hk U e hu num x size root hp hm
  unfold renderT
  change Alike _ _ (mtexParseT U e num x ((Zoom.by hk one_pos).siz size) (ofInt 72) .new >>= _)
  cases r1 : mtexParseT U e num x size (ofInt 72) .new with
  | panic p =>
    rw [r1] at key
    cases r2 : mtexParseT U e num x ((Zoom.by hk one_pos).siz size) (ofInt 72) .new <;> rw [r2] at key <;> first | exact key.elim | exact key
  | fuel =>
    rw [r1] at key
    cases r2 : mtexParseT U e num x ((Zoom.by hk one_pos).siz size) (ofInt 72) .new <;> rw [r2] at key <;> first | exact key.elim | exact key
  | ok q1 =>
    obtain ⟨⟨hd, cs⟩, s⟩ := q1
    rw [r1] at key
    cases r2 : mtexParseT U e num x ((Zoom.by hk one_pos).siz size) (ofInt 72) .new with
    | panic p => rw [r2] at key; exact key.elim
    | fuel => rw [r2] at key; exact key.elim
    | ok q2 =>
      obtain ⟨⟨hd', cs'⟩, s'⟩ := q2
      rw [r2] at key
      obtain ⟨k1, k2, k3, k4, k5, k6⟩ := key
      dsimp only at k1 k2 k3 k4 k5 k6
      cases k1
      rw [Res.ok_bind, Res.ok_bind]
      dsimp only
      have hn := glueNests_le.2 fun n hn => (k2 n hn).2.1
      have hG' : GluesWithin L cs := by
        rcases hG with h0 | hG
        · exact within_glueless.2 cs (Nat.le_zero.1 (h0 ▸ hn))
        · exact hG hd cs s r1
      have hs := ship_near hk one_pos h1 (by rw [mul_one]; exact h2) hG' (noGlue_iff.2 fun n hn => (k2 n hn).2.2)
        hn hd zero zero
      rw [show (zero : XR) * .fin (k * 1) = zero by simp] at hs
      refine Alike.bind hs ?_
      rintro ⟨st, c1⟩ ⟨st', c1'⟩ ho
      dsimp only at ho ⊢
      refine Alike.bind (runDraws_times hk ho s s' k3 k4 (by rw [k5, k6]; exact .nil)) ?_
      rintro ⟨_, w⟩ ⟨_, w'⟩ hw
      refine ⟨?_, ⟨hd.box.height + GoFloat.max hd.box.depth zero, by rw [e72], ?_⟩, rfl, by rw [mul_one] at hw; exact hw⟩
      · show hd.box.width * .fin (k * 1) / ofInt 72 = hd.box.width / ofInt 72 * .fin k
        rw [mul_one, div_left' _ _ hk]
      · show ceil (hd.box.height * .fin (k * 1) + GoFloat.max (hd.box.depth * .fin (k * 1)) zero) / ofInt 72 = _
        rw [mul_one, e72, add_mul_pos _ _ hk, max_mul_pos _ _ hk, show (zero : XR) * .fin k = zero by simp]

/-! ## Concrete cases -/

example : Unkerned exEnv := fun _ _ _ _ => .inl rfl
/-- a formula at size 6, and at ten times the size -/
example : (match renderT exU exEnv exNum bs!"$AV$" (.fin 6) (.fin 72) with | .ok c => some (c.w, c.h) | _ => none) = some (.fin (151 / 9437184), .fin (1 / 72)) ∧
    (match renderT exU exEnv exNum bs!"$AV$" (.fin 60) (.fin 72) with | .ok c => some (c.w, c.h) | _ => none) = some (.fin (1510 / 9437184), .fin (7 / 72)) := by
  decide +kernel
example : ∃ root, parseExpr exU bs!"$AV$" = .ok root ∧ OnlyMath root ∧ stackNest root = 0 := by
  refine ⟨.list [.math [36] 0 [.word 1 bs!"AV"] 3], by krfl, ?_, by decide⟩
  intro n hn
  rw [List.mem_singleton] at hn
  exact ⟨_, _, _, _, hn⟩

/-- **C85** With kerning it is not so: what the TrueType backend answers to Kern is the same at every size.  Here two letters are brought
together by two points at size 6 and at size 60: the page is not ten times as wide. -/
theorem C85_kerning : (match renderT exU kernEnv exNum bs!"$AV$" (.fin 6) (.fin 72) with | .ok c => some c.w | _ => none) = some (.fin (-87331 / 3145728)) ∧
    (match renderT exU kernEnv exNum bs!"$AV$" (.fin 60) (.fin 72) with | .ok c => some c.w | _ => none) = some (.fin (-43439 / 1572864)) := by
  decide +kernel

end Verif.Props
