import Verif.Props.Metrics
import Verif.Spec.Kerning
/-! # C74, continued: what the TrueType backend answers to Kern -/

namespace Verif.Props
open Verif Verif.Spec GoFloat XR
variable {H : Type}

/-- The second question is answered as the first. -/
theorem fresh_kern (e : TtfEnv H) (c c' n t t' : GoString) (s d : ℚ) :
    freshKern (F := XR) e ⟨n, t, .fin s⟩ c ⟨n, t', .fin s⟩ c' (.fin d) =
      (e.load (F := XR) c ⟨n, t, .fin s⟩ (.fin d) true >>= fun v => e.load (F := XR) c' ⟨n, t', .fin s⟩ (.fin d) true >>= fun v' =>
        match v.font with
        | none => .panic (.other "nil pointer dereference")
        | some h => match e.lib.kern h v.glyph v'.glyph (e.lib.unitsPerEm h) with
          | .ok k => .ok (.fin (k / 64))
          | .notFound => .ok (.fin 0)
          | .err => .panic (.other "could not compute kerning")) := by
  unfold freshKern TtfEnv.kern
  have hc : n = n ∧ eq (.fin s : XR) (.fin s) = true := ⟨rfl, IsNum.self ⟨s, rfl⟩⟩
  have two : ∀ k : Int, (ofInt k / ofInt 64 : XR) = .fin (k / 64) := by
    intro k; rw [ofInt_fin, ofInt_fin, fin_div _ _ (by norm_num)]; norm_num
  rw [if_pos hc]
  rcases getInfo_cases e c ⟨n, t, .fin s⟩ (.fin d) true (.new : TtfSt XR H) with ⟨v, h1, -⟩ | ⟨-, v, hl, h2⟩ | ⟨-, p, hl, h2⟩ | ⟨-, hl, h2⟩
  · cases h1
  · have hk : TtfKey.same (⟨c, ⟨n, t, .fin s⟩, .fin d⟩ : TtfKey XR) ⟨c, ⟨n, t, .fin s⟩, .fin d⟩ = true := key_num ⟨s, rfl⟩ ⟨d, rfl⟩
    rw [h2, hl, Res.ok_bind]
    simp only [answer, hk, if_true]
    have h2' : ∀ s1 : TtfSt XR H, s1 = { (.new : TtfSt XR H) with glyphs := [(⟨c, ⟨n, t, .fin s⟩, .fin d⟩, v)] } →
        ∃ s2, e.getInfo c' ⟨n, t', .fin s⟩ (.fin d) true s1 = (e.load c' ⟨n, t', .fin s⟩ (.fin d) true, s2) := by
      intro s1 hs1
      suffices (e.getInfo c' ⟨n, t', .fin s⟩ (.fin d) true s1).1 = e.load c' ⟨n, t', .fin s⟩ (.fin d) true from ⟨_, Prod.ext this rfl⟩
      rcases getInfo_cases e c' ⟨n, t', .fin s⟩ (.fin d) true s1
        with ⟨v', h1, h2⟩ | ⟨-, v', hl', h2⟩ | ⟨-, p, hl', h2⟩ | ⟨-, hl', h2⟩
      · rw [h2]
        rw [hs1] at h1
        obtain ⟨k, hk, hks⟩ := TtfSt.find_some h1
        rw [List.mem_singleton] at hk
        cases hk
        have := same_ident hks
        cases this
        rw [hl]
      · rw [h2, hl']; simp only [answer, key_num (show IsNum (⟨n, t', .fin s⟩ : Font XR).size from ⟨s, rfl⟩) (show IsNum (.fin d : XR) from ⟨d, rfl⟩), if_true]
      · rw [h2, hl']
      · rw [h2, hl']
    obtain ⟨s2, h2'⟩ := h2' _ rfl
    have hnew : ({ (.new : TtfSt XR H) with glyphs := ((⟨c, ⟨n, t, .fin s⟩, .fin d⟩ : TtfKey XR), v) :: (.new : TtfSt XR H).glyphs }) =
        { (.new : TtfSt XR H) with glyphs := [((⟨c, ⟨n, t, .fin s⟩, .fin d⟩ : TtfKey XR), v)] } := rfl
    rw [hnew, h2']
    generalize e.load c' (⟨n, t', .fin s⟩ : Font XR) (.fin d) true = w
    cases w with
    | ok v' =>
      simp only [Res.ok_bind]
      cases v.font with
      | none => rfl
      | some h =>
        simp only
        cases e.lib.kern h v.glyph v'.glyph (e.lib.unitsPerEm h) with
        | ok k => simp only [two]
        | notFound => simp only [zero_fin]
        | err => rfl
    | panic p => rfl
    | fuel => rfl
  · rw [h2, hl]; rfl
  · rw [h2, hl]; rfl

/-- **C74** What a fresh TrueType backend answers to Kern.  Between fonts of different names or sizes: 0.  Otherwise, if both
symbols have a glyph, the kerning between these glyphs in the face of the *first*, at one unit of the font per 64th, in
64ths; 0 if there is none. -/
theorem C74_answer (e : TtfEnv H) (c c' n n' t t' : GoString) (s s' d : ℚ) (r : XR) :
    freshKern (F := XR) e ⟨n, t, .fin s⟩ c ⟨n', t', .fin s'⟩ c' (.fin d) = .ok r ↔
    ((n ≠ n' ∨ s ≠ s') ∧ r = .fin 0) ∨
    (n = n' ∧ s = s' ∧ ∃ ft idx ft' idx', GlyphOf e c t ft idx ∧ GlyphOf e c' t' ft' idx' ∧
      ((e.lib.kern ft idx idx' (e.lib.unitsPerEm ft) = .notFound ∧ r = .fin 0) ∨
        ∃ k : Int, e.lib.kern ft idx idx' (e.lib.unitsPerEm ft) = .ok k ∧ r = .fin (k / 64))) := by
  by_cases hc : n = n' ∧ s = s'
  · obtain ⟨rfl, rfl⟩ := hc
    simp only [ne_eq, not_true_eq_false, or_self, false_and, true_and, false_or]
    rw [fresh_kern]
    constructor
    · intro h
      obtain ⟨v, hv, h⟩ := Res.bind_eq_ok.1 h
      obtain ⟨v', hv', h⟩ := Res.bind_eq_ok.1 h
      obtain ⟨rn, ft, ps, idx, adv, l, tp, ri, b, hg, -, e1, -, -, -, e2, -⟩ := (load_iff e c n t s d true v).1 hv
      obtain ⟨rn', ft', ps', idx', adv', l', tp', ri', b', hg', -, e1', -, -, -, e2', -⟩ := (load_iff e c' n t' s d true v').1 hv'
      rw [e1] at h
      simp only [e2, e2'] at h
      refine ⟨ft, idx, ft', idx', ⟨_, _, _, _, _, _, _, hg⟩, ⟨_, _, _, _, _, _, _, hg'⟩, ?_⟩
      cases hk : e.lib.kern ft idx idx' (e.lib.unitsPerEm ft) with
      | ok k => rw [hk] at h; cases h; exact .inr ⟨k, rfl, rfl⟩
      | notFound => rw [hk] at h; cases h; exact .inl ⟨rfl, rfl⟩
      | err => rw [hk] at h; cases h
    · rintro ⟨ft, idx, ft', idx', ⟨rn, ps, adv, l, tp, ri, b, hg⟩, ⟨rn', ps', adv', l', tp', ri', b', hg'⟩, h⟩
      obtain ⟨sn, hsn⟩ := hg.named
      obtain ⟨sn', hsn'⟩ := hg'.named
      rw [(load_iff e c n t s d true ⟨some ft, .fin s, ps, (ttfMetrics ps adv (l, tp, ri, b) (.fin s) (.fin d)).1, sn, rn, idx,
        (ttfMetrics ps adv (l, tp, ri, b) (.fin s) (.fin d)).2, e.slanted c (⟨n, t, .fin s⟩ : Font XR) rn⟩).2
          ⟨rn, ft, ps, idx, adv, l, tp, ri, b, hg, hsn, rfl, rfl, rfl, rfl, rfl, rfl, rfl⟩, Res.ok_bind,
        (load_iff e c' n t' s d true ⟨some ft', .fin s, ps', (ttfMetrics ps' adv' (l', tp', ri', b') (.fin s) (.fin d)).1, sn', rn', idx',
        (ttfMetrics ps' adv' (l', tp', ri', b') (.fin s) (.fin d)).2, e.slanted c' (⟨n, t', .fin s⟩ : Font XR) rn'⟩).2
          ⟨rn', ft', ps', idx', adv', l', tp', ri', b', hg', hsn', rfl, rfl, rfl, rfl, rfl, rfl, rfl⟩, Res.ok_bind]
      dsimp only
      rcases h with ⟨hk, rfl⟩ | ⟨k, hk, rfl⟩ <;> rw [hk]
  · have : freshKern (F := XR) e ⟨n, t, .fin s⟩ c ⟨n', t', .fin s'⟩ c' (.fin d) = .ok (.fin 0) := by
      unfold freshKern TtfEnv.kern
      rw [if_neg]
      · simp only [zero_fin]
      · rintro ⟨h1, h2⟩
        refine hc ⟨h1, ?_⟩
        simpa using h2
    rw [this]
    have hne : n ≠ n' ∨ s ≠ s' := by
      by_cases h : n = n'
      · exact .inr fun h' => hc ⟨h, h'⟩
      · exact .inl h
    constructor
    · intro h; cases h; exact .inl ⟨hne, rfl⟩
    · rintro (⟨-, rfl⟩ | ⟨h1, h2, -⟩)
      · rfl
      · exact absurd ⟨h1, h2⟩ hc

/-- **C74** Since it does not depend on the size (C74_size), it is the kerning of the font at one size only.  Let the kerning be `u` units, and let the library scale it
without error where no rounding is needed; then the answer is right only at the size of 64 units (32 points if there are
2048 units per em), if it is not 0. -/
theorem C74_units (e : TtfEnv H) (c c' n t t' : GoString) (s d : ℚ) (u : H → Nat → Nat → Int) (hu : ∀ ft, 0 < e.lib.unitsPerEm ft)
    (hs : ∀ ft i j, e.lib.kern ft i j (e.lib.unitsPerEm ft) = .ok (u ft i j)) (r : XR)
    (h : freshKern (F := XR) e ⟨n, t, .fin s⟩ c ⟨n, t', .fin s⟩ c' (.fin d) = .ok r) :
    ∃ ft idx ft' idx', GlyphOf e c t ft idx ∧ GlyphOf e c' t' ft' idx' ∧ r = .fin (u ft idx idx' / 64) ∧
      (r = .fin (u ft idx idx' / e.lib.unitsPerEm ft * s) ↔ s = e.lib.unitsPerEm ft / 64 ∨ u ft idx idx' = 0) := by
  rcases (C74_answer ..).1 h with ⟨h1 | h1, -⟩ | ⟨-, -, ft, idx, ft', idx', g, g', ⟨h1, -⟩ | ⟨k, h1, rfl⟩⟩
  · exact absurd rfl h1
  · exact absurd rfl h1
  · rw [hs] at h1; cases h1
  rw [hs] at h1
  cases h1
  refine ⟨ft, idx, ft', idx', g, g', rfl, ?_⟩
  have hu' : ((e.lib.unitsPerEm ft : ℤ) : ℚ) ≠ 0 := by exact_mod_cast (hu ft).ne'
  rw [XR.fin.injEq]
  constructor
  · intro he
    by_cases ha0 : u ft idx idx' = 0
    · exact .inr ha0
    left
    have ha0' : ((u ft idx idx' : ℤ) : ℚ) ≠ 0 := by exact_mod_cast ha0
    field_simp at he ⊢
    linarith
  · rintro (h | h)
    · rw [h]; field_simp
    · rw [h]; norm_num

/-! ## Concrete cases -/

/-- Two faces: the roman face has the glyph 7 for every character, the italic face the glyph 1.  In the italic face, the
glyphs 1 and 7 are kerned by -128 units. -/
def exLib2 : Sfnt Bool where
  name _ := some bs!"Ex"
  glyphIndex ft _ := some (if ft then 1 else 7)
  glyphName _ _ := some bs!"g"
  loadGlyph _ _ _ := true
  glyphAdvance _ i _ := some i
  glyphBounds _ i _ := some (0, -(i : Int), i, 0)
  unitsPerEm _ := 2048
  kern ft i j _ := if ft = true ∧ i = 1 ∧ j = 7 then .ok (-128) else .ok 0
def exEnv2 : TtfEnv Bool := ⟨exLib2, ⟨some false, some false, some true, some false, some false⟩, fun r => (65 ≤ r && r ≤ 90) || (97 ≤ r && r ≤ 122)⟩

/-- **C74** Finding: the faces are not compared.  In formulas letters are italic and digits are not; between `x` and `1` the backend
answers the kerning, in the italic face, with whatever glyph of that face has the number that `1` has in the roman face. -/
theorem C74_faces : freshKern exEnv2 (⟨bs!"default", bs!"it", .fin 10⟩ : Font XR) bs!"x" ⟨bs!"default", bs!"it", .fin 10⟩ bs!"1" (.fin 72) = .ok (.fin (-2)) ∧
    GlyphOf exEnv2 bs!"x" bs!"it" true 1 ∧ GlyphOf exEnv2 bs!"1" bs!"it" false 7 := by
  refine ⟨by decide +kernel, ⟨120, bs!"Ex", 1, 0, -1, 1, 0, ?_⟩, ⟨49, bs!"Ex", 7, 0, -7, 7, 0, ?_⟩⟩
  · refine ⟨by decide +kernel, ?_, rfl, rfl, ⟨_, rfl⟩, ⟨rfl, rfl⟩, rfl, rfl⟩
    exact .inr ⟨by simp [exEnv2], .inr (.inr (.inl ⟨rfl, rfl⟩))⟩
  · refine ⟨by decide +kernel, ?_, rfl, rfl, ⟨_, rfl⟩, ⟨rfl, rfl⟩, rfl, rfl⟩
    exact .inl ⟨rfl, by omega, rfl, rfl⟩

example : (∀ ft, 0 < exEnv2.lib.unitsPerEm ft) ∧ ∀ ft i j, exEnv2.lib.kern ft i j (exEnv2.lib.unitsPerEm ft) = .ok (if ft = true ∧ i = 1 ∧ j = 7 then -128 else 0) := by
  refine ⟨fun _ => by show (0 : Int) < 2048; omega, fun ft i j => ?_⟩
  show (if ft = true ∧ i = 1 ∧ j = 7 then KernAns.ok (-128) else .ok 0) = _
  split <;> rfl

end Verif.Props
