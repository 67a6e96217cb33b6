import Verif.Props.ContainRender
import Verif.Spec.Metrics
/-! # C78: what the TrueType backend answers to Metrics -/

namespace Verif.Props
open Verif Verif.Spec GoFloat XR
variable {H : Type}

theorem face_iff (e : TtfEnv H) (typ : GoString) (rn : Nat) (ft : H) :
    e.fonts.get (if typ = bs!"it" ∧ rn < 0x10000 ∧ e.isL rn = false then bs!"rm" else typ) = some ft ↔ FaceFor e typ rn ft := by
  unfold FaceFor
  by_cases h : typ = bs!"it" ∧ rn < 0x10000 ∧ e.isL rn = false
  · rw [if_pos h]
    simp only [h.1, h.2.1, h.2.2, and_self, true_and, not_true_eq_false, false_and, or_false]
    rfl
  · rw [if_neg h]
    have h' : ¬ (typ = bs!"it" ∧ rn < 0x10000 ∧ e.isL rn = false ∧ e.fonts.rm = some ft) := fun q => h ⟨q.1, q.2.1, q.2.2.1⟩
    simp only [h, h', not_false_eq_true, true_and, false_or]
    unfold TtfFonts.get
    split
    · rename_i h1; subst h1; simp
    split
    · rename_i h1; subst h1; simp
    split
    · rename_i h1; subst h1; simp
    split
    · rename_i h1; subst h1; simp
    split
    · rename_i h1; subst h1; simp
    · rename_i h1 h2 h3 h4 h5; simp [h1, h2, h3, h4, h5]

theorem slanted_iff {F : Type} [GoFloat F] (e : TtfEnv H) (c : GoString) (f : Font F) (rn : Nat) : e.slanted c f rn = true ↔ Slants e c f.typ rn := by
  unfold TtfEnv.slanted Slants
  simp only [Bool.or_eq_true, beq_iff_eq, or_assoc]
  refine or_congr ?_ Iff.rfl
  split
  · rename_i h
    refine ⟨fun h' => absurd h' (by decide), fun h' => ?_⟩
    rcases h'.2 with h' | h'
    · omega
    · rw [h.2.2] at h'; cases h'
  · rename_i h
    refine ⟨fun h' => ⟨h', ?_⟩, fun h' => h'.1⟩
    by_cases hr : rn < 0x10000
    · right
      cases hl : e.isL rn
      · exact absurd ⟨h', hr, hl⟩ h
      · rfl
    · left; omega

/-- The numbers in exact arithmetic. -/
theorem ttfMetrics_exact (ps : GoString) (adv left top right bottom : Int) (s d : ℚ) :
    (ps ≠ bs!"Cmex10" → PlainMetrics adv left top right bottom s (ttfMetrics ps adv (left, top, right, bottom) (.fin s) (.fin d)).1) ∧
    (ps = bs!"Cmex10" → RaisedMetrics adv left top right bottom s d (ttfMetrics ps adv (left, top, right, bottom) (.fin s) (.fin d)).1) := by
  have h12 : ((12 : ℤ) : ℚ) ≠ 0 := by norm_num
  have h64 : ((64 : ℤ) : ℚ) ≠ 0 := by norm_num
  have h2 : ((2 : ℤ) : ℚ) ≠ 0 := by norm_num
  have h3 : ((3 : ℤ) : ℚ) ≠ 0 := by norm_num
  have h72 : ((72 : ℤ) : ℚ) ≠ 0 := by norm_num
  have hb : ((65536 : ℤ) : ℚ) ≠ 0 := by norm_num
  constructor
  · intro hp
    unfold ttfMetrics PlainMetrics
    dsimp only
    rw [if_neg hp]
    simp only [ofInt_fin, zero_fin, fin_div _ _ h12, fin_div _ _ h64, fin_div _ _ hb, fin_mul, fin_sub, fin_add, XR.fin.injEq]
    refine ⟨?_, ?_, ?_, ?_, ?_, ?_, ?_, ?_⟩ <;> first | trivial | (push_cast; ring)
  · intro hp
    refine ⟨⟨.fin (adv / 786432 * s), .fin ((bottom - top) / 64 * (s / 12)), .fin ((right - left) / 64 * (s / 12)),
      .fin (left / 64 * (s / 12)), .fin (right / 64 * (s / 12)), .fin (-bottom / 64 * (s / 12)), .fin (-top / 64 * (s / 12)),
      .fin (-top / 64 * (s / 12))⟩, ⟨rfl, rfl, rfl, rfl, rfl, rfl, rfl, rfl⟩, _, rfl, ?_⟩
    unfold ttfMetrics
    dsimp only
    rw [if_pos hp]
    simp only [ofInt_fin, fin_div _ _ h12, fin_div _ _ h64, fin_div _ _ hb, fin_div _ _ h2, fin_div _ _ h3, fin_div _ _ h72,
      fin_mul, fin_sub, fin_add, Metrics.mk.injEq, XR.fin.injEq]
    refine ⟨?_, ?_, ?_, ?_, ?_, ?_, ?_, ?_⟩ <;> (push_cast; ring)

theorem plain_unique {adv left top right bottom : Int} {s : ℚ} {r r' : Metrics XR} (h : PlainMetrics adv left top right bottom s r)
    (h' : PlainMetrics adv left top right bottom s r') : r = r' := by
  obtain ⟨a1, a2, a3, a4, a5, a6, a7, a8⟩ := h
  obtain ⟨b1, b2, b3, b4, b5, b6, b7, b8⟩ := h'
  cases r; cases r'
  dsimp only at *
  subst a1 a2 a3 a4 a5 a6 a7 a8 b1 b2 b3 b4 b5 b6 b7 b8
  rfl

theorem raised_unique {adv left top right bottom : Int} {s d : ℚ} {r r' : Metrics XR} (h : RaisedMetrics adv left top right bottom s d r)
    (h' : RaisedMetrics adv left top right bottom s d r') : r = r' := by
  obtain ⟨r0, h0, u, hu, rfl⟩ := h
  obtain ⟨r1, h1, u', hu', rfl⟩ := h'
  rw [plain_unique h0 h1, hu, hu']

theorem load_iff (e : TtfEnv H) (c n t : GoString) (s d : ℚ) (m : Bool) (v : TtfVal XR H) :
    e.load c ⟨n, t, .fin s⟩ (.fin d) m = .ok v ↔ ∃ rn ft ps idx adv l tp r b, Glyphed e c t m rn ft ps idx adv l tp r b ∧
      e.lib.glyphName ft idx = some v.symbolName ∧ v.font = some ft ∧ v.size = .fin s ∧ v.postscript = ps ∧ v.rune = rn ∧ v.glyph = idx ∧
      v.slanted = e.slanted c (⟨n, t, .fin s⟩ : Font XR) rn ∧ (v.metrics, v.offset) = ttfMetrics ps adv (l, tp, r, b) (.fin s) (.fin d) := by
  constructor
  · intro h
    unfold TtfEnv.load at h
    obtain ⟨⟨ft, rn⟩, hg, h⟩ := Res.bind_eq_ok.1 h
    unfold TtfEnv.getGlyph at hg
    obtain ⟨rn', hr, hg⟩ := Res.bind_eq_ok.1 hg
    dsimp only at hg h
    split at hg
    · cases hg
    rename_i ft' hft
    cases hg
    split at h
    · cases h
    rename_i ps hps
    split at h
    · cases h
    rename_i idx hidx
    split at h
    · cases h
    rename_i sn hsn
    split at h
    · cases h
    rename_i hl1
    split at h
    · cases h
    rename_i adv hadv
    split at h
    · cases h
    rename_i hl2
    split at h
    · cases h
    rename_i b hbd
    obtain ⟨l, tp, r, b⟩ := b
    cases h
    exact ⟨_, _, _, _, adv, l, tp, r, b, ⟨hr, (face_iff e t _ _).1 hft, hps, hidx, ⟨_, hsn⟩, ⟨by simpa using hl1, by simpa using hl2⟩, hadv, hbd⟩,
      hsn, rfl, rfl, rfl, rfl, rfl, rfl, rfl⟩
  · rintro ⟨rn, ft, ps, idx, adv, l, tp, r, b, ⟨h1, h2, h3, h4, -, ⟨h6, h7⟩, h8, h9⟩, k1, k2, k3, k4, k5, k6, k8, k7⟩
    unfold TtfEnv.load TtfEnv.getGlyph
    rw [h1, Res.ok_bind]
    dsimp only
    rw [(face_iff e t rn ft).2 h2]
    obtain ⟨v1, v2, v3, v4, v5, v6, v7, v8, v9⟩ := v
    dsimp only at *
    subst k2 k3 k4 k5 k6 k8
    simp only [Res.ok_bind, h3, h4, k1, h6, h7, h8, h9, Bool.true_eq_false, if_false, ← k7]

/-- What is answered on a fresh backend. -/
theorem fresh_num (e : TtfEnv H) (c : GoString) (f : Font XR) (d : XR) (m : Bool) (hf : IsNum f.size) (hd : IsNum d) :
    freshMetrics e c f d m = (e.load c f d m >>= fun v => .ok v.metrics) := by
  unfold freshMetrics TtfEnv.metrics
  rcases getInfo_cases e c f d m .new with ⟨v, h1, h2⟩ | ⟨h0, v, hl, h2⟩ | ⟨-, p, hl, h2⟩ | ⟨-, hl, h2⟩
  · cases h1
  · rw [h2, hl]; simp only [answer, key_num hf hd, if_true, Res.ok_bind]
  · rw [h2, hl]; rfl
  · rw [h2, hl]; rfl

/-- **C78** A fresh TrueType backend answers to Metrics exactly if the symbol stands for a character, there is a face
for it and the font library answers its questions; and it answers this: bounds and advance scaled by the font size,
except that glyphs of `Cmex10` are raised. -/
theorem C78_answer (e : TtfEnv H) (c name typ : GoString) (s d : ℚ) (m : Bool) (r : Metrics XR) :
    freshMetrics e c ⟨name, typ, .fin s⟩ (.fin d) m = .ok r ↔
    ∃ rn ft ps idx adv left top right bottom, Glyphed e c typ m rn ft ps idx adv left top right bottom ∧
      (ps ≠ bs!"Cmex10" → PlainMetrics adv left top right bottom s r) ∧ (ps = bs!"Cmex10" → RaisedMetrics adv left top right bottom s d r) := by
  rw [fresh_num e c _ _ m ⟨s, rfl⟩ ⟨d, rfl⟩]
  constructor
  · intro h
    obtain ⟨v, hv, h⟩ := Res.bind_eq_ok.1 h
    cases h
    obtain ⟨rn, ft, ps, idx, adv, l, tp, r, b, hg, -, -, -, -, -, -, -, hm⟩ := (load_iff e c name typ s d m v).1 hv
    have := ttfMetrics_exact ps adv l tp r b s d
    rw [← hm] at this
    exact ⟨rn, ft, ps, idx, adv, l, tp, r, b, hg, this⟩
  · rintro ⟨rn, ft, ps, idx, adv, l, tp, ri, b, hg, h1, h2⟩
    obtain ⟨sn, hsn⟩ := hg.named
    have hl := (load_iff e c name typ s d m ⟨some ft, .fin s, ps, (ttfMetrics ps adv (l, tp, ri, b) (.fin s) (.fin d)).1, sn, rn, idx,
      (ttfMetrics ps adv (l, tp, ri, b) (.fin s) (.fin d)).2, e.slanted c (⟨name, typ, .fin s⟩ : Font XR) rn⟩).2 ⟨rn, ft, ps, idx, adv, l, tp, ri, b, hg, hsn, rfl, rfl, rfl, rfl, rfl, rfl, rfl⟩
    rw [hl, Res.ok_bind, Res.ok.injEq]
    have hx := ttfMetrics_exact ps adv l tp ri b s d
    by_cases hp : ps = bs!"Cmex10"
    · exact raised_unique (hx.2 hp) (h2 hp)
    · exact plain_unique (hx.1 hp) (h1 hp)

/-- **C78** Sizes: at `k` times the size everything is `k` times as large. -/
theorem C78_proportional (e : TtfEnv H) (c name typ : GoString) (s d k : ℚ) (m : Bool) (r : Metrics XR)
    (h : freshMetrics e c ⟨name, typ, .fin s⟩ (.fin d) m = .ok r) :
    ∃ r', freshMetrics e c ⟨name, typ, .fin (k * s)⟩ (.fin d) m = .ok r' ∧ TimesMetrics k r r' := by
  obtain ⟨rn, ft, ps, idx, adv, l, tp, ri, b, hg, h1, h2⟩ := (C78_answer e c name typ s d m r).1 h
  have hp : ∀ s : ℚ, PlainMetrics adv l tp ri b s ⟨.fin (adv / 786432 * s), .fin ((b - tp) / 64 * (s / 12)), .fin ((ri - l) / 64 * (s / 12)),
      .fin (l / 64 * (s / 12)), .fin (ri / 64 * (s / 12)), .fin (-b / 64 * (s / 12)), .fin (-tp / 64 * (s / 12)),
      .fin (-tp / 64 * (s / 12))⟩ := fun s => ⟨rfl, rfl, rfl, rfl, rfl, rfl, rfl, rfl⟩
  by_cases hc : ps = bs!"Cmex10"
  · refine ⟨_, (C78_answer e c name typ (k * s) d m _).2 ⟨rn, ft, ps, idx, adv, l, tp, ri, b, hg, fun h => (h hc).elim, fun _ => ⟨_, hp _, _, rfl, rfl⟩⟩, ?_⟩
    rw [raised_unique (h2 hc) ⟨_, hp s, _, rfl, rfl⟩]
    refine ⟨_, _, _, _, _, _, _, _, rfl, ?_⟩
    simp only [fin_add, Metrics.mk.injEq, XR.fin.injEq]
    refine ⟨?_, ?_, ?_, ?_, ?_, ?_, ?_, ?_⟩ <;> ring
  · refine ⟨_, (C78_answer e c name typ (k * s) d m _).2 ⟨rn, ft, ps, idx, adv, l, tp, ri, b, hg, fun _ => hp _, fun h => (hc h).elim⟩, ?_⟩
    rw [plain_unique (h1 hc) (hp s)]
    refine ⟨_, _, _, _, _, _, _, _, rfl, ?_⟩
    simp only [Metrics.mk.injEq, XR.fin.injEq]
    refine ⟨?_, ?_, ?_, ?_, ?_, ?_, ?_, ?_⟩ <;> ring

/-- **C78** Finding: the resolution makes no difference, unless a font is called `Cmex10`. -/
theorem C78_resolution (e : TtfEnv H) (c name typ : GoString) (s d d' : ℚ) (m : Bool) (h : ∀ ft, e.lib.name ft ≠ some bs!"Cmex10") (r : Metrics XR) :
    freshMetrics e c ⟨name, typ, .fin s⟩ (.fin d) m = .ok r ↔ freshMetrics e c ⟨name, typ, .fin s⟩ (.fin d') m = .ok r := by
  rw [C78_answer, C78_answer]
  constructor <;> rintro ⟨rn, ft, ps, idx, adv, l, tp, ri, b, hg, h1, -⟩ <;>
    exact ⟨rn, ft, ps, idx, adv, l, tp, ri, b, hg, h1, fun hp => absurd (hp ▸ hg.name) (h ft)⟩

/-- **C78** Finding: the advance is computed as if every font had 2048 units per em.  Let the advance of a glyph be `a`
units, and let the library scale it without error where no rounding is needed; then Metrics answers `a/2048` of the
font size, which is the advance of the glyph only if the font has 2048 units per em (or the advance or size is 0). -/
theorem C78_advance (e : TtfEnv H) (c name typ : GoString) (s d : ℚ) (m : Bool) (r : Metrics XR) (a : H → Nat → Int)
    (hu : ∀ ft, 0 < e.lib.unitsPerEm ft)
    (hs : ∀ ft idx (k : Int), e.lib.glyphAdvance ft idx (e.lib.unitsPerEm ft * k) = some (a ft idx * k))
    (h : freshMetrics e c ⟨name, typ, .fin s⟩ (.fin d) m = .ok r) :
    ∃ rn ft idx, tex2unicodeIndex c m = .ok rn ∧ FaceFor e typ rn ft ∧ e.lib.glyphIndex ft rn = some idx ∧
      r.advance = .fin (a ft idx / 2048 * s) ∧
      (r.advance = .fin (a ft idx / e.lib.unitsPerEm ft * s) ↔ e.lib.unitsPerEm ft = 2048 ∨ a ft idx = 0 ∨ s = 0) := by
  obtain ⟨rn, ft, ps, idx, adv, l, tp, ri, b, hg, h1, h2⟩ := (C78_answer e c name typ s d m r).1 h
  have ha : adv = a ft idx * 384 := by
    have := hs ft idx (6 * 64)
    rw [← mul_assoc, hg.advance] at this
    simpa using this
  have hr : r.advance = .fin (a ft idx / 2048 * s) := by
    have : r.advance = .fin (adv / 786432 * s) := by
      by_cases hp : ps = bs!"Cmex10"
      · obtain ⟨r0, h0, u, -, rfl⟩ := h2 hp
        exact h0.1
      · exact (h1 hp).1
    rw [this, ha]
    congr 1; push_cast; ring
  refine ⟨rn, ft, idx, hg.rune, hg.face, hg.index, hr, ?_⟩
  have hu' : ((e.lib.unitsPerEm ft : ℤ) : ℚ) ≠ 0 := by exact_mod_cast (hu ft).ne'
  rw [hr, XR.fin.injEq]
  constructor
  · intro he
    by_cases ha0 : a ft idx = 0
    · exact .inr (.inl ha0)
    by_cases hs0 : s = 0
    · exact .inr (.inr hs0)
    left
    have ha0' : ((a ft idx : ℤ) : ℚ) ≠ 0 := by exact_mod_cast ha0
    field_simp at he
    exact_mod_cast he
  · rintro (h | h | h)
    · rw [h]; norm_num
    · rw [h]; norm_num
    · rw [h]; norm_num

theorem firstRune_encode (r : Nat) (h : ValidRune r) : firstRune (encodeRune r) = r := by
  unfold ValidRune at h
  have hc : ∀ k, k < 64 → isCont (0x80 + k) = true := by intro k hk; simp [isCont]; omega
  unfold encodeRune
  split
  · simp [firstRune, decodeRune, *]
  split
  · simp only [firstRune, decodeRune]
    have : 194 ≤ 192 + r / 64 := by omega
    have : 192 + r / 64 ≤ 223 := by omega
    have h1 : ¬ 192 + r / 64 < 128 := by omega
    have h2 : (decide (0xC2 ≤ 0xC0 + r / 64) && decide (0xC0 + r / 64 ≤ 0xDF)) = true := by simp; omega
    have h3 : isCont (0x80 + r % 64) = true := hc _ (by omega)
    rw [if_neg h1, if_pos h2, if_pos h3]
    dsimp only
    omega
  split
  · omega
  split
  · simp only [firstRune, decodeRune]
    have h1 : ¬ 0xE0 + r / 4096 < 128 := by omega
    have h2 : ¬ (decide (0xC2 ≤ 0xE0 + r / 4096) && decide (0xE0 + r / 4096 ≤ 0xDF)) = true := by simp; omega
    have h3 : (decide (0xE0 ≤ 0xE0 + r / 4096) && decide (0xE0 + r / 4096 ≤ 0xEF)) = true := by simp; omega
    rw [if_neg h1, if_neg h2, if_pos h3]
    have h4 : (decide ((if 0xE0 + r / 4096 = 0xE0 then 0xA0 else 0x80) ≤ 0x80 + r / 64 % 64) &&
        decide (0x80 + r / 64 % 64 ≤ (if 0xE0 + r / 4096 = 0xED then 0x9F else 0xBF)) &&
        isCont (0x80 + r % 64)) = true := by
      simp only [Bool.and_eq_true, decide_eq_true_eq, hc _ (Nat.mod_lt _ (show 0 < 64 by omega)), and_true]
      split <;> split <;> omega
    rw [if_pos h4]
    dsimp only
    omega
  split
  · simp only [firstRune, decodeRune]
    have h1 : ¬ 0xF0 + r / 262144 < 128 := by omega
    have h2 : ¬ (decide (0xC2 ≤ 0xF0 + r / 262144) && decide (0xF0 + r / 262144 ≤ 0xDF)) = true := by simp; omega
    have h2' : ¬ (decide (0xE0 ≤ 0xF0 + r / 262144) && decide (0xF0 + r / 262144 ≤ 0xEF)) = true := by simp; omega
    have h3 : (decide (0xF0 ≤ 0xF0 + r / 262144) && decide (0xF0 + r / 262144 ≤ 0xF4)) = true := by simp; omega
    rw [if_neg h1, if_neg h2, if_neg h2', if_pos h3]
    have h4 : (decide ((if 0xF0 + r / 262144 = 0xF0 then 0x90 else 0x80) ≤ 0x80 + r / 4096 % 64) &&
        decide (0x80 + r / 4096 % 64 ≤ (if 0xF0 + r / 262144 = 0xF4 then 0x8F else 0xBF)) &&
        isCont (0x80 + r / 64 % 64) &&
        isCont (0x80 + r % 64)) = true := by
      simp only [Bool.and_eq_true, decide_eq_true_eq, hc _ (Nat.mod_lt _ (show 0 < 64 by omega)), and_true]
      split <;> split <;> omega
    rw [if_pos h4]
    dsimp only
    omega
  · omega

/-- **C78** RenderGlyph on a fresh backend draws if and only if Metrics in math mode answers; the operation it leaves on
the canvas has the glyph of the character, in its face, at the size asked for, with these metrics, and the UTF-8
encoding of the character. -/
theorem C78_drawn (e : TtfEnv H) (x y : XR) (c name typ : GoString) (s d : ℚ) :
    ((e.renderGlyph x y ⟨name, typ, .fin s⟩ c (.fin d) .new).1 = .ok () ↔
      ∃ r, freshMetrics e c (⟨name, typ, .fin s⟩ : Font XR) (.fin d) true = .ok r) ∧
    ∀ s', e.renderGlyph x y ⟨name, typ, .fin s⟩ c (.fin d) .new = (.ok (), s') →
      ∃ rn ft ps idx adv left top right bottom, Glyphed e c typ true rn ft ps idx adv left top right bottom ∧
      ∃ (g : GlyphD XR H), s'.canvas.ops = [.glyph x y g] ∧
        g.font = some ft ∧ g.size = .fin s ∧ g.postscript = ps ∧ g.num = idx ∧ freshMetrics e c ⟨name, typ, .fin s⟩ (.fin d) true = .ok g.metrics ∧
        g.symbol = encodeRune rn ∧ (ValidRune rn → firstRune g.symbol = rn) ∧ (g.slanted = true ↔ Slants e c typ rn) := by
  have hnew : (TtfSt.new : TtfSt XR H).find ⟨c, ⟨name, typ, .fin s⟩, .fin d⟩ = none := rfl
  have hg : ∀ v, e.load c ⟨name, typ, .fin s⟩ (.fin d) true = .ok v →
      e.renderGlyph x y ⟨name, typ, .fin s⟩ c (.fin d) .new = (.ok (), ⟨[.glyph x y v.glyphD], [(⟨c, ⟨name, typ, .fin s⟩, .fin d⟩, v)]⟩) := by
    intro v hv
    unfold TtfEnv.renderGlyph TtfEnv.getInfo
    rw [hnew, hv]
    have hk : TtfKey.same (⟨c, ⟨name, typ, .fin s⟩, .fin d⟩ : TtfKey XR) ⟨c, ⟨name, typ, .fin s⟩, .fin d⟩ = true :=
      key_num (f := ⟨name, typ, .fin s⟩) ⟨s, rfl⟩ ⟨d, rfl⟩
    simp [TtfSt.find, hk, TtfSt.new, Canvas.renderGlyph, Canvas.new]
  rw [fresh_num e c _ _ true ⟨s, rfl⟩ ⟨d, rfl⟩]
  cases hv : e.load c (⟨name, typ, .fin s⟩ : Font XR) (.fin d) true with
  | ok v =>
    rw [hg v hv]
    refine ⟨⟨fun _ => ⟨_, rfl⟩, fun _ => rfl⟩, ?_⟩
    intro s' h
    cases h
    obtain ⟨rn, ft, ps, idx, adv, l, tp, ri, b, hgl, -, h1, h2, h3, h4, h5, h6, -⟩ := (load_iff e c name typ s d true v).1 hv
    refine ⟨rn, ft, ps, idx, adv, l, tp, ri, b, hgl, v.glyphD, rfl, h1, h2, h3, h5, rfl, ?_, ?_, ?_⟩
    · show encodeRune v.rune = _; rw [h4]
    · intro hr; show firstRune (encodeRune v.rune) = _; rw [h4, firstRune_encode rn hr]
    · show v.slanted = true ↔ _; rw [h6, slanted_iff]
  | panic p =>
    have : e.renderGlyph x y ⟨name, typ, .fin s⟩ c (.fin d) .new = (.panic p, .new) := by
      unfold TtfEnv.renderGlyph TtfEnv.getInfo; rw [hnew, hv]
    rw [this]
    exact ⟨⟨fun h => (by cases h), fun ⟨r, h⟩ => (by cases h)⟩, fun s' h => (by cases h)⟩
  | fuel =>
    have : e.renderGlyph x y ⟨name, typ, .fin s⟩ c (.fin d) .new = (.fuel, .new) := by
      unfold TtfEnv.renderGlyph TtfEnv.getInfo; rw [hnew, hv]
    rw [this]
    exact ⟨⟨fun h => (by cases h), fun ⟨r, h⟩ => (by cases h)⟩, fun s' h => (by cases h)⟩

/-! ## Concrete cases -/

/-- a font of 1000 units per em, all glyphs 500 units wide -/
def exLib1000 : Sfnt Unit := { exLib with unitsPerEm := fun _ => 1000, glyphAdvance := fun _ _ p => some (500 * p / 1000) }
def exEnv1000 : TtfEnv Unit := { exEnv with lib := exLib1000 }
example : (∀ ft, 0 < exEnv1000.lib.unitsPerEm ft) ∧
    ∀ ft idx (k : Int), exEnv1000.lib.glyphAdvance ft idx (exEnv1000.lib.unitsPerEm ft * k) = some (500 * k) := by
  refine ⟨fun ft => show (0 : Int) < 1000 by decide, fun ft idx k => ?_⟩
  show some (500 * (1000 * k) / 1000) = some (500 * k)
  congr 1; omega
/-- **C78** In such a font, at 12 points, a glyph six points wide is given an advance of less than three points. -/
theorem C78_witness : ∃ r, freshMetrics exEnv1000 bs!"A" exFont (.fin 72) false = .ok r ∧ r.advance = .fin (375 / 128) := by
  have h : (match freshMetrics exEnv1000 bs!"A" exFont (.fin 72) false with | .ok r => some r.advance | _ => none) = some (.fin (375 / 128)) := by
    decide +kernel
  split at h
  · rename_i r e; exact ⟨r, e, by simpa using h⟩
  · cases h
example : ValidRune 0x2212 ∧ encodeRune 0x2212 = bs!"−" := by
  unfold ValidRune; decide

end Verif.Props
