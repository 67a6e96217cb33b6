import Verif.Props.Across
import Verif.Props.ContainRender
/-! # C82 for mtex.Render -/

namespace Verif.Props
open Verif Verif.Spec GoFloat XR

variable {H : Type}

/-- What is loaded at one size is loaded at any other, with a proportional advance. -/
theorem load_advance {e : TtfEnv H} {z : ℚ} (hT : SoundTables e z) {c n t : GoString} {s d : ℚ} {m : Bool} {v : TtfVal XR H}
    (h : e.load c ⟨n, t, .fin s⟩ (.fin d) m = .ok v) :
    ∃ v1 : TtfVal XR H, e.load c ⟨n, t, .fin 1⟩ (.fin d) m = .ok v1 ∧ v.metrics.advance = .fin (v1.metrics.advance.val * s) ∧ 0 ≤ v1.metrics.advance.val ∧
      (c ∈ [bs!"(", bs!")", bs!"\\__sqrt__"] → 0 < s → ∃ q : ℚ, v.metrics.height = .fin q ∧ 0 < q) := by
  unfold TtfEnv.load at h ⊢
  obtain ⟨⟨ft, rn⟩, hg, h⟩ := Res.bind_eq_ok.1 h
  have hg' : e.getGlyph c (⟨n, t, .fin 1⟩ : Font XR) m = .ok (ft, rn) := hg
  rw [hg', Res.ok_bind]
  dsimp only at h ⊢
  split at h
  · cases h
  rename_i ps hps
  split at h
  · cases h
  rename_i idx hidx
  split at h
  · cases h
  rename_i sn hsn
  split at h
  · cases h
  rename_i hl1
  split at h
  · cases h
  rename_i adv hadv
  split at h
  · cases h
  rename_i hl2
  split at h
  · cases h
  rename_i b hbd
  simp only [Res.ok.injEq] at h
  subst h
  simp only [hl1, hl2, hadv, hbd, Bool.false_eq_true, if_false]
  have ha : (0 : ℚ) ≤ adv := by exact_mod_cast hT.forth _ _ _ _ hadv
  have key : ∀ s : ℚ, (ttfMetrics ps adv b (.fin s : XR) (.fin d)).1.advance = .fin (adv / 65536 * s / 12) := by
    intro s
    unfold ttfMetrics
    dsimp only
    simp only [ofInt_fin, fin_div _ _ (show ((12 : ℤ) : ℚ) ≠ 0 by norm_num), fin_div _ _ (show ((65536 : ℤ) : ℚ) ≠ 0 by norm_num), fin_mul]
    norm_num
  refine ⟨_, rfl, ?_, ?_, ?_⟩
  · dsimp only
    rw [key, key, val_fin]; congr 1; ring
  · dsimp only
    rw [key, val_fin]; positivity
  · intro hc hs
    have hlt : (b.2.1 : ℚ) < b.2.2.2 := by exact_mod_cast hT.upright c hc _ m ft rn idx b hg hidx hbd
    refine ⟨s / 12 * (b.2.2.2 - b.2.1) / 64, ?_, by have : (0 : ℚ) < b.2.2.2 - b.2.1 := by linarith
                                                    positivity⟩
    unfold ttfMetrics
    dsimp only
    simp only [ofInt_fin, fin_div _ _ (show ((12 : ℤ) : ℚ) ≠ 0 by norm_num), fin_div _ _ (show ((64 : ℤ) : ℚ) ≠ 0 by norm_num), fin_mul, fin_sub]
    congr 1; push_cast; ring

/-- How far the glyphs of the fonts advance, in formulas: what Metrics answers at size 1. -/
def ttfAdvances (e : TtfEnv H) : Advances := fun c n t d _ =>
  match e.load c (⟨n, t, .fin 1⟩ : Font XR) d true with
  | .ok v => max v.metrics.advance.val 0
  | _ => 0

theorem ttf_advancing {e : TtfEnv H} {B : XR} {s : TtfSt XR H} (hS : e.Sound ⟨B, False⟩ s) {size : ℚ} (h0 : 0 < size) (hT : SoundTables e size) :
    Advancing (e.backend (false, s)) (ttfAdvances e) (· = true) size := by
  have key : ∀ c n t (z : ℚ) (d : XR), IsNum d → (e.backend (false, s)).known c ⟨n, t, .fin z⟩ d true = true → ∃ v,
      e.load c ⟨n, t, .fin z⟩ d true = .ok v ∧ (e.backend (false, s)).metrics c ⟨n, t, .fin z⟩ d true = v.metrics := by
    intro c n t z d hd hk
    simp only [TtfEnv.backend, Bool.and_eq_true] at hk
    simp only [TtfEnv.backend]
    unfold TtfEnv.metrics at hk ⊢
    cases hg : e.getInfo c ⟨n, t, .fin z⟩ d true s with
    | mk r s' =>
      rw [hg] at hk
      cases r with
      | ok v => exact ⟨v, getInfo_loaded hS ⟨z, rfl⟩ hd hg, rfl⟩
      | panic p => simp at hk
      | fuel => simp at hk
  have adv : ∀ {c n t : GoString} {z d : ℚ} {v : TtfVal XR H}, e.load c ⟨n, t, .fin z⟩ (.fin d) true = .ok v →
      v.metrics.advance = .fin (ttfAdvances e c n t (.fin d) true * z) ∧ 0 ≤ ttfAdvances e c n t (.fin d) true := by
    intro c n t z d v h
    obtain ⟨v1, l1, l2, l3, -⟩ := load_advance hT h
    simp only [ttfAdvances, l1, max_eq_left l3]
    exact ⟨l2, l3⟩
  constructor
  · rintro c n t z d m rfl ⟨d, rfl⟩ hk
    obtain ⟨v, h1, h2⟩ := key c n t z _ ⟨d, rfl⟩ hk
    rw [h2]; exact (adv h1).1
  · intro c n t d m
    unfold ttfAdvances
    split
    · exact le_max_right _ _
    · exact le_rfl
  · rintro c n t m c' n' t' m' d rfl rfl ⟨d, rfl⟩ hk hk'
    obtain ⟨v, h1, -⟩ := key c n t size _ ⟨d, rfl⟩ hk
    obtain ⟨v', h1', -⟩ := key c' n' t' size _ ⟨d, rfl⟩ hk'
    have a1 := mul_nonneg (adv h1).2 (le_of_lt h0)
    have a2 := mul_nonneg (adv h1').2 (le_of_lt h0)
    have nothing : ∃ k : ℚ, (zero : XR) = .fin k ∧ -(ttfAdvances e c n t (.fin d) true * size) ≤ k ∧ -(ttfAdvances e c' n' t' (.fin d) true * size) ≤ k :=
      ⟨0, zero_fin, by linarith, by linarith⟩
    simp only [TtfEnv.backend]
    unfold TtfEnv.kern
    by_cases hc : n = n' ∧ eq (.fin size : XR) (.fin size) = true
    · rw [if_pos hc]
      obtain ⟨rfl, -⟩ := hc
      cases hg : e.getInfo c ⟨n, t, .fin size⟩ (.fin d) true s with
      | mk r s1 =>
        cases r with
        | ok v1 =>
          dsimp only
          have e1 := getInfo_loaded hS ⟨size, rfl⟩ ⟨d, rfl⟩ hg
          have hS1 := getInfo_sound e c ⟨n, t, .fin size⟩ (.fin d) true s (modeOk_math _ _ _) hS
          rw [hg] at hS1
          cases hg2 : e.getInfo c' ⟨n, t', .fin size⟩ (.fin d) true s1 with
          | mk r s2 =>
            cases r with
            | ok v2 =>
              dsimp only
              have e2 := getInfo_loaded hS1 ⟨size, rfl⟩ ⟨d, rfl⟩ hg2
              rw [h1] at e1
              cases e1
              rw [h1'] at e2
              cases e2
              cases hv : v.font with
              | none => exact nothing
              | some ft =>
                dsimp only
                cases hkk : e.lib.kern ft v.glyph v'.glyph (e.lib.unitsPerEm ft) with
                | ok k =>
                  obtain ⟨k1, k2⟩ := hT.kern _ _ _ _ _ _ _ _ _ _ h1 h1' hv hkk _ _ (adv h1).1 (adv h1').1
                  exact ⟨k / 64, by dsimp only; rw [ofInt_fin, ofInt_fin, fin_div _ _ (by norm_num)]; norm_num, k1, k2⟩
                | notFound => exact nothing
                | err => exact nothing
            | panic p => exact nothing
            | fuel => exact nothing
        | panic p => exact nothing
        | fuel => exact nothing
    · rw [if_neg hc]; exact nothing
  · rintro c n t d hc ⟨d, d0, rfl⟩ hk
    obtain ⟨v, h1, h2⟩ := key c n t size _ ⟨d, rfl⟩ hk
    obtain ⟨v1, l1, l2, l3, l4⟩ := load_advance hT h1
    rw [h2]; exact l4 hc h0
  · rintro n t d ⟨d, d0, rfl⟩
    refine ⟨1 / 16 * size * d / 72, ?_, by positivity⟩
    show ttfUnderline _ _ = _
    unfold ttfUnderline
    dsimp only
    rw [show (ofRat 1 16 : XR) = .fin (1 / 16) from by show XR.fin _ = _; norm_num, ofInt_fin, fin_mul, fin_mul, fin_div _ _ (by norm_num)]
    norm_num

theorem across_op {e : TtfEnv H} {size : ℚ} (hT : SoundTables e size) {lo hi : ℚ} {d : Draw XR} {op : COp XR H} (hn : NumDraw d)
    (h : Across (ttfAdvances e) (· = true) lo hi d)
    (ho : MathDrawn e d op) : OpAcross lo hi op := by
  cases d with
  | rect x1 y1 x2 y2 => rw [show op = _ from ho]; exact h
  | glyph x y f c d =>
    obtain ⟨v, hl, rfl⟩ := ho
    obtain ⟨a, s, m, rfl, ha, hs, z0, h1, h2⟩ := h
    obtain ⟨-, -, -, ⟨dq, hd⟩⟩ := hn
    obtain ⟨n, t, z⟩ := f
    dsimp only at hs hd h1 h2
    subst hs hd
    obtain ⟨v1, l1, l2, l3, -⟩ := load_advance hT hl
    simp only [ttfAdvances, l1, max_eq_left l3] at h2
    exact ⟨a, _, ha, l2, h1, mul_nonneg l3 z0, h2⟩

/-- **C82** mtex.Render of formulas in which nothing goes back, with TrueType fonts: what it gives to the renderer, every
line and every glyph with the advance recorded with it, lies on the page, from 0 to 72 times the width given in inches. -/
theorem C82_render (U : Nat → Bool) (e : TtfEnv H) (num : GoString → Option XR) (x : GoString) (size : ℚ) (dpi : XR)
    (hk : e.KernFine) (hT : SoundTables e size) (hn : ∀ t v, num t = some v → IsNum v) (h0 : 0 < size)
    (root : Node) (hp : parseExpr U x = .ok root) (hm : OnlyMath root) (hf : Forward num root) (c : RenderCall XR H) (h : renderT U e num x (.fin size) dpi = .ok c) :
    ∃ page : ℚ, c.w = .fin page ∧ ∀ op ∈ c.ops, OpAcross 0 (72 * page) op := by
  have ht : TallGlyphs e := fun c hc f m ft rn idx b h1 h2 h3 => ne_of_lt (hT.upright c hc f m ft rn idx b h1 h2 h3)
  have h72 : eq (ofInt 72 : XR) (ofInt 72) = true := IsNum.self (IsNum.int _)
  have p72 : IsPos (ofInt 72 : XR) := ⟨72, by norm_num, by rw [ofInt_fin]; simp⟩
  unfold renderT at h
  obtain ⟨⟨⟨nd, cs⟩, s⟩, hpt, h⟩ := Res.bind_eq_ok.1 h
  obtain ⟨⟨st, cs'⟩, hsh, h⟩ := Res.bind_eq_ok.1 h
  obtain ⟨⟨u, s'⟩, hrun, h⟩ := Res.bind_eq_ok.1 h
  cases h
  dsimp only at hsh hrun ⊢
  have hsim := sim_parse_math U e num x (.fin size) (ofInt 72) ⟨hk, h72⟩ root hp hm .new (sound_new e)
  unfold Simul at hsim
  rw [hpt] at hsim
  obtain ⟨hx, hS, hc, -, hb⟩ := hsim
  have hparse := hb false s (.refl s) hS
  have hnum := ttf_numeric e s hS ht
  obtain ⟨st2, cs2, hsh2, hdr⟩ := C71_drawing U _ num x _ _ zero zero hnum hn ⟨size, h0, rfl⟩ p72 IsNum.zero IsNum.zero nd cs hparse
  rw [hsh] at hsh2
  cases hsh2
  have e72 : (ofInt 72 : XR) = .fin 72 := by rw [ofInt_fin]; norm_num
  rw [e72] at hparse
  obtain ⟨w, hw, w0, st3, cs3, hsh3, hin⟩ := C82_formula U _ (ttfAdvances e) num x size 72 0 zero hnum (ttf_advancing hS h0 hT)
    h0 (by norm_num) root hp hf hm nd cs hparse
  rw [← zero_fin, hsh] at hsh3
  cases hsh3
  obtain ⟨ops, ho, hf⟩ := runDraws_math st.ops s s' hS hdr hrun
  have hops : s'.canvas.ops = ops := by rw [ho, hc]; rfl
  rw [hops, hw, e72]
  refine ⟨w / 72, fin_div _ _ (by norm_num), ?_⟩
  intro op hop
  have key : ∀ (l : List (Draw XR)) (ops : List (COp XR H)), List.Forall₂ (MathDrawn e) l ops → ∀ op ∈ ops, ∃ d ∈ l, MathDrawn e d op := by
    intro l ops hf
    induction hf with
    | nil => intro op h; cases h
    | cons h _ ih =>
      intro op hop
      rcases List.mem_cons.1 hop with rfl | hop
      · exact ⟨_, List.mem_cons_self, h⟩
      · obtain ⟨d, hd, h'⟩ := ih op hop
        exact ⟨d, List.mem_cons_of_mem _ hd, h'⟩
  obtain ⟨dr, hdr1, hdr2⟩ := key _ _ hf op hop
  exact across_op hT (hdr dr hdr1) ((hin dr hdr1).wider (by linarith) (by linarith)) hdr2

/-! ## Concrete cases -/

example (size : ℚ) : SoundTables exEnv size where
  forth ft idx p a h := by cases h; omega
  upright c hc f m ft rn idx b hg hi hb := by
    have h0 : ∀ c ∈ [bs!"(", bs!")", bs!"\\__sqrt__"], ∀ m, tex2unicodeIndex c m ≠ .ok 0 := by decide +kernel
    cases hi
    cases hb
    unfold TtfEnv.getGlyph at hg
    obtain ⟨r, hr, hg⟩ := Res.bind_eq_ok.1 hg
    dsimp only at hg
    split at hg
    · cases hg
    · cases hg
      have : rn ≠ 0 := fun e => h0 c hc m (by rw [hr, e])
      show -(rn : Int) < 0
      omega
  kern c t c' t' n d v v' ft k _ _ _ h := by cases h

/-- The width of the page in inches and the stretches in which each operation paints, with the example fonts. -/
def exStrip (x : GoString) : Option (XR × List (XR × XR)) :=
  match renderT exU exEnv exNum x (.fin 10) (.fin 100) with
  | .ok c => some (c.w, c.ops.map fun | .rect a _ b _ => (a, b) | .glyph a _ g => (a, a + g.metrics.advance))
  | _ => none

example : exStrip bs!"$\\frac{1}{\\sqrt{x}}$" = some (.fin (24611/589824), [(.fin 1, .fin (786775/786432)), (.fin 0, .fin (14371/8192)),
    (.fin 0, .fin (105/32768)), (.fin (105/32768), .fin (14371/8192)), (.fin (28777/32768), .fin (7203/8192))]) := by decide +kernel

end Verif.Props
