import Verif.Lemmas.Finite
import Verif.Props.Paint
import Verif.Props.Shippable
import Verif.Props.Render
/-! # C71: everything drawn has coordinates -/

namespace Verif.Props
open Verif Verif.Spec GoFloat XR

/-- **C71** With a backend that answers with numbers and a positive font size and resolution, the box
mtex.Parse returns has numbers for its dimensions, its height and depth are not negative, and it is not
shifted. -/
theorem C71_dimensions (U : Nat → Bool) (be : Backend XR) (num : GoString → Option XR) (x : GoString) (size dpi : XR)
    (hb : Numeric be) (hn : ∀ t v, num t = some v → IsNum v) (hs : IsPos size) (hd : IsPos dpi) (nd : LHead XR) (cs : List (TNode XR))
    (h : mtexParse U be num x size dpi = .ok (nd, cs)) : ∃ w ht d : ℚ, Measured nd w ht d := by
  obtain ⟨l, hl, e⟩ := (num_closed hb).parse hn ⟨hs, hd⟩ h
  have : nd = hpack LHead.zero (insertKerns be l) zero true := congrArg Prod.fst e
  obtain ⟨⟨w, a⟩, ⟨ht, b0, b⟩, ⟨d, c0, c⟩, s⟩ := hpack_num (fun n hn => (insertKerns_numT hb hl n hn).node) LHead.zero _ IsNum.zero true
  rw [← this] at a b c s
  exact ⟨w, ht, d, a, b, c, by rw [s]; simp [LHead.zero], b0, c0⟩

/-- **C71** ... and shipping it at a point given by numbers draws every glyph and every rectangle at a
place given by numbers, the glyphs in a size and at a resolution that are numbers. -/
theorem C71_drawing (U : Nat → Bool) (be : Backend XR) (num : GoString → Option XR) (x : GoString) (size dpi ox oy : XR)
    (hb : Numeric be) (hn : ∀ t v, num t = some v → IsNum v) (hs : IsPos size) (hd : IsPos dpi) (hx : IsNum ox) (hy : IsNum oy)
    (nd : LHead XR) (cs : List (TNode XR)) (h : mtexParse U be num x size dpi = .ok (nd, cs)) :
    ∃ st cs', shipCall ox oy nd cs = .ok (st, cs') ∧ ∀ d ∈ st.ops, NumDraw d := by
  obtain ⟨st, e⟩ := C67_shippable U be num x size dpi nd cs h ox oy
  refine ⟨st, _, e, ?_⟩
  rw [C70_paint ox oy nd cs st _ e]
  obtain ⟨w, ht, d, hm⟩ := C71_dimensions U be num x size dpi hb hn hs hd nd cs h
  obtain ⟨l, hl, e⟩ := (num_closed hb).parse hn ⟨hs, hd⟩ h
  have hc : cs = insertKerns be l := congrArg Prod.snd e
  refine paintHs_num cs nd ox _ [] ?_ (fun n hn => by cases hn) hx (hy.add ⟨ht, hm.height⟩)
  rw [hc]
  exact insertKerns_numT hb hl

/-! ## The TrueType backend -/

theorem eq_ident {a b : XR} (h : eq a b = true) : a = b := by
  cases a <;> cases b <;> simp_all [GoFloat.eq, XR.eq]

theorem same_ident {a b : TtfKey XR} (h : a.same b = true) : a = b := by
  unfold TtfKey.same at h
  simp only [Bool.and_eq_true, beq_iff_eq] at h
  obtain ⟨⟨⟨⟨h1, h2⟩, h3⟩, h4⟩, h5⟩ := h
  obtain ⟨s, ⟨fn, ft, fs⟩, d⟩ := a
  obtain ⟨s', ⟨fn', ft', fs'⟩, d'⟩ := b
  simp only at h1 h2 h3 h4 h5
  rw [h1, h2, h3, eq_ident h4, eq_ident h5]

theorem ofInt_fin (k : Int) : (ofInt k : XR) = .fin k := by
  show XR.fin _ = _
  simp

theorem ttf_metrics_num (ps : GoString) (adv : Int) (b : Int × Int × Int × Int) (size dpi : ℚ) :
    let m := (ttfMetrics ps adv b (.fin size : XR) (.fin dpi)).1
    IsNum m.advance ∧ IsNum m.width ∧ IsNum m.height ∧ IsNum m.iceberg ∧ IsNum m.ymax ∧ IsNum m.ymin ∧
      m.height = .fin (size / 12 * (b.2.2.2 - b.2.1) / 64) := by
  have d12 : ∀ a : XR, IsNum a → IsNum (a / ofInt 12) := fun a h => h.div (IsNum.int _) (by simp)
  have d64 : ∀ a : XR, IsNum a → IsNum (a / ofInt 64) := fun a h => h.div (IsNum.int _) (by simp)
  have hs : IsNum (.fin size) := ⟨_, rfl⟩
  have hd : IsNum (.fin dpi) := ⟨_, rfl⟩
  have sc := d12 _ hs
  have i : ∀ k : Int, IsNum ((.fin size : XR) / ofInt 12 * ofInt k / ofInt 64) := fun k => d64 _ (sc.mul (IsNum.int k))
  have hh := (i (-b.2.1)).sub (i (-b.2.2.2))
  have ho : IsNum (ttfMetrics ps adv b (.fin size : XR) (.fin dpi)).2 := by
    unfold ttfMetrics
    dsimp only
    split
    · exact (hh.div (IsNum.int _) (by simp)).add
        (((hs.div (IsNum.int _) (by simp)).mul hd).div (IsNum.int _) (by simp))
    · exact IsNum.zero
  refine ⟨?_, (i _).sub (i _), hh, (i _).add ho, (i _).add ho, (i _).add ho, ?_⟩
  · exact d12 _ (((IsNum.int adv).div (IsNum.int _) (by simp)).mul hs)
  · show (.fin size : XR) / ofInt 12 * ofInt (-b.2.1) / ofInt 64 - (.fin size : XR) / ofInt 12 * ofInt (-b.2.2.2) / ofInt 64 = _
    simp only [ofInt_fin]
    rw [fin_div _ _ (by norm_num), fin_mul, fin_div _ _ (by norm_num), fin_mul, fin_div _ _ (by norm_num), fin_sub]
    congr 1
    push_cast
    ring

/-- The numbers used by the layout are numbers. -/
def NumMetrics (m : Metrics XR) : Prop :=
  IsNum m.advance ∧ IsNum m.width ∧ IsNum m.height ∧ IsNum m.iceberg ∧ IsNum m.ymax ∧ IsNum m.ymin

variable {H : Type}

theorem load_num (e : TtfEnv H) (c : GoString) (f : Font XR) (d : XR) (m : Bool) (v : TtfVal XR H) (hs : IsNum f.size) (hd : IsNum d)
    (h : e.load c f d m = .ok v) : NumMetrics v.metrics ∧
      (TallGlyphs e → c ∈ [bs!"(", bs!")", bs!"\\__sqrt__"] → IsPos f.size → v.metrics.height ≠ .fin 0) := by
  obtain ⟨sz, hsz⟩ := hs
  obtain ⟨dp, hdp⟩ := hd
  unfold TtfEnv.load at h
  obtain ⟨⟨ft, rn⟩, hg, h⟩ := Res.bind_eq_ok.1 h
  dsimp only at h
  split at h
  · cases h
  split at h
  · cases h
  rename_i idx hidx
  split at h
  · cases h
  split at h
  · cases h
  split at h
  · cases h
  split at h
  · cases h
  split at h
  · cases h
  rename_i b hbd
  simp only [Res.ok.injEq] at h
  subst h
  rw [hsz, hdp]
  refine ⟨⟨(ttf_metrics_num _ _ b sz dp).1, (ttf_metrics_num _ _ b sz dp).2.1, (ttf_metrics_num _ _ b sz dp).2.2.1,
    (ttf_metrics_num _ _ b sz dp).2.2.2.1, (ttf_metrics_num _ _ b sz dp).2.2.2.2.1, (ttf_metrics_num _ _ b sz dp).2.2.2.2.2.1⟩,
    fun ht hc hp => ?_⟩
  obtain ⟨q, hq, e2⟩ := hp
  cases e2
  have := ht c hc f m ft rn idx b hg hidx hbd
  dsimp only
  rw [(ttf_metrics_num _ _ b sz dp).2.2.2.2.2.2]
  intro e3
  simp only [XR.fin.injEq, div_eq_zero_iff, mul_eq_zero] at e3
  have hne : ((b.2.2.2 : ℚ) - b.2.1) ≠ 0 := by
    intro e4
    exact this (by exact_mod_cast (sub_eq_zero.1 e4).symm)
  rcases e3 with (((e3 | e3) | e3) | e3)
  · exact absurd e3 hq.ne'
  · norm_num at e3
  · exact hne e3
  · norm_num at e3

theorem numMetrics_zero : NumMetrics (TtfVal.metrics (H := H) .zero) :=
  ⟨IsNum.zero, IsNum.zero, IsNum.zero, IsNum.zero, IsNum.zero, IsNum.zero⟩

theorem IsNum.self {a : XR} (h : IsNum a) : eq a a = true := by obtain ⟨q, rfl⟩ := h; simp

theorem key_num {c : GoString} {f : Font XR} {d : XR} (hs : IsNum f.size) (hd : IsNum d) :
    TtfKey.same ⟨c, f, d⟩ ⟨c, f, d⟩ = true := by
  unfold TtfKey.same
  simp [IsNum.self hs, IsNum.self hd]

theorem getInfo_num (e : TtfEnv H) {B : TextAt XR} (s : TtfSt XR H) (hS : e.Sound B s) (c : GoString) (f : Font XR) (d : XR) (m : Bool)
    (v : TtfVal XR H) (s' : TtfSt XR H) (hs : IsNum f.size) (hd : IsNum d) (h : e.getInfo c f d m s = (.ok v, s')) :
    ∃ m', e.load c f d m' = .ok v := by
  rcases getInfo_cases e c f d m s with ⟨v', h1, h2⟩ | ⟨h0, v', hl, h2⟩ | ⟨-, p, -, h2⟩ | ⟨-, -, h2⟩ <;> rw [h2] at h
  · cases h
    obtain ⟨k, hk, hks⟩ := TtfSt.find_some h1
    obtain ⟨m', -, hv⟩ := hS.loaded k _ hk
    rw [same_ident hks] at hv
    exact ⟨m', hv⟩
  · simp only [answer, key_num hs hd, if_true] at h
    cases h
    exact ⟨m, hl⟩
  · cases h
  · cases h

theorem ttf_numeric (e : TtfEnv H) {B : TextAt XR} (s : TtfSt XR H) (hS : e.Sound B s) (ht : TallGlyphs e) :
    Numeric (e.backend (false, s)) := by
  have key : ∀ c f d m, IsNum f.size → IsNum d → (e.backend (false, s)).known c f d m = true →
      NumMetrics ((e.backend (false, s)).metrics c f d m) ∧
      (c ∈ [bs!"(", bs!")", bs!"\\__sqrt__"] → IsPos f.size → ((e.backend (false, s)).metrics c f d m).height ≠ .fin 0) := by
    intro c f d m hs hd hk
    simp only [TtfEnv.backend, Bool.and_eq_true] at hk
    simp only [TtfEnv.backend]
    unfold TtfEnv.metrics at hk ⊢
    cases hg : e.getInfo c f d m s with
    | mk r s' =>
      rw [hg] at hk
      cases r with
      | ok v =>
        obtain ⟨m', hl⟩ := getInfo_num e s hS c f d m v s' hs hd hg
        obtain ⟨h1, h2⟩ := load_num e c f d m' v hs hd hl
        exact ⟨h1, h2 ht⟩
      | panic p => simp at hk
      | fuel => simp at hk
  refine ⟨fun c f d m a b h => (key c f d m a b h).1.1, fun c f d m a b h => (key c f d m a b h).1.2.1,
    fun c f d m a b h => (key c f d m a b h).1.2.2.1, fun c f d m a b h => (key c f d m a b h).1.2.2.2.1,
    fun c f d m a b h => (key c f d m a b h).1.2.2.2.2.1, fun c f d m a b h => (key c f d m a b h).1.2.2.2.2.2, ?_, ?_, ?_⟩
  · intro f c f' c' d hf hf' hd
    simp only [TtfEnv.backend]
    unfold TtfEnv.kern
    repeat' split
    all_goals first | exact IsNum.zero | skip
    all_goals (rename_i hk; revert hk; repeat' split)
    all_goals (intro hk; cases hk)
    all_goals first | exact IsNum.zero | exact (IsNum.int _).div (IsNum.int _) (by simp)
  · intro f d hf hd
    exact (((IsNum.rat _ _).mul hf).mul hd).div (IsNum.int _) (by simp)
  · intro c f d hc hs hd hk
    exact (key c f d true hs.num hd.num hk).2 hc hs

theorem drawn_num {e : TtfEnv H} {l : List (Draw XR)} {ops : List (COp XR H)} (hf : List.Forall₂ (DrawnAs e) l ops)
    (hdr : ∀ d ∈ l, NumDraw d) : ∀ op ∈ ops, NumOp op := by
  induction hf with
  | nil => intro op h; cases h
  | @cons d op l ops h1 _ ih =>
    intro op' hop
    rcases List.mem_cons.1 hop with rfl | hop
    · have hdn := hdr d (by simp)
      cases d with
      | rect => rw [show op' = _ from h1]; exact hdn
      | glyph x y f c dpi =>
        obtain ⟨g, rfl, _⟩ := h1
        exact ⟨hdn.1, hdn.2.1⟩
    · exact ih (fun d hd => hdr d (by simp [hd])) op' hop

/-- **C71** mtex.Render at a positive size, with fonts whose parentheses and radical are not flat: the
renderer is given numbers for the dimensions, the width and height of the page, and all operations on the
canvas are at places given by numbers. -/
theorem C71_render (U : Nat → Bool) (e : TtfEnv H) (num : GoString → Option XR) (x : GoString) (size dpi : XR)
    (hk : e.KernFine) (ht : TallGlyphs e) (hn : ∀ t v, num t = some v → IsNum v) (hs : IsPos size) (c : RenderCall XR H)
    (h : renderT U e num x size dpi = .ok c) :
    IsNum c.w ∧ (∃ q : ℚ, 0 ≤ q ∧ c.h = .fin q) ∧ ∀ op ∈ c.ops, NumOp op := by
  have h72 : eq (ofInt 72 : XR) (ofInt 72) = true := IsNum.self (IsNum.int _)
  have p72 : IsPos (ofInt 72 : XR) := ⟨72, by norm_num, by rw [ofInt_fin]; simp⟩
  unfold renderT at h
  obtain ⟨⟨⟨hd, cs⟩, s⟩, hp, h⟩ := Res.bind_eq_ok.1 h
  obtain ⟨⟨st, cs'⟩, hsh, h⟩ := Res.bind_eq_ok.1 h
  obtain ⟨⟨u, s'⟩, hr, h⟩ := Res.bind_eq_ok.1 h
  cases h
  have hsim := sim_parse U e num x size (ofInt 72) ⟨hk, h72⟩ .new (sound_new e)
  unfold Simul at hsim
  rw [hp] at hsim
  obtain ⟨hx, hS, hc, -, hb⟩ := hsim
  have hparse := hb false s (.refl s) hS
  have hnum := ttf_numeric e s hS ht
  obtain ⟨ops, ho, hf⟩ := runDraws_ops e st.ops s s' hS hr
  obtain ⟨w, a, d, hm⟩ := C71_dimensions U _ num x size _ hnum hn hs p72 hd cs hparse
  obtain ⟨st2, cs2, hsh2, hdr⟩ := C71_drawing U _ num x size _ zero zero hnum hn hs p72 IsNum.zero IsNum.zero hd cs hparse
  dsimp only at hsh
  rw [hsh] at hsh2
  cases hsh2
  dsimp only
  refine ⟨?_, ?_, ?_⟩
  · rw [hm.width, ofInt_fin, fin_div _ _ (by norm_num)]; exact ⟨_, rfl⟩
  · rw [hm.height, hm.depth, ofInt_fin, zero_fin, fin_max, fin_add]
    have ha := hm.above
    have hb := hm.below
    refine ⟨⌈a + max d 0⌉ / 72, ?_, ?_⟩
    · have : (0 : ℚ) ≤ a + max d 0 := add_nonneg ha (le_max_right _ _)
      have : (0 : ℤ) ≤ ⌈a + max d 0⌉ := Int.ceil_nonneg this
      have : (0 : ℚ) ≤ (⌈a + max d 0⌉ : ℤ) := by exact_mod_cast this
      positivity
    · show (XR.fin _ : XR) / _ = _
      rw [fin_div _ _ (by norm_num)]
      norm_num
  · rw [ho, hc]
    show ∀ op ∈ ([] : List (COp XR H)) ++ ops, NumOp op
    rw [List.nil_append]
    exact drawn_num hf hdr

/-! ## Concrete cases -/

example : Numeric exBe where
  advance _ _ _ _ h _ _ := h
  width _ _ _ _ h _ _ := h
  height _ _ _ _ h _ _ := h
  iceberg _ _ _ _ h _ _ := h
  ymax _ _ _ _ h _ _ := h
  ymin _ _ _ _ _ _ _ := ⟨0, rfl⟩
  kern f c f' c' d _ _ _ := by
    show IsNum (if _ then _ else _)
    split
    · exact ⟨_, rfl⟩
    · exact ⟨_, rfl⟩
  underline _ _ _ _ := ⟨1, rfl⟩
  tall c f d _ hp _ _ := by
    obtain ⟨q, hq, e⟩ := hp
    show f.size ≠ _
    rw [e]
    intro h
    cases h
    exact lt_irrefl _ hq

example : TallGlyphs exEnv := by
  intro c hc f m ft rn idx b hg hi hb
  have h0 : ∀ c ∈ [bs!"(", bs!")", bs!"\\__sqrt__"], ∀ m, tex2unicodeIndex c m ≠ .ok 0 := by decide +kernel
  cases hi
  cases hb
  unfold TtfEnv.getGlyph at hg
  obtain ⟨r, hr, hg⟩ := Res.bind_eq_ok.1 hg
  dsimp only at hg
  split at hg
  · cases hg
  · cases hg
    have : rn ≠ 0 := fun e => h0 c hc m (by rw [hr, e])
    simp [this]

/-- **C71** The size must be positive: at size 0 a radical has no dimensions. -/
theorem C71_zero : (match mtexParse exU exBe exNum bs!"$\\sqrt{x}$" (.fin 0) (.fin 72) with
    | .ok (hd, _) => some (hd.box.width, hd.box.height) | _ => none) = some (.nan, .nan) := by decide +kernel

end Verif.Props
