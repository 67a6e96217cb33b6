import Verif.Props.Ttf
import Verif.Props.Scale
/-! # C68 and C74: kerning -/

namespace Verif.Props
open Verif Verif.Spec GoFloat
variable {F H : Type} [GoFloat F]

/-- **C74** Between fonts of different names or sizes there is no kerning; the backend is not changed. -/
theorem C74_other (e : TtfEnv H) (s : TtfSt F H) (f1 f2 : Font F) (c1 c2 : GoString) (d : F)
    (h : f1.name ≠ f2.name ∨ eq f1.size f2.size = false) : e.kern f1 c1 f2 c2 d s = (.ok zero, s) := by
  unfold TtfEnv.kern
  rw [if_neg]
  rintro ⟨h1, h2⟩
  rcases h with h | h
  · exact h h1
  · rw [h] at h2; cases h2

/-- What is asked of the library for a symbol in a font of some type: face, name, rune, glyph, glyph name, advance, bounds. -/
def faceOf (e : TtfEnv H) (c : GoString) (typ : GoString) (m : Bool) :
    Res (H × GoString × Nat × Nat × GoString × Int × (Int × Int × Int × Int)) :=
  e.getGlyph (F := F) c ⟨[], typ, zero⟩ m >>= fun (ft, rn) =>
    match e.lib.name ft with
    | none => .panic (.other "could not retrieve postscript name of font")
    | some postscript =>
    match e.lib.glyphIndex ft rn with
    | none => .panic (.other "could not retrieve glyph index")
    | some idx =>
    match e.lib.glyphName ft idx with
    | none => .panic (.other "could not retrieve glyph name")
    | some symName =>
    if e.lib.loadGlyph ft idx (e.lib.unitsPerEm ft * 6 * 64) = false then .panic (.other "could not load glyph")
    else
    match e.lib.glyphAdvance ft idx (e.lib.unitsPerEm ft * 6 * 64) with
    | none => .panic (.other "could not retrieve glyph advance")
    | some adv =>
    if e.lib.loadGlyph ft idx (e.lib.unitsPerEm ft) = false then .panic (.other "could not load glyph")
    else
    match e.lib.glyphBounds ft idx (12 * 64) with
    | none => .panic (.other "GlyphBounds")
    | some b => .ok (ft, postscript, rn, idx, symName, adv, b)

theorem load_face (e : TtfEnv H) (c : GoString) (f : Font F) (d : F) (m : Bool) :
    e.load c f d m = faceOf (F := F) e c f.typ m >>= fun q =>
      .ok ⟨some q.1, f.size, q.2.1, (ttfMetrics q.2.1 q.2.2.2.2.2.1 q.2.2.2.2.2.2 f.size d).1, q.2.2.2.2.1, q.2.2.1, q.2.2.2.1,
        (ttfMetrics q.2.1 q.2.2.2.2.2.1 q.2.2.2.2.2.2 f.size d).2, e.slanted c f q.2.2.1⟩ := by
  have hg : e.getGlyph c f m = e.getGlyph (F := F) c ⟨[], f.typ, zero⟩ m := rfl
  unfold TtfEnv.load faceOf
  rw [hg]
  cases e.getGlyph (F := F) c ⟨[], f.typ, zero⟩ m with
  | panic p => rfl
  | fuel => rfl
  | ok q =>
    obtain ⟨ft, rn⟩ := q
    simp only [Res.ok_bind]
    cases e.lib.name ft with
    | none => rfl
    | some ps =>
    cases e.lib.glyphIndex ft rn with
    | none => rfl
    | some idx =>
    dsimp only
    cases e.lib.glyphName ft idx with
    | none => rfl
    | some sn =>
    dsimp only
    generalize e.lib.unitsPerEm ft = upm
    cases e.lib.loadGlyph ft idx (upm * 6 * 64) with
    | false => rfl
    | true =>
    simp only [Bool.true_eq_false, if_false]
    cases e.lib.glyphAdvance ft idx (upm * 6 * 64) with
    | none => rfl
    | some adv =>
    cases e.lib.loadGlyph ft idx upm with
    | false => rfl
    | true =>
    simp only [Bool.true_eq_false, if_false]
    cases e.lib.glyphBounds ft idx (12 * 64) with
    | none => rfl
    | some b => rfl

/-- In a history that asks in math mode only, the map is transparent to calls in math mode. -/
theorem getInfo_math [EqLaws F] (e : TtfEnv H) (c : GoString) (f : Font F) (d : F) (s : TtfSt F H) (hl : Loaded e (· = true) s)
    (hf : Ordinary f.size) (hd : Ordinary d) :
    (e.getInfo c f d true s).1 = e.load c f d true ∧ Loaded e (· = true) (e.getInfo c f d true s).2 := by
  refine ⟨?_, getInfo_loaded e _ c f d true s hl rfl⟩
  rcases getInfo_cases e c f d true s with ⟨v, h1, h2⟩ | ⟨h0, v, hlo, h2⟩ | ⟨-, p, hlo, h2⟩ | ⟨-, hlo, h2⟩
  · obtain ⟨k, hk, hks⟩ := TtfSt.find_some h1
    obtain ⟨m', rfl, hv⟩ := hl k v hk
    rw [key_ident c f d hf hd k hks] at hv
    rw [h2, hv]
  · rw [h2, hlo]; simp only [answer, key_self c f d hf hd, if_true]
  · rw [h2, hlo]
  · rw [h2, hlo]

/-- The number Kern makes of the answer of the library. -/
def kernAnswer : KernAns → Res F
  | .ok k => .ok (ofInt k / ofInt 64)
  | .notFound => .ok zero
  | .err => .panic (.other "could not compute kerning")

theorem kern_math [EqLaws F] (e : TtfEnv H) (s : TtfSt F H) (hl : Loaded e (· = true) s) (f1 f2 : Font F) (c1 c2 : GoString) (d : F)
    (hn : f1.name = f2.name) (hs : eq f1.size f2.size = true) (h1 : Ordinary f1.size) (h2 : Ordinary f2.size) (hd : Ordinary d) :
    (e.kern f1 c1 f2 c2 d s).1 = faceOf (F := F) e c1 f1.typ true >>= fun q1 => faceOf (F := F) e c2 f2.typ true >>= fun q2 =>
      kernAnswer (e.lib.kern q1.1 q1.2.2.2.1 q2.2.2.2.1 (e.lib.unitsPerEm q1.1)) := by
  obtain ⟨a1, a2⟩ := getInfo_math e c1 f1 d s hl h1 hd
  obtain ⟨b1, -⟩ := getInfo_math e c2 f2 d _ a2 h2 hd
  rw [load_face] at a1 b1
  unfold TtfEnv.kern
  rw [if_pos ⟨hn, hs⟩]
  revert a1 b1
  generalize e.getInfo c1 f1 d true s = r1
  obtain ⟨r1, s1⟩ := r1
  dsimp only
  intro a1 b1
  subst a1
  cases faceOf (F := F) e c1 f1.typ true with
  | panic p => rfl
  | fuel => rfl
  | ok q1 =>
    simp only [Res.ok_bind]
    revert b1
    generalize e.getInfo c2 f2 d true s1 = r2
    obtain ⟨r2, s2⟩ := r2
    dsimp only
    intro b1
    subst b1
    cases faceOf (F := F) e c2 f2.typ true with
    | panic p => rfl
    | fuel => rfl
    | ok q2 =>
      simp only [Res.ok_bind]
      cases e.lib.kern q1.1 q1.2.2.2.1 q2.2.2.2.1 (e.lib.unitsPerEm q1.1) <;> rfl

/-- **C74** Kern(ft1, sym1, ft2, sym2, dpi) of a TrueType backend does not depend on the size of the fonts nor on the
resolution: text in 6 points is kerned by the same number of points as text in 60 points.  (After any history of
calls that ask for glyphs in math mode; `Kern` itself and `RenderGlyph` do.) -/
theorem C74_size [EqLaws F] (e : TtfEnv H) (l l' : List (TtfCall F)) (hl : ∀ call ∈ l, ∀ m, call.asks m → m = true)
    (hl' : ∀ call ∈ l', ∀ m, call.asks m → m = true) (n t1 t2 c1 c2 : GoString) (s s' d d' : F)
    (h1 : Ordinary s) (h2 : Ordinary s') (h3 : Ordinary d) (h4 : Ordinary d') :
    (e.kern ⟨n, t1, s⟩ c1 ⟨n, t2, s⟩ c2 d (runCalls e l .new)).1 = (e.kern ⟨n, t1, s'⟩ c1 ⟨n, t2, s'⟩ c2 d' (runCalls e l' .new)).1 := by
  have L : ∀ l : List (TtfCall F), (∀ call ∈ l, ∀ m, call.asks m → m = true) → Loaded e (· = true) (runCalls e l .new) :=
    fun l hl => runCalls_loaded e _ l _ (loaded_new e _) (fun c hc m hm => hl c hc m hm)
  rw [kern_math e _ (L l hl) ⟨n, t1, s⟩ ⟨n, t2, s⟩ c1 c2 d rfl h1.1 h1 h1 h3,
    kern_math e _ (L l' hl') ⟨n, t1, s'⟩ ⟨n, t2, s'⟩ c1 c2 d' rfl h2.1 h2 h2 h4]

/-- **C74** It is what the library says about the two glyph numbers in the face of the first symbol, even if the second symbol
is in another face, where its number was looked up. -/
theorem C74_value [EqLaws F] (e : TtfEnv H) (l : List (TtfCall F)) (hl : ∀ call ∈ l, ∀ m, call.asks m → m = true)
    (n t1 t2 c1 c2 : GoString) (s d : F) (hs : Ordinary s) (hd : Ordinary d) (m1 m2 : Metrics F)
    (h1 : freshMetrics e c1 ⟨n, t1, s⟩ d true = .ok m1) (h2 : freshMetrics e c2 ⟨n, t2, s⟩ d true = .ok m2) :
    ∃ ft1 r1 g1 ft2 r2 g2, e.getGlyph (F := F) c1 ⟨n, t1, s⟩ true = .ok (ft1, r1) ∧ e.lib.glyphIndex ft1 r1 = some g1 ∧
      e.getGlyph (F := F) c2 ⟨n, t2, s⟩ true = .ok (ft2, r2) ∧ e.lib.glyphIndex ft2 r2 = some g2 ∧
      (e.kern ⟨n, t1, s⟩ c1 ⟨n, t2, s⟩ c2 d (runCalls e l .new)).1 = kernAnswer (e.lib.kern ft1 g1 g2 (e.lib.unitsPerEm ft1)) := by
  have L : Loaded e (· = true) (runCalls e l .new) := runCalls_loaded e _ l _ (loaded_new e _) (fun c hc m hm => hl c hc m hm)
  rw [kern_math e _ L ⟨n, t1, s⟩ ⟨n, t2, s⟩ c1 c2 d rfl hs.1 hs hs hd]
  have key : ∀ c t m, freshMetrics e c ⟨n, t, s⟩ d true = .ok m → ∃ ft r g q, faceOf (F := F) e c t true = .ok q ∧ q.1 = ft ∧ q.2.2.2.1 = g ∧
      e.getGlyph (F := F) c ⟨n, t, s⟩ true = .ok (ft, r) ∧ e.lib.glyphIndex ft r = some g := by
    intro c t m h
    rw [fresh_eq e c ⟨n, t, s⟩ d true hs hd] at h
    obtain ⟨v, hv, -⟩ := Res.bind_eq_ok.1 h
    rw [load_face] at hv
    obtain ⟨q, hq, -⟩ := Res.bind_eq_ok.1 hv
    have hq' := hq
    unfold faceOf at hq
    obtain ⟨⟨ft, rn⟩, hg, hq⟩ := Res.bind_eq_ok.1 hq
    dsimp only at hq
    split at hq
    · cases hq
    split at hq
    · cases hq
    rename_i idx hi
    refine ⟨ft, rn, idx, q, hq', ?_, ?_, hg, hi⟩
    all_goals
      repeat' split at hq
      all_goals cases hq
      rfl
  obtain ⟨ft1, r1, g1, q1, a1, a2, a3, a4, a5⟩ := key c1 t1 m1 h1
  obtain ⟨ft2, r2, g2, q2, b1, b2, b3, b4, b5⟩ := key c2 t2 m2 h2
  refine ⟨ft1, r1, g1, ft2, r2, g2, a4, a5, b4, b5, ?_⟩
  rw [a1, Res.ok_bind, b1, Res.ok_bind, a2, a3, b3]

/-! ## Witness -/

/-- The library of the examples, with kerning: glyph numbers as units. -/
def kernLib : Sfnt Unit := { exLib with kern := fun _ a b _ => if a = 65 ∧ b = 86 then .ok (-128) else .notFound }
def kernEnv : TtfEnv Unit := { exEnv with lib := kernLib }

example : (kernEnv.kern (F := XR) ⟨[], bs!"rm", .fin 6⟩ bs!"A" ⟨[], bs!"rm", .fin 6⟩ bs!"V" (.fin 72) .new).1 = .ok (.fin (-2)) ∧
    (kernEnv.kern ⟨[], bs!"rm", (.fin 60 : XR)⟩ bs!"A" ⟨[], bs!"rm", .fin 60⟩ bs!"V" (.fin 300) .new).1 = .ok (.fin (-2)) ∧
    (kernEnv.kern (F := XR) ⟨[], bs!"rm", .fin 6⟩ bs!"A" ⟨[], bs!"rm", .fin 7⟩ bs!"V" (.fin 72) .new).1 = .ok (.fin 0) := by
  decide +kernel
example : (∃ m, freshMetrics (F := XR) kernEnv bs!"A" ⟨[], bs!"rm", .fin 6⟩ (.fin 72) true = .ok m) ∧
    (∃ m, freshMetrics (F := XR) kernEnv bs!"V" ⟨[], bs!"rm", .fin 6⟩ (.fin 72) true = .ok m) :=
  ⟨⟨⟨_, _, _, _, _, _, _, _⟩, rfl⟩, ⟨⟨_, _, _, _, _, _, _, _⟩, rfl⟩⟩

/-! ## C68 -/
section
open XR

/-- What follows in the list, to which a character may be kerned: the font and the symbol. -/
def kernNext : Option (TNode XR) → Option (Font XR × GoString)
  | some (.char n) => some (n.font, n.c)
  | some (.accent n) => some (n.font, n.c)
  | _ => none

/-- What the backend says about two neighbours. -/
def pairKern (be : Backend XR) (c : CharD XR) (next : Option (TNode XR)) : XR :=
  match kernNext next with
  | some (f, s) => be.kern c.font c.c f s c.dpi
  | none => .fin 0

theorem kerning_pair (be : Backend XR) (c : CharD XR) (next : Option (TNode XR)) :
    (TNode.char c).kerning be next = (c.metrics.advance - c.width) + pairKern be c next := by
  unfold TNode.kerning CharD.kerning pairKern kernNext
  cases next with
  | none => simp only [zero_fin]
  | some n => cases n <;> simp only [zero_fin]

theorem applyOps_char (be : Backend XR) (c : CharD XR) (ops : List SizeOp) :
    ∃ c', applyOps be (.char c) ops = .char c' ∧ c'.metrics = c.metrics ∧ c'.c = c.c ∧ c'.dpi = c.dpi ∧ c'.math = c.math ∧
      c'.font.name = c.font.name ∧ c'.font.typ = c.font.typ ∧ c'.font.size = c.font.size * .fin (factor c.size ops) := by
  induction ops generalizing c with
  | nil => exact ⟨c, rfl, rfl, rfl, rfl, rfl, rfl, rfl, by simp [factor]⟩
  | cons o l ih =>
    cases o with
    | grow =>
      obtain ⟨c', h1, h2, h3, h4, h5, h6, h7, h8⟩ := ih c.grow
      refine ⟨c', h1, h2, h3, h4, h5, h6, h7, ?_⟩
      rw [h8]
      simp only [CharD.grow, growFactor_fin, factor, mul_mul' _ (by norm_num : (0:ℚ) < 10 / 7) (factor_pos _ _)]
    | shrink =>
      obtain ⟨c', h1, h2, h3, h4, h5, h6, h7, h8⟩ := ih c.shrink
      have hs : c.shrink.metrics = c.metrics ∧ c.shrink.c = c.c ∧ c.shrink.dpi = c.dpi ∧ c.shrink.math = c.math ∧
          c.shrink.font.name = c.font.name ∧ c.shrink.font.typ = c.font.typ ∧ c.shrink.size = c.size - 1 := by
        unfold CharD.shrink; split <;> simp
      refine ⟨c', h1, by rw [h2, hs.1], by rw [h3, hs.2.1], by rw [h4, hs.2.2.1], by rw [h5, hs.2.2.2.1], by rw [h6, hs.2.2.2.2.1],
        by rw [h7, hs.2.2.2.2.2.1], ?_⟩
      rw [h8, hs.2.2.2.2.2.2]
      have hlt : c.size - 1 < numSizeLevels ↔ c.size ≤ 6 := by unfold numSizeLevels; omega
      by_cases h : c.size ≤ 6
      · simp only [CharD.shrink, hlt, h, if_true, shrinkFactor_fin, factor, mul_mul' _ (by norm_num : (0:ℚ) < 7 / 10) (factor_pos _ _)]
      · simp only [CharD.shrink, hlt, h, if_false, factor, one_mul]

/-- **C68** (exact) `Shrink` and `Grow` scale the width of a character but not its advance: after any history of calls, `Kerning(next)` of a
character from `NewChar` is its unscaled advance minus the scaled width, plus what the backend says about the pair. -/
theorem C68_history (be : Backend XR) (sym : GoString) (st : TState XR) (math : Bool) (c : CharD XR)
    (h : newChar be sym st math = .ok c) (ops : List SizeOp) (next : Option (TNode XR)) :
    ∃ c', applyOps be (.char c) ops = .char c' ∧
      (TNode.char c').kerning be next =
        ((be.metrics sym st.font st.dpi math).advance - c.width * .fin (factor 0 ops)) + pairKern be c' next := by
  unfold newChar at h
  split at h
  · cases h
    obtain ⟨c', h1, h2, -⟩ := applyOps_char be ((rawChar sym st math).updateMetrics be) ops
    refine ⟨c', h1, ?_⟩
    have hw := C46_history be (.char ((rawChar sym st math).updateMetrics be)) rfl ops
    rw [h1] at hw
    simp only [dims, Prod.mk.injEq] at hw
    rw [kerning_pair, h2]
    have : c'.width = ((rawChar sym st math).updateMetrics be).width * .fin (factor 0 ops) := hw.1
    rw [this]
    rfl
  · cases h

/-- **C68** (exact) If the metrics of a symbol are proportional to the font size (advance `a`, width `w` at size `s`), the character scaled by a
history of `Shrink` and `Grow` with factor `f` has the width and the font of the one made at that size in the first place, but is followed by
`(1 − f) · a` more room.  (Nothing to kern with follows; a space is as wide as its advance.) -/
theorem C68_excess (be : Backend XR) (sym : GoString) (st : TState XR) (math : Bool) (hsp : sym ≠ bs!" ") (ops : List SizeOp) (a w : ℚ)
    (hk : be.known sym st.font st.dpi math = true)
    (ha : (be.metrics sym st.font st.dpi math).advance = .fin a) (hw : (be.metrics sym st.font st.dpi math).width = .fin w)
    (hk' : be.known sym { st.font with size := st.font.size * .fin (factor 0 ops) } st.dpi math = true)
    (ha' : (be.metrics sym { st.font with size := st.font.size * .fin (factor 0 ops) } st.dpi math).advance = .fin (factor 0 ops * a))
    (hw' : (be.metrics sym { st.font with size := st.font.size * .fin (factor 0 ops) } st.dpi math).width = .fin (factor 0 ops * w)) :
    ∃ c c' d, newChar be sym st math = .ok c ∧ applyOps be (.char c) ops = .char c' ∧
      newChar be sym { st with font := { st.font with size := st.font.size * .fin (factor 0 ops) } } math = .ok d ∧
      c'.width = d.width ∧ c'.font = d.font ∧
      (TNode.char d).kerning be none = .fin (factor 0 ops * (a - w)) ∧
      (TNode.char c').kerning be none = .fin (factor 0 ops * (a - w) + (1 - factor 0 ops) * a) := by
  have hc : newChar be sym st math = .ok ((rawChar sym st math).updateMetrics be) := by
    unfold newChar; rw [if_pos hk]
  obtain ⟨c', h1, h2, -, -, -, h6, h7, h8⟩ := applyOps_char be ((rawChar sym st math).updateMetrics be) ops
  have hcw : ((rawChar sym st math).updateMetrics be).width = .fin w := by
    simp only [CharD.updateMetrics, rawChar, hsp, if_false, hw]
  have hca : ((rawChar sym st math).updateMetrics be).metrics.advance = .fin a := ha
  have hh := C46_history be (.char ((rawChar sym st math).updateMetrics be)) rfl ops
  rw [h1] at hh
  simp only [dims, Prod.mk.injEq, TNode.width] at hh
  have hw2 : c'.width = .fin (w * factor 0 ops) := by rw [hh.1, hcw]; rfl
  refine ⟨_, c', (rawChar sym { st with font := { st.font with size := st.font.size * .fin (factor 0 ops) } } math).updateMetrics be,
    hc, h1, ?_, ?_, ?_, ?_, ?_⟩
  · unfold newChar; rw [if_pos hk']
  · rw [hw2]; simp only [CharD.updateMetrics, rawChar, hsp, if_false, hw', mul_comm]
  · have e : c'.font = ⟨c'.font.name, c'.font.typ, c'.font.size⟩ := rfl
    rw [e, h6, h7, h8]; rfl
  · rw [kerning_pair]
    simp only [CharD.updateMetrics, rawChar, hsp, if_false, hw', ha', pairKern, kernNext, fin_sub, fin_add]
    congr 1; ring
  · rw [kerning_pair, h2, hca, hw2]
    simp only [pairKern, kernNext, fin_sub, fin_add]
    congr 1; ring

/-- A backend in which a glyph is 1/2 em wide and advances by 1 em. -/
def exBk : Backend XR := ⟨fun _ _ _ _ _ => .fin 0, fun _ f _ _ => ⟨f.size, f.size, f.size * .fin (1 / 2), .fin 0, f.size, .fin 0, f.size, f.size⟩,
  fun _ _ _ _ => true, fun _ _ => some (.fin 0), fun _ _ => .fin 1⟩

example : ((TNode.char ((rawChar bs!"x" ⟨⟨[], [], .fin 10⟩, .fin 72⟩ true).updateMetrics exBk)).kerning exBk none,
    (applyOps exBk (.char ((rawChar bs!"x" ⟨⟨[], [], .fin 10⟩, .fin 72⟩ true).updateMetrics exBk)) [.shrink]).kerning exBk none) =
    (.fin 5, .fin (13 / 2)) := by decide +kernel
end

end Verif.Props
