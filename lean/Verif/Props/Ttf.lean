import Verif.Lemmas.Ttf
import Verif.Lemmas.Exact
/-! # C63, C64: the TrueType backend and the canvas -/

namespace Verif.Props
open Verif Verif.Spec GoFloat
variable {F H : Type} [GoFloat F]

theorem key_self (c : GoString) (f : Font F) (d : F) (hf : Ordinary f.size) (hd : Ordinary d) :
    TtfKey.same ⟨c, f, d⟩ ⟨c, f, d⟩ = true := by
  simp only [TtfKey.same, beq_self_eq_true, hf.1, hd.1, Bool.and_true]

theorem key_ident [EqLaws F] (c : GoString) (f : Font F) (d : F) (hf : Ordinary f.size) (hd : Ordinary d) (k : TtfKey F)
    (h : k.same ⟨c, f, d⟩ = true) : k = ⟨c, f, d⟩ := by
  have hs := h
  simp only [TtfKey.same, Bool.and_eq_true, beq_iff_eq] at h
  obtain ⟨⟨⟨⟨h1, h2⟩, h3⟩, h4⟩, h5⟩ := h
  have key : ∀ a b : F, eq a b = true → Ordinary b → a = b := by
    intro a b hab hb
    rcases EqLaws.ident b a (EqLaws.symm _ _ hab) with h | h
    · exact h.symm
    · rw [hb.2] at h; cases h
  obtain ⟨ks, ⟨kn, kt, kz⟩, kd⟩ := k
  obtain ⟨fn, ft, fz⟩ := f
  dsimp only at *
  rw [h1, h2, h3, key _ _ h4 hf, key _ _ h5 hd]

theorem fresh_eq [EqLaws F] (e : TtfEnv H) (c : GoString) (f : Font F) (d : F) (m : Bool) (hf : Ordinary f.size) (hd : Ordinary d) :
    freshMetrics e c f d m = (e.load c f d m >>= fun v => .ok v.metrics) := by
  unfold freshMetrics TtfEnv.metrics
  rcases getInfo_cases e c f d m .new with ⟨v, h1, h2⟩ | ⟨h0, v, hl, h2⟩ | ⟨-, p, hl, h2⟩ | ⟨-, hl, h2⟩
  · cases h1
  · rw [h2, hl]; simp only [answer, key_self c f d hf hd, if_true, Res.ok_bind]
  · rw [h2, hl]; rfl
  · rw [h2, hl]; rfl

/-- **C63** Once Metrics has answered for a symbol, a font and a resolution, it gives that same
answer for ever, whichever mode is asked for and whatever is called in between. -/
theorem C63_stable [EqLaws F] (e : TtfEnv H) (l1 l2 : List (TtfCall F)) (c : GoString) (f : Font F) (d : F) (m m' : Bool)
    (hf : Ordinary f.size) (hd : Ordinary d) (r : Metrics F)
    (h : (e.metrics c f d m (runCalls e l1 .new)).1 = .ok r) :
    (e.metrics c f d m' (runCalls e (l1 ++ .metrics c f d m :: l2) .new)).1 = .ok r := by
  have hx : (e.getInfo c f d m (runCalls e l1 .new)).2.Ext (runCalls e (l1 ++ .metrics c f d m :: l2) .new) := by
    have : runCalls e (l1 ++ .metrics c f d m :: l2) .new =
        runCalls e l2 (e.getInfo c f d m (runCalls e l1 .new)).2 := by
      rw [← metrics_snd]
      unfold runCalls
      rw [List.foldl_append, List.foldl_cons]
      rfl
    rw [this]
    exact runCalls_ext e l2 _
  rcases hg : e.getInfo c f d m (runCalls e l1 .new) with ⟨q, s'⟩
  have hq : (e.metrics c f d m (runCalls e l1 .new)).1 = (q >>= fun v => .ok v.metrics) := by
    unfold TtfEnv.metrics; rw [hg]; cases q <;> rfl
  rw [hq] at h
  cases q with
  | ok v =>
    have := getInfo_stable e c f d m m' _ _ v (by rw [hg]) hx (key_self c f d hf hd)
    unfold TtfEnv.metrics
    rw [this]
    exact h
  | panic p => cases h
  | fuel => cases h

/-- **C63** Whatever the history, what Metrics answers is what a fresh backend answers in one of
the two modes; if it panics, a fresh backend does in the mode asked for. -/
theorem C63_origin [EqLaws F] (e : TtfEnv H) (l : List (TtfCall F)) (c : GoString) (f : Font F) (d : F) (m : Bool)
    (hf : Ordinary f.size) (hd : Ordinary d) :
    ∃ m', (e.metrics c f d m (runCalls e l .new)).1 = freshMetrics e c f d m' ∧
      (m' = m ∨ ∃ call ∈ l, TtfCall.asks call m') := by
  have hl : Loaded e (fun m' => ∃ call ∈ l, TtfCall.asks call m') (runCalls e l .new) :=
    runCalls_loaded e _ l _ (loaded_new e _) (fun c hc m hm => ⟨c, hc, hm⟩)
  rcases getInfo_cases e c f d m (runCalls e l .new) with ⟨v, h1, h2⟩ | ⟨h0, v, hlo, h2⟩ | ⟨-, p, hlo, h2⟩ | ⟨-, hlo, h2⟩
  · obtain ⟨k, hk, hks⟩ := TtfSt.find_some h1
    obtain ⟨m', hm', hv⟩ := hl k v hk
    rw [key_ident c f d hf hd k hks] at hv
    refine ⟨m', ?_, .inr hm'⟩
    rw [fresh_eq e c f d m' hf hd, hv]
    unfold TtfEnv.metrics; rw [h2]; rfl
  · refine ⟨m, ?_, .inl rfl⟩
    rw [fresh_eq e c f d m hf hd, hlo]
    unfold TtfEnv.metrics; rw [h2]
    simp only [answer, key_self c f d hf hd, if_true, Res.ok_bind]
  · refine ⟨m, ?_, .inl rfl⟩
    rw [fresh_eq e c f d m hf hd, hlo]
    unfold TtfEnv.metrics; rw [h2]; rfl
  · refine ⟨m, ?_, .inl rfl⟩
    rw [fresh_eq e c f d m hf hd, hlo]
    unfold TtfEnv.metrics; rw [h2]; rfl

/-- **C63** If both modes give the same answer on a fresh backend, Metrics depends on its arguments
only, in every history. -/
theorem C63_pure [EqLaws F] (e : TtfEnv H) (l : List (TtfCall F)) (c : GoString) (f : Font F) (d : F) (m : Bool)
    (hf : Ordinary f.size) (hd : Ordinary d) (h : freshMetrics e c f d true = freshMetrics e c f d false) :
    (e.metrics c f d m (runCalls e l .new)).1 = freshMetrics e c f d m := by
  obtain ⟨m', h', -⟩ := C63_origin e l c f d m hf hd
  rw [h']
  cases m <;> cases m' <;> first | rfl | exact h | exact h.symm

/-- **C63** So it is if only one mode is ever used (`Kern` and `RenderGlyph` use math mode). -/
theorem C63_one_mode [EqLaws F] (e : TtfEnv H) (l : List (TtfCall F)) (c : GoString) (f : Font F) (d : F) (m : Bool)
    (hf : Ordinary f.size) (hd : Ordinary d) (h : ∀ call ∈ l, ∀ m', call.asks m' → m' = m) :
    (e.metrics c f d m (runCalls e l .new)).1 = freshMetrics e c f d m := by
  obtain ⟨m', h', hm⟩ := C63_origin e l c f d m hf hd
  rw [h']
  rcases hm with rfl | ⟨call, hc, ha⟩
  · rfl
  · rw [h call hc m' ha]

/-- **C63** For a single ASCII character other than the hyphen the mode does not matter. -/
theorem C63_ascii [EqLaws F] (e : TtfEnv H) (l : List (TtfCall F)) (b : Nat) (hb : b < 0x80) (hy : b ≠ 45) (f : Font F) (d : F)
    (m : Bool) (hf : Ordinary f.size) (hd : Ordinary d) :
    (e.metrics [b] f d m (runCalls e l .new)).1 = freshMetrics e [b] f d m := by
  refine C63_pure e l [b] f d m hf hd ?_
  rw [fresh_eq e _ f d _ hf hd, fresh_eq e _ f d _ hf hd]
  have : tex2unicodeIndex [b] true = tex2unicodeIndex [b] false := by
    have h1 : firstRune [b] = b := by simp [firstRune, decodeRune, hb]
    have h2 : b ≠ runeError := by unfold runeError; omega
    unfold tex2unicodeIndex
    have h3 : ([b] : GoString) ≠ bs!"-" := by intro h; cases h; exact hy rfl
    simp only [if_true, h3, if_false, List.length_singleton, h1, ne_eq, h2, not_false_eq_true, and_self, Bool.false_eq_true]
  unfold TtfEnv.load TtfEnv.getGlyph
  rw [this]

/-- **C63** In text mode every macro name is resolved to the backslash. -/
theorem C63_macro_text (s : GoString) : tex2unicodeIndex (bs!"\\" ++ s) false = .ok 0x5C := by
  unfold tex2unicodeIndex
  have h1 : firstRune (bs!"\\" ++ s) = 0x5C := by rfl
  rw [h1]
  rfl

/-- **C63** A glyph is drawn if and only if Metrics in math mode would answer; the canvas then gets
one operation, with the metrics of that answer. -/
theorem C63_drawn (e : TtfEnv H) (s : TtfSt F H) (x y : F) (f : Font F) (c : GoString) (d : F) :
    match (e.metrics c f d true s).1 with
    | .ok r => ∃ g : GlyphD F H, g.metrics = r ∧ (e.renderGlyph x y f c d s).1 = .ok () ∧
        (e.renderGlyph x y f c d s).2.canvas.ops = s.canvas.ops ++ [.glyph x y g]
    | .panic p => (e.renderGlyph x y f c d s).1 = .panic p ∧ (e.renderGlyph x y f c d s).2.canvas.ops = s.canvas.ops
    | .fuel => (e.renderGlyph x y f c d s).1 = .fuel := by
  have hcv : (e.getInfo c f d true s).2.canvas = s.canvas := by
    unfold TtfEnv.getInfo
    split
    · rfl
    · split <;> rfl
  unfold TtfEnv.metrics TtfEnv.renderGlyph
  rcases hg : e.getInfo c f d true s with ⟨r, s'⟩
  rw [hg] at hcv
  cases r with
  | ok v =>
    refine ⟨v.glyphD, rfl, rfl, ?_⟩
    dsimp only at hcv ⊢
    unfold Canvas.renderGlyph Canvas.ops
    rw [hcv]
  | panic p => exact ⟨rfl, hcv⟩
  | fuel => rfl

/-! ## Witness -/

instance : EqLaws XR where
  symm a b := by cases a <;> cases b <;> simp [GoFloat.eq, XR.eq, eq_comm]
  trans a b c := by
    cases a <;> cases b <;> cases c <;> simp [GoFloat.eq, XR.eq]
    intro h1 h2; exact h1.trans h2
  ident a b := by
    cases a <;> cases b <;> simp [GoFloat.eq, XR.eq]
    intro h; exact .inl h

/-- A font library in which the glyph number is the rune and the advance grows with it. -/
def exLib : Sfnt Unit where
  name _ := some bs!"Ex"
  glyphIndex _ r := some r
  glyphName _ _ := some bs!"g"
  loadGlyph _ _ _ := true
  glyphAdvance _ i _ := some i
  glyphBounds _ i _ := some (0, -(i : Int), i, 0)
  unitsPerEm _ := 2048
  kern _ _ _ _ := .notFound
def exEnv : TtfEnv Unit := ⟨exLib, ⟨some (), some (), some (), some (), some ()⟩, fun r => (65 ≤ r && r ≤ 90) || (97 ≤ r && r ≤ 122)⟩
def exFont : Font XR := ⟨bs!"default", bs!"rm", .fin 12⟩

/-- **C63** The answer for a hyphen depends on which mode was asked for first. -/
theorem C63_witness :
    (exEnv.metrics bs!"-" exFont (.fin 72) false (runCalls exEnv [] .new)).1 ≠
    (exEnv.metrics bs!"-" exFont (.fin 72) false (runCalls exEnv [.metrics bs!"-" exFont (.fin 72) true] .new)).1 := by
  decide +kernel

/-- **C63** And so does what is drawn: after a hyphen was measured in text mode, RenderGlyph draws
the hyphen; otherwise it draws the minus sign. -/
theorem C63_witness_drawn :
    ((runCalls exEnv [.glyph (.fin 0) (.fin 0) exFont bs!"-" (.fin 72)] .new).canvas.ops.map
      fun | .glyph _ _ g => g.symbol | .rect _ _ _ _ => []) = [bs!"−"] ∧
    ((runCalls exEnv [.metrics bs!"-" exFont (.fin 72) false, .glyph (.fin 0) (.fin 0) exFont bs!"-" (.fin 72)] .new).canvas.ops.map
      fun | .glyph _ _ g => g.symbol | .rect _ _ _ _ => []) = [bs!"-"] := by
  decide +kernel

example : Ordinary exFont.size ∧ Ordinary (.fin 72 : XR) := by
  refine ⟨⟨?_, ?_⟩, ?_, ?_⟩ <;> decide +kernel
example : (exEnv.metrics bs!"A" exFont (.fin 72) false (runCalls exEnv [.metrics bs!"-" exFont (.fin 72) true] .new)).1 =
    .ok ⟨.fin (65 / 65536), .fin (65 / 64), .fin (65 / 64), .fin 0, .fin (65 / 64), .fin 0, .fin (65 / 64), .fin (65 / 64)⟩ := by
  decide +kernel
example : freshMetrics exEnv bs!"\\alpha" exFont (.fin 72) true ≠ freshMetrics exEnv bs!"\\alpha" exFont (.fin 72) false := by
  decide +kernel

/-! ## C64 -/

/-- A drawing call on a canvas. -/
inductive CanvasCall (F H : Type) where
  | glyph (x y : F) (g : GlyphD F H)
  | rect (x1 y1 x2 y2 : F)

/-- The operation a call stands for. -/
def CanvasCall.op : CanvasCall F H → COp F H
  | .glyph x y g => .glyph x y g
  | .rect a b c d => .rect a b c d

/-- The canvas after a call. -/
def CanvasCall.run (c : Canvas F H) : CanvasCall F H → Canvas F H
  | .glyph x y g => c.renderGlyph x y g
  | .rect x1 y1 x2 y2 => c.renderRect x1 y1 x2 y2

omit [GoFloat F] in
theorem canvas_run (l : List (CanvasCall F H)) (c : Canvas F H) :
    (l.foldl CanvasCall.run c).ops = c.ops ++ l.map CanvasCall.op := by
  induction l generalizing c with
  | nil => simp
  | cons a l ih =>
    rw [List.foldl_cons, ih, List.map_cons]
    cases a <;> simp [CanvasCall.run, CanvasCall.op, Canvas.renderGlyph, Canvas.renderRect, Canvas.ops]

omit [GoFloat F] in
/-- **C64** After any sequence of calls, Ops() lists them in order. -/
theorem C64_ops (l : List (CanvasCall F H)) : (l.foldl CanvasCall.run Canvas.new).ops = l.map CanvasCall.op := by
  rw [canvas_run]; rfl

omit [GoFloat F] in
/-- **C64** What Ops() returned earlier is a prefix of what it returns later. -/
theorem C64_prefix (l1 l2 : List (CanvasCall F H)) :
    (l1.foldl CanvasCall.run Canvas.new).ops <+: ((l1 ++ l2).foldl CanvasCall.run Canvas.new).ops := by
  rw [List.foldl_append, canvas_run l2]
  exact List.prefix_append _ _

example : (([.rect (.fin 0) (.fin 0) (.fin 1) (.fin 1), .rect (.fin 2) (.fin 2) (.fin 3) (.fin 3)] :
    List (CanvasCall XR Unit)).foldl CanvasCall.run Canvas.new).ops.length = 2 := by decide +kernel

end Verif.Props
