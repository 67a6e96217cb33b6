import Verif.Spec.Draw
import Verif.Props.Finite
import Verif.Props.Returns
/-! # C75 and C77: images, PDF files and the command -/

namespace Verif.Props
open Verif Verif.Spec GoFloat
variable {F H E : Type} [GoFloat F]

theorem drawOps_ok (lib : ImgLib F H E) (dpi : F) (ops : List (COp F H)) (h : Faces lib dpi ops) :
    (drawOpsI lib dpi ops).1 = .ok () := by
  induction ops with
  | nil => rfl
  | cons op l ih =>
    have ih := ih (fun x y g hg => h x y g (List.mem_cons_of_mem _ hg))
    cases op with
    | rect x1 y1 x2 y2 => exact ih
    | glyph x y g =>
      have := h x y g List.mem_cons_self
      unfold drawOpsI drawGlyphI
      rw [if_neg (by rw [this]; simp)]
      exact ih

theorem drawOps_panics (lib : ImgLib F H E) (dpi : F) (ops : List (COp F H)) (h : ¬ Faces lib dpi ops) :
    ∃ p, (drawOpsI lib dpi ops).1 = .panic p := by
  induction ops with
  | nil => exact absurd (fun _ _ _ hg => by cases hg) h
  | cons op l ih =>
    cases op with
    | rect x1 y1 x2 y2 =>
      exact ih fun h' => h fun x y g hg => h' x y g (by simpa using hg)
    | glyph x y g =>
      unfold drawOpsI drawGlyphI
      by_cases hf : lib.newFace g.font dpi g.size = false
      · rw [if_pos hf]; exact ⟨_, rfl⟩
      · rw [if_neg hf]
        exact ih fun h' => h fun x' y' g' hg => by
          rcases List.mem_cons.1 hg with hg | hg
          · cases hg; simpa using hf
          · exact h' x' y' g' hg

/-- The calls for the operations add their marks, and leave the rest of the context but the face. -/
theorem drawOps_marks (lib : ImgLib F H E) (dpi : F) (ops : List (COp F H)) (h : Faces lib dpi ops) (s : GgSt F H) (hb : s.black = true)
    (hp : s.path = []) : ∃ f, (drawOpsI lib dpi ops).2.foldl GgSt.step s =
      { s with face := f, marks := s.marks ++ ops.map (markOf dpi) } := by
  induction ops generalizing s with
  | nil => exact ⟨s.face, by simp [drawOpsI]⟩
  | cons op l ih =>
    have ih := ih (fun x y g hg => h x y g (List.mem_cons_of_mem _ hg))
    obtain ⟨sz, bl, fc, pa, mk, out⟩ := s
    dsimp only at hb hp
    subst hb hp
    cases op with
    | rect x1 y1 x2 y2 =>
      unfold drawOpsI
      dsimp only
      rw [List.foldl_append]
      obtain ⟨f, e⟩ := ih ⟨sz, true, fc, [], mk ++ [markOf dpi (.rect x1 y1 x2 y2)], out⟩ rfl rfl
      refine ⟨f, ?_⟩
      have : (drawRectI dpi x1 y1 x2 y2).foldl GgSt.step ⟨sz, true, fc, [], mk, out⟩ =
        (⟨sz, true, fc, [], mk ++ [markOf dpi (.rect x1 y1 x2 y2)], out⟩ : GgSt F H) := rfl
      rw [this, e]
      simp
    | glyph x y g =>
      have hf := h x y g List.mem_cons_self
      unfold drawOpsI drawGlyphI
      rw [if_neg (by rw [hf]; simp)]
      dsimp only
      rw [List.foldl_append]
      obtain ⟨f, e⟩ := ih ⟨sz, true, some (g.font, dpi, g.size), [], mk ++ [markOf dpi (.glyph x y g)], out⟩ rfl rfl
      refine ⟨f, ?_⟩
      have : [Gg.setFace g.font dpi g.size, .drawString g.symbol (x * (dpi / ofInt 72)) (y * (dpi / ofInt 72))].foldl GgSt.step
        ⟨sz, true, fc, [], mk, out⟩ = (⟨sz, true, some (g.font, dpi, g.size), [], mk ++ [markOf dpi (.glyph x y g)], out⟩ : GgSt F H) := rfl
      rw [this, e]
      simp

/-- **C75** drawimg's Render(w, h, dpi, canvas) writes one image of ceil(w·dpi) by ceil(h·dpi) pixels, on which there is one black mark for
each operation of the canvas, in order, and nothing else: a glyph at its place in pixels, a rectangle by its corners.  It returns what the PNG encoder
returns. -/
theorem C75_image (lib : ImgLib F H E) (c : RenderCall F H) (h : CanDraw lib c) :
    (drawimgRender lib c).1 = .ok (lib.encode (ceil (c.w * c.dpi)) (ceil (c.h * c.dpi))) ∧
      images (drawimgRender lib c).2 = [⟨ceil (c.w * c.dpi), ceil (c.h * c.dpi), c.ops.map (markOf c.dpi)⟩] := by
  obtain ⟨h0, h⟩ := h
  have h1 := drawOps_ok lib c.dpi c.ops h
  obtain ⟨f, h2⟩ := drawOps_marks lib c.dpi c.ops h
    ⟨some (ceil (c.w * c.dpi), ceil (c.h * c.dpi)), true, none, [], [], []⟩ rfl rfl
  unfold drawimgRender
  dsimp only
  rw [if_neg (by rw [h0]; simp)]
  rcases hd : drawOpsI lib c.dpi c.ops with ⟨r, t⟩
  rw [hd] at h1 h2
  dsimp only at h1 h2
  subst h1
  refine ⟨rfl, ?_⟩
  unfold images
  dsimp only
  rw [List.foldl_append, List.foldl_append]
  have e : [Gg.newContext (ceil (c.w * c.dpi)) (ceil (c.h * c.dpi)), .setBlack].foldl GgSt.step .start =
    (⟨some (ceil (c.w * c.dpi), ceil (c.h * c.dpi)), true, none, [], [], []⟩ : GgSt F H) := rfl
  rw [e, h2]
  simp [GgSt.step]

theorem images_noEncode (l : List (Gg F H)) (h : Gg.encode ∉ l) : images l = [] := by
  have : ∀ (l : List (Gg F H)) (s : GgSt F H), Gg.encode ∉ l → (l.foldl GgSt.step s).out = s.out := by
    intro l
    induction l with
    | nil => intro s _; rfl
    | cons g l ih =>
      intro s hn
      rw [List.foldl_cons, ih _ (fun h => hn (List.mem_cons_of_mem _ h))]
      cases g <;> try rfl
      · unfold GgSt.step; dsimp only; split <;> rfl
      · exact absurd List.mem_cons_self hn
  exact this l _ h

theorem drawOps_noEncode (lib : ImgLib F H E) (dpi : F) (ops : List (COp F H)) : Gg.encode ∉ (drawOpsI lib dpi ops).2 := by
  induction ops with
  | nil => simp [drawOpsI]
  | cons op l ih =>
    cases op with
    | rect x1 y1 x2 y2 => simp [drawOpsI, drawRectI, ih]
    | glyph x y g =>
      unfold drawOpsI drawGlyphI
      by_cases hf : lib.newFace g.font dpi g.size = false
      · rw [if_pos hf]; simp
      · rw [if_neg hf]; simp [ih]

/-- **C75** If the image cannot be made, or the face of one of the glyphs cannot be opened, it panics and writes no image. -/
theorem C75_noFace (lib : ImgLib F H E) (c : RenderCall F H) (h : ¬ CanDraw lib c) :
    (∃ p, (drawimgRender lib c).1 = .panic p) ∧ images (drawimgRender lib c).2 = [] := by
  by_cases h0 : lib.newContext (ceil (c.w * c.dpi)) (ceil (c.h * c.dpi)) = false
  · unfold drawimgRender
    dsimp only
    rw [if_pos h0]
    exact ⟨⟨_, rfl⟩, rfl⟩
  obtain ⟨p, hp⟩ := drawOps_panics lib c.dpi c.ops (fun h' => h ⟨by simpa using h0, h'⟩)
  have hn := drawOps_noEncode lib c.dpi c.ops
  unfold drawimgRender
  dsimp only
  rw [if_neg h0]
  rcases hd : drawOpsI lib c.dpi c.ops with ⟨r, t⟩
  rw [hd] at hp hn
  dsimp only at hp hn
  subst hp
  exact ⟨⟨p, rfl⟩, images_noEncode _ (by simp [hn])⟩

/-- **C75** End to end: the image mtex.Render makes with drawimg is as large as the box of the formula (its height in whole points), scaled from
points to pixels, and has one mark for each drawing call that `Ship` makes for the box at (0, 0), at that place scaled likewise. -/
theorem C75_render [EqLaws F] (U : Nat → Bool) (e : TtfEnv H) (num : GoString → Option F) (x : GoString) (size dpi : F) (lib : ImgLib F H E)
    (hk : e.KernFine) (h72 : eq (ofInt 72 : F) (ofInt 72) = true) (err : Option E)
    (h : (mtexRenderImg U e num x size dpi lib).1 = .ok err) :
    ∃ (be : Backend F) (hd : LHead F) (cs cs' : List (TNode F)) (st : ShipSt F) (ops : List (COp F H)),
      mtexParse U be num x size (ofInt 72) = .ok (hd, cs) ∧ shipCall zero zero hd cs = .ok (st, cs') ∧
      List.Forall₂ (DrawnAs e) st.ops ops ∧ 
      err = lib.encode (ceil (hd.box.width / ofInt 72 * dpi)) (ceil (ceil (hd.box.height + GoFloat.max hd.box.depth zero) / ofInt 72 * dpi)) ∧
      images (mtexRenderImg U e num x size dpi lib).2 =
        [⟨ceil (hd.box.width / ofInt 72 * dpi), ceil (ceil (hd.box.height + GoFloat.max hd.box.depth zero) / ofInt 72 * dpi),
          ops.map (markOf dpi)⟩] := by
  unfold mtexRenderImg at h ⊢
  cases hr : renderT U e num x size dpi with
  | panic p => rw [hr] at h; cases h
  | fuel => rw [hr] at h; cases h
  | ok c =>
    rw [hr] at h
    dsimp only at h ⊢
    obtain ⟨be, hd, cs, st, cs', h1, h2, h3, h4, h5, h6⟩ := C65_call U e num x size dpi hk h72 c hr
    by_cases hf : CanDraw lib c
    · obtain ⟨i1, i2⟩ := C75_image lib c hf
      rw [i1] at h
      refine ⟨be, hd, cs, cs', st, c.ops, h1, h2, h3, ?_, ?_⟩
      · rw [← Res.ok.inj h, h4, h5, h6]
      · rw [i2, h4, h5, h6]
    · obtain ⟨⟨p, i1⟩, -⟩ := C75_noFace lib c hf
      rw [i1] at h; cases h

/-- **C75** finding: drawpdf's Write draws nothing.  Whatever the canvas, the page is made and written to the file as it is; the operations of the
canvas only go to the log. -/
theorem C75_pdf (name : GoString) (w h : F) (ops : List (COp F H)) :
    (drawpdfWrite name w h ops).filter (fun c => !isLog c) = [.newCustom w h, .addPage, .outputFileAndClose name] ∧
    (drawpdfWrite name w h ops).filter isLog = ops.map .log := by
  have e : ops.flatMap writeOpP = ops.map .log := by
    induction ops with
    | nil => rfl
    | cons op l ih => rw [List.flatMap_cons, ih]; cases op <;> rfl
  unfold drawpdfWrite
  rw [e]
  constructor
  · simp [isLog, List.filter_map, Function.comp_def]
  · simp [isLog, List.filter_map, Function.comp_def]

/-! ## C77 -/

/-- **C77** mtex-render ends with success exactly if it is given one argument, the output file can be made and closed, and mtex.Render returns without
error. -/
theorem C77_success (U : Nat → Bool) (e : TtfEnv H) (num : GoString → Option F) (lib : ImgLib F H E) (os : OsLib) (args : List GoString)
    (size dpi : F) : (mtexRenderMain U e num lib os args size dpi).1 = .success ↔
      ∃ expr, args = [expr] ∧ os.create = true ∧ os.close = true ∧ (mtexRenderImg U e num expr size dpi lib).1 = .ok none := by
  unfold mtexRenderMain
  match args with
  | [] => simp
  | _ :: _ :: _ => simp
  | [expr] =>
    simp only [List.cons.injEq, and_true, exists_eq_left']
    cases os.create
    · simp
    · simp only [Bool.true_eq_false, if_false, true_and]
      rcases mtexRenderImg U e num expr size dpi lib with ⟨r, t⟩
      cases r with
      | ok r =>
        cases r with
        | none => cases os.close <;> simp
        | some e => simp
      | panic p => simp
      | fuel => simp

/-- **C77** The output file then holds one image, whatever was in it before. -/
theorem C77_written (U : Nat → Bool) (e : TtfEnv H) (num : GoString → Option F) (lib : ImgLib F H E) (os : OsLib) (expr : GoString)
    (size dpi : F) (old : Option (List (Image F H))) (h : (mtexRenderMain U e num lib os [expr] size dpi).1 = .success) :
    ∃ c, renderT U e num expr size dpi = .ok c ∧ contents old (mtexRenderMain U e num lib os [expr] size dpi).2 =
      some [⟨ceil (c.w * c.dpi), ceil (c.h * c.dpi), c.ops.map (markOf c.dpi)⟩] := by
  obtain ⟨expr', he, h1, h2, h3⟩ := (C77_success U e num lib os [expr] size dpi).1 h
  cases he
  unfold mtexRenderMain
  dsimp only
  rw [if_neg (by rw [h1]; simp)]
  have h3' := h3
  unfold mtexRenderImg at h3'
  cases hr : renderT U e num expr size dpi with
  | panic p => rw [hr] at h3'; cases h3'
  | fuel => rw [hr] at h3'; cases h3'
  | ok c =>
    rw [hr] at h3'
    dsimp only at h3'
    have hi : (mtexRenderImg U e num expr size dpi lib) = drawimgRender lib c := by unfold mtexRenderImg; rw [hr]
    by_cases hf : CanDraw lib c
    · obtain ⟨-, i2⟩ := C75_image lib c hf
      rw [← hi] at i2 h3'
      revert i2 h3'
      generalize mtexRenderImg U e num expr size dpi lib = q
      obtain ⟨r, t⟩ := q
      dsimp only
      rintro rfl i2
      refine ⟨c, rfl, ?_⟩
      dsimp only
      rw [h2, if_pos rfl]
      simp only [contents, Option.getD_some, List.nil_append, i2]
    · obtain ⟨⟨p, i1⟩, -⟩ := C75_noFace lib c hf
      rw [i1] at h3'; cases h3'

/-- **C77** finding: the file is emptied before the expression is looked at.  If mtex.Render panics (C69 says when), what was in the output file is lost and
the command leaves an empty file. -/
theorem C77_lost (U : Nat → Bool) (e : TtfEnv H) (num : GoString → Option F) (lib : ImgLib F H E) (os : OsLib) (expr : GoString)
    (size dpi : F) (old : Option (List (Image F H))) (hc : os.create = true) (h : ∀ err, (mtexRenderImg U e num expr size dpi lib).1 ≠ .ok err) :
    (mtexRenderMain U e num lib os [expr] size dpi).1 = .crash ∧
      contents old (mtexRenderMain U e num lib os [expr] size dpi).2 = some [] := by
  unfold mtexRenderMain
  dsimp only
  rw [if_neg (by rw [hc]; simp)]
  revert h
  rcases mtexRenderImg U e num expr size dpi lib with ⟨r, t⟩
  intro h
  cases r with
  | ok r => exact absurd rfl (h r)
  | panic p => exact ⟨rfl, rfl⟩
  | fuel => exact ⟨rfl, rfl⟩

/-- **C77** With fonts that answer every question, this happens for every expression that ParseExpr does not take, or with a symbol that cannot be drawn. -/
theorem C77_lost_when [EqLaws F] [ZeroLaws F] (U : Nat → Bool) (e : TtfEnv H) (he : Complete e) (num : GoString → Option F) (lib : ImgLib F H E)
    (os : OsLib) (expr : GoString) (size dpi : F) (h72 : eq (ofInt 72 : F) (ofInt 72) = true) (old : Option (List (Image F H)))
    (hc : os.create = true)
    (h : ¬ ∃ root, parseExpr U expr = .ok root ∧ drawable fontHas (fun _ => true) num bs!"rm" false false root = true ∧
        ∀ i ∈ ink bs!"rm" size false false root, Inkable size i) :
    (mtexRenderMain U e num lib os [expr] size dpi).1 = .crash ∧
      contents old (mtexRenderMain U e num lib os [expr] size dpi).2 = some [] := by
  refine C77_lost U e num lib os expr size dpi old hc fun err h' => ?_
  rw [← C69_renders_iff U e he num expr size dpi h72] at h
  unfold mtexRenderImg at h'
  cases hr : renderT U e num expr size dpi with
  | ok c => exact h ⟨c, hr⟩
  | panic p => rw [hr] at h'; cases h'
  | fuel => rw [hr] at h'; cases h'

/-- **C77** Without exactly one argument, or if the output file cannot be made, the command fails and does nothing to any file. -/
theorem C77_untouched (U : Nat → Bool) (e : TtfEnv H) (num : GoString → Option F) (lib : ImgLib F H E) (os : OsLib) (args : List GoString)
    (size dpi : F) (h : args.length ≠ 1 ∨ os.create = false) :
    (mtexRenderMain U e num lib os args size dpi).1 = .fatal ∧ (mtexRenderMain U e num lib os args size dpi).2 = [] := by
  unfold mtexRenderMain
  match args with
  | [] => simp
  | _ :: _ :: _ => simp
  | [expr] => 
    have h' : os.create = false := by simpa using h
    simp [h']

/-- **C77** Otherwise the file is made first; it is closed last; it is left open only when the image could not be written
(`log.Fatalf` runs no deferred calls). -/
theorem C77_file (U : Nat → Bool) (e : TtfEnv H) (num : GoString → Option F) (lib : ImgLib F H E) (os : OsLib) (expr : GoString)
    (size dpi : F) (hc : os.create = true) :
    ∃ mid, (∀ ev ∈ mid, ev ≠ .create ∧ ev ≠ .close) ∧
      ((mtexRenderMain U e num lib os [expr] size dpi).2 = .create :: mid ++ [.close] ∨
       (mtexRenderMain U e num lib os [expr] size dpi).2 = .create :: mid ∧ (mtexRenderMain U e num lib os [expr] size dpi).1 = .fatal ∧
         ∃ err, (mtexRenderImg U e num expr size dpi lib).1 = .ok (some err)) := by
  unfold mtexRenderMain
  dsimp only
  rw [if_neg (by rw [hc]; simp)]
  rcases mtexRenderImg U e num expr size dpi lib with ⟨r, t⟩
  cases r with
  | ok r =>
    cases r with
    | none => exact ⟨[.png t], by simp, .inl (by dsimp only; split <;> rfl)⟩
    | some e => exact ⟨[.png t], by simp, .inr ⟨rfl, rfl, e, rfl⟩⟩
  | panic p => exact ⟨[], by simp, .inl rfl⟩
  | fuel => exact ⟨[], by simp, .inl rfl⟩

/-! ## Concrete cases -/

/-- Libraries without errors. -/
def exImg : ImgLib XR Unit Unit := { newFace := fun _ _ _ => true, encode := fun _ _ => none }

example : (mtexRenderImg exU exEnv exNum bs!"$\\frac{1}{x}$" (.fin 10) (.fin 144) exImg).1 = .ok none := by decide +kernel
example : ((images (mtexRenderImg exU exEnv exNum bs!"$\\frac{1}{x}$" (.fin 10) (.fin 144) exImg).2).map
    fun i => i.marks.map fun | .text _ _ _ _ s _ _ => s | .area _ _ => []) = [[bs!"1", [], bs!"x"]] := by decide +kernel
example : (mtexRenderMain exU exEnv exNum exImg ⟨true, true⟩ [bs!"$x$"] (.fin 10) (.fin 72)).1 = .success ∧
    (mtexRenderMain exU exEnv exNum exImg ⟨true, true⟩ [bs!"$x^2$"] (.fin 10) (.fin 72)).1 = .crash ∧
    (mtexRenderMain exU exEnv exNum exImg ⟨true, true⟩ [] (.fin 10) (.fin 72)).1 = .fatal := by decide +kernel
/-- The image may be larger than the library can make. -/
def exSmall : ImgLib XR Unit Unit := { exImg with newContext := fun w _ => lt w (.fin 3) }
example : (mtexRenderMain exU exEnv exNum exSmall ⟨true, true⟩ [bs!"$x$"] (.fin 10) (.fin 72000)).1 = .success ∧
    (mtexRenderMain exU exEnv exNum exSmall ⟨true, true⟩ [bs!"$\\hspace{2}x$"] (.fin 10) (.fin 72000)).1 = .crash := by decide +kernel

end Verif.Props
