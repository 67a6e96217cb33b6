import Verif.Lemmas.Plain
import Verif.Spec.Render
import Verif.Props.Mtex
import Verif.Props.Ttf
/-! # C65: mtex.Render -/

namespace Verif.Props
open Verif Verif.Spec GoFloat
variable {F H : Type} [GoFloat F] {B : TextAt F}

theorem sim_parse [EqLaws F] (U : Nat → Bool) (e : TtfEnv H) (num : GoString → Option F) (x : GoString) (size dpi : F)
    (hk : Setup e dpi) (s : TtfSt F H) (hs : e.Sound ⟨size, True⟩ s) :
    Simul e ⟨size, True⟩ (mtexParseT U e num x size dpi) (fun be => mtexParse U be num x size dpi) (fun _ _ => True) s := by
  cases hp : parseExpr U x with
  | fuel =>
    unfold Simul mtexParseT; rw [hp]
    exact ⟨s, .refl s, hs, by dsimp only; rw [mtexParse, hp]; rfl⟩
  | panic p =>
    unfold Simul mtexParseT; rw [hp]
    exact ⟨s, .refl s, hs, by dsimp only; rw [mtexParse, hp]; rfl⟩
  | ok n =>
    have : mtexParseT U e num x size dpi =
        (walkTM (mtexVisitT e num x (nodeDepth n + 1)) n ⟨[], initState size dpi, false⟩).bind fun v => hbodyT e v.nodes := by
      funext s; rw [mtexParseT, hp]; rfl
    rw [this]
    refine ((sim_walk (sim_mtexVisit e dpi hk num x (nodeDepth n + 1)) n (parse_plain hp) ⟨[], initState size dpi, false⟩ s hs
      ⟨⟨rfl, (fun h => nomatch h), rfl, fun _ => trivial⟩, by simp⟩).bind (g := fun v be => .ok (hbody be v.nodes)) (J := fun _ _ => True) ?_).congr (fun s' => ?_)
      (fun _ _ _ h => h)
    · intro v s1 hx1 hs1 hf
      exact (sim_hbody e dpi hk v.nodes s1 hs1 hf.2).congr (fun _ => rfl) (fun _ _ _ _ => trivial)
    · rw [mtexParse, hp]
      simp only [Res.ok_bind, collect]
      cases walk (mtexVisit (e.backend s') num x (nodeDepth n + 1)) () n ⟨[], initState size dpi, false⟩ <;> rfl

theorem fresh_glyph [EqLaws F] (e : TtfEnv H) (f : Font F) (c : GoString) (d : F) (m : Bool) (v : TtfVal F H)
    (hf : Ordinary f.size) (hd : Ordinary d) (h : e.load c f d m = .ok v) : freshGlyph e f c d m = [.glyph zero zero v.glyphD] := by
  have hk := key_self c f d hf hd
  have h1 : (e.metrics c f d m .new).2 = ⟨[], [(⟨c, f, d⟩, v)]⟩ := by
    rw [metrics_snd]
    unfold TtfEnv.getInfo
    rw [h]; rfl
  have h2 : e.getInfo c f d true ⟨[], [(⟨c, f, d⟩, v)]⟩ = (.ok v, ⟨[], [(⟨c, f, d⟩, v)]⟩) := by
    unfold TtfEnv.getInfo TtfSt.find
    simp [hk]
  unfold freshGlyph runCalls
  simp only [List.foldl_cons, List.foldl_nil, TtfCall.run, h1]
  unfold TtfEnv.renderGlyph
  rw [h2]
  rfl

theorem draw_run [EqLaws F] (e : TtfEnv H) (d : Draw F) (s s' : TtfSt F H) (hs : e.Sound B s) (h : d.run e s = .ok ((), s')) :
    e.Sound B s' ∧ s.Ext s' ∧ ∃ op, s'.canvas.ops = s.canvas.ops ++ [op] ∧ DrawnAs e d op := by
  cases d with
  | rect x1 y1 x2 y2 =>
    cases h
    exact ⟨⟨hs.loaded, hs.italic, hs.base⟩, .of_glyphs rfl, _, rfl, rfl⟩
  | glyph x y f c d =>
    have hr : (e.renderGlyph x y f c d s) = (.ok (), s') := by
      unfold Draw.run at h
      dsimp only at h
      split at h <;> simp_all
    have hx := run_ext e (.glyph x y f c d) s
    have hl := getInfo_sound e c f d true s (modeOk_math _ _ _) hs
    have hg := renderGlyph_glyphs e x y c f d s
    simp only [TtfCall.run] at hx
    rw [hr] at hx hg
    replace hl : e.Sound B s' := by
      refine ⟨fun k v hk => hl.loaded k v ?_, fun k v hk => hl.italic k v ?_, fun k v hk => hl.base k v ?_⟩ <;> rw [← hg] <;> exact hk
    refine ⟨hl, hx, ?_⟩
    unfold TtfEnv.renderGlyph at hr
    rcases getInfo_cases e c f d true s with ⟨v, h1, h2⟩ | ⟨h0, v, hlo, h2⟩ | ⟨-, p, hlo, h2⟩ | ⟨-, hlo, h2⟩
    · rw [h2] at hr
      cases hr
      refine ⟨_, rfl, _, rfl, fun hf hd => ?_⟩
      obtain ⟨k, hk, hks⟩ := TtfSt.find_some h1
      obtain ⟨m, -, hv⟩ := hs.loaded k v hk
      rw [key_ident c f d hf hd k hks] at hv
      exact ⟨m, fresh_glyph e f c d m v hf hd hv⟩
    · rw [h2] at hr
      cases hr
      refine ⟨_, rfl, _, rfl, fun hf hd => ⟨true, ?_⟩⟩
      rw [fresh_glyph e f c d true v hf hd hlo]
      simp only [answer, key_self c f d hf hd, if_true]
    · rw [h2] at hr; cases hr
    · rw [h2] at hr; cases hr

theorem runDraws_ops [EqLaws F] (e : TtfEnv H) (l : List (Draw F)) (s s' : TtfSt F H) (hs : e.Sound B s)
    (h : runDraws e l s = .ok ((), s')) : ∃ ops, s'.canvas.ops = s.canvas.ops ++ ops ∧ List.Forall₂ (DrawnAs e) l ops := by
  induction l generalizing s with
  | nil => cases h; exact ⟨[], by simp, .nil⟩
  | cons d l ih =>
    unfold runDraws TM.bind at h
    obtain ⟨⟨u, s1⟩, h1, h⟩ := Res.bind_eq_ok.1 h
    obtain ⟨hs1, -, op, ho, hd⟩ := draw_run e d s s1 hs h1
    obtain ⟨ops, ho2, hf⟩ := ih s1 hs1 h
    exact ⟨op :: ops, by rw [ho2, ho]; simp, .cons hd hf⟩

theorem sound_new (e : TtfEnv H) : e.Sound B (TtfSt.new : TtfSt F H) :=
  ⟨loaded_new e _, (fun k v h => nomatch h), (fun k v h => nomatch h)⟩

/-- **C65** When Render reaches the renderer, the box shipped is what mtex.Parse returns at 72 dots
per inch with a backend that is a function (what the backend of the call ended up answering); it is
shipped once, at the origin; the canvas given to the renderer has one operation for each drawing
call, in order, and no other; the dimensions are those of the box. -/
theorem C65_call [EqLaws F] (U : Nat → Bool) (e : TtfEnv H) (num : GoString → Option F) (x : GoString) (size dpi : F)
    (hk : e.KernFine) (h72 : eq (ofInt 72 : F) (ofInt 72) = true) (c : RenderCall F H)
    (h : renderT U e num x size dpi = .ok c) :
    ∃ (be : Backend F) (hd : LHead F) (cs : List (TNode F)) (st : ShipSt F) (cs' : List (TNode F)),
      mtexParse U be num x size (ofInt 72) = .ok (hd, cs) ∧ shipCall zero zero hd cs = .ok (st, cs') ∧
      List.Forall₂ (DrawnAs e) st.ops c.ops ∧ c.w = hd.box.width / ofInt 72 ∧
      c.h = ceil (hd.box.height + GoFloat.max hd.box.depth zero) / ofInt 72 ∧ c.dpi = dpi := by
  unfold renderT at h
  obtain ⟨⟨⟨hd, cs⟩, s⟩, hp, h⟩ := Res.bind_eq_ok.1 h
  obtain ⟨⟨st, cs'⟩, hsh, h⟩ := Res.bind_eq_ok.1 h
  obtain ⟨⟨u, s'⟩, hr, h⟩ := Res.bind_eq_ok.1 h
  cases h
  have hsim := sim_parse U e num x size (ofInt 72) ⟨hk, h72⟩ .new (sound_new e)
  unfold Simul at hsim
  rw [hp] at hsim
  obtain ⟨hx, hs, hc, -, hb⟩ := hsim
  obtain ⟨ops, ho, hf⟩ := runDraws_ops e st.ops s s' hs hr
  refine ⟨e.backend (false, s), hd, cs, st, cs', hb false s (.refl s) hs, hsh, ?_, rfl, rfl, rfl⟩
  rw [ho, hc]
  exact hf

/-- **C65** Render calls the renderer at most once: exactly once if it returns, in which case it
returns an error if and only if the renderer does; and not at all if it panics. -/
theorem C65_once {E W : Type} (U : Nat → Bool) (e : TtfEnv H) (num : GoString → Option F) (x : GoString) (size dpi : F)
    (dst : RenderCall F H → W → Option E × W) (w : W) :
    (∃ c, mtexRender U e num x size dpi dst w = (.ok (dst c w).1, (dst c w).2) ∧ renderT U e num x size dpi = .ok c) ∨
    ((∀ r, (mtexRender U e num x size dpi dst w).1 ≠ .ok r) ∧ (mtexRender U e num x size dpi dst w).2 = w) := by
  unfold mtexRender
  cases renderT U e num x size dpi with
  | ok c => exact .inl ⟨c, rfl, rfl⟩
  | panic p => exact .inr ⟨(fun r h => by cases h), rfl⟩
  | fuel => exact .inr ⟨(fun r h => by cases h), rfl⟩

theorem inks_of [EqLaws F] {e : TtfEnv H} {d : F} (hd : Ordinary d) {l : List (Draw F)} {ops : List (COp F H)}
    (h : List.Forall₂ (DrawnAs e) l ops) {is : List (Ink F)} (hi : List.Forall₂ (Prints bs!"default" d) (l.filterMap opGlyph) is) :
    List.Forall₂ (Inks e d) (ops.filterMap glyphOf) is := by
  induction h generalizing is with
  | nil => simpa using hi
  | @cons a op l ops ha h ih =>
    cases a with
    | rect x1 y1 x2 y2 =>
      rw [show op = .rect x1 y1 x2 y2 from ha]
      exact ih hi
    | glyph x y f c d' =>
      obtain ⟨g, rfl, hg⟩ := ha
      simp only [List.filterMap_cons, opGlyph] at hi
      cases hi with
      | @cons _ i _ is' h1 h2 =>
        obtain ⟨p1, p2, p3, p4, p5⟩ := h1
        dsimp only at p1 p2 p3 p4 p5
        subst p4 p5
        exact .cons ⟨f, p1, p2, p3, fun hf => hg hf hd⟩ (ih h2)

/-- **C65** From the text to the renderer: the glyphs on the canvas are, in order, those prescribed
by the syntax tree of the expression. -/
theorem C65_glyphs [EqLaws F] (U : Nat → Bool) (e : TtfEnv H) (num : GoString → Option F) (x : GoString) (size dpi : F)
    (hk : e.KernFine) (h72 : Ordinary (ofInt 72 : F)) (c : RenderCall F H) (h : renderT U e num x size dpi = .ok c) :
    ∃ root, parseExpr U x = .ok root ∧
      List.Forall₂ (Inks e (ofInt 72)) (c.ops.filterMap glyphOf) (ink bs!"rm" size false false root) := by
  obtain ⟨be, hd, cs, st, cs', h1, h2, h3, -⟩ := C65_call U e num x size dpi hk h72.1 c h
  obtain ⟨root, hp, hi⟩ := C59_drawn U be num x size (ofInt 72) hd cs h1 zero zero st cs' h2
  exact ⟨root, hp, inks_of h72 h3 hi⟩

/-! ## Concrete cases -/

/-- What is on the canvas when x is rendered at 10 points with the example fonts: the symbol of each
glyph, and the empty string for each rectangle. -/
def exRender (x : GoString) : Option (List GoString) :=
  match renderT exU exEnv exNum x (.fin 10) (.fin 100) with
  | .ok c => some (c.ops.map fun | .glyph _ _ g => g.symbol | .rect _ _ _ _ => [])
  | _ => none

/-- The widths of the glyphs on that canvas. -/
def exInked (x : GoString) : List XR :=
  match renderT exU exEnv exNum x (.fin 10) (.fin 100) with
  | .ok c => c.ops.filterMap fun | .glyph _ _ g => some g.metrics.width | .rect _ _ _ _ => none
  | _ => []

mutual
/-- The widths of the character boxes of a tree. -/
def exCharWidths : TNode XR → List XR
  | .char c => [c.width]
  | .list _ _ cs => exCharsWidths cs
  | _ => []
/-- The widths of the character boxes of several trees. -/
def exCharsWidths : List (TNode XR) → List XR
  | [] => []
  | n :: l => exCharWidths n ++ exCharsWidths l
end

/-- The widths of the character boxes that were laid out for the same drawing. -/
def exLaid (x : GoString) : List XR :=
  match mtexParseT exU exEnv exNum x (.fin 10) (.fin 72) .new with
  | .ok q => exCharsWidths q.1.2
  | _ => []

example : exRender bs!"$\\frac{1}{\\sqrt{x}}$" = some [bs!"1", [], bs!"√", [], bs!"x"] := by decide +kernel
example : Setup exEnv (.fin 72 : XR) := ⟨fun h a b k => by simp [exEnv, exLib], by decide +kernel⟩
example : Ordinary (ofInt 72 : XR) := by constructor <;> decide +kernel

/-- **C65** finding: outside `$..$` the macro `\alpha` draws a backslash. -/
theorem C65_backslash : exRender bs!"\\alpha" = some [bs!"\\"] ∧ exRender bs!"$\\alpha$" = some [bs!"α"] := by
  decide +kernel

/-- **C65** finding: what is drawn need not be what was measured.  In `\frac{-}{2}` outside `$..$`
the hyphen is measured, and the minus sign is drawn; in `\frac{+}{2}` the glyph drawn is the one
that was measured. -/
theorem C65_other_glyph :
    exRender bs!"-" = some [bs!"-"] ∧ exRender bs!"\\frac{-}{2}" = some [bs!"−", [], bs!"2"] ∧
    exInked bs!"\\frac{+}{2}" = exLaid bs!"\\frac{+}{2}" ∧ exInked bs!"\\frac{-}{2}" ≠ exLaid bs!"\\frac{-}{2}" := by
  decide +kernel

end Verif.Props
