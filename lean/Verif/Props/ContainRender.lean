import Verif.Props.Contain
/-! # C76 for mtex.Render -/

namespace Verif.Props
open Verif Verif.Spec GoFloat XR

section
variable {F H : Type} [GoFloat F]

/-- Like `sim_parse`, for documents that have nothing but formulas: nothing is loaded in text mode. -/
theorem sim_parse_math [EqLaws F] (U : Nat → Bool) (e : TtfEnv H) (num : GoString → Option F) (x : GoString) (size dpi : F)
    (hk : Setup e dpi) (root : Node) (hp : parseExpr U x = .ok root) (hm : OnlyMath root) (s : TtfSt F H) (hs : e.Sound ⟨size, False⟩ s) :
    Simul e ⟨size, False⟩ (mtexParseT U e num x size dpi) (fun be => mtexParse U be num x size dpi) (fun _ _ => True) s := by
  have hT : mtexParseT U e num x size dpi =
      (walkTM (mtexVisitT e num x (nodeDepth root + 1)) root ⟨[], initState size dpi, false⟩).bind fun v => hbodyT e v.nodes := by
    funext s; rw [mtexParseT, hp]; rfl
  have hP : ∀ be : Backend F, mtexParse U be num x size dpi =
      (walk (mtexVisit be num x (nodeDepth root + 1)) () root ⟨[], initState size dpi, false⟩ >>= fun v => .ok (hbody be v.nodes)) := by
    intro be
    rw [mtexParse, hp]
    simp only [Res.ok_bind, collect]
    cases walk (mtexVisit be num x (nodeDepth root + 1)) () root ⟨[], initState size dpi, false⟩ <;> rfl
  rw [hT]
  cases root with
  | list l =>
    have hv := sim_mtexVisit (B := ⟨size, False⟩) e dpi hk num x (nodeDepth (.list l))
    have hl : ∀ (l : List Node), (∀ n ∈ l, ∃ d a m b, n = .math d a m b) → PlainL l → ∀ (k : Nat),
        SimVisit e ⟨size, False⟩ dpi (mtexVisitT e num x k) (fun be => mtexVisit be num x k) → ∀ (v : VSt F) (s : TtfSt F H), e.Sound ⟨size, False⟩ s →
        v.st.dpi = dpi → v.st.font.size = size → (∀ n ∈ v.nodes, Fine dpi s n) →
        Simul e ⟨size, False⟩ (walkListTM (mtexVisitT e num x (k + 1)) l v) (fun be => walkList (mtexVisit be num x (k + 1)) () l v)
          (fun s' v' => ∀ n ∈ v'.nodes, Fine dpi s' n) s := by
      intro l
      induction l with
      | nil => intro _ _ k _ v s hs _ _ hf; exact .ret hs hf (fun _ => by rw [walkList])
      | cons n l ih =>
        intro h hpl k hv v s hs hd hz hf
        obtain ⟨d, a, m, b, rfl⟩ := h n List.mem_cons_self
        rw [walkListTM_cons]
        have hw : Simul e ⟨size, False⟩ (walkTM (mtexVisitT e num x (k + 1)) (.math d a m b) v)
            (fun be => walk (mtexVisit be num x (k + 1)) () (.math d a m b) v)
            (fun s' v' => v'.st.dpi = dpi ∧ v'.st.font.size = size ∧ ∀ n ∈ v'.nodes, Fine dpi s' n) s := by
          rw [walkTM_unfold]
          refine ((sim_math e num x hv d a m (fun j hj => hpl j (by simp [allNodesL, allNodes, hj])) b v s hs hd hz hf).bind (g := fun r be => match r.1 with
            | none => .ok r.2
            | some _ => inside (mtexVisit be num x (k + 1)) (.math d a m b) r.2 >>= fun v2 =>
                mtexVisit be num x (k + 1) () .nil v2 >>= fun r2 => .ok r2.2) ?_).congr (fun s' => walk_unfold _ _ _) (fun _ _ _ h => h)
          rintro ⟨o, v1⟩ s1 hx1 hs1 ⟨h1, -, h3, h4, -, h6⟩
          dsimp only at h1 h3 h4 h6
          subst h1
          exact .ret hs1 ⟨h3, h4, h6⟩ (fun _ => rfl)
        refine (hw.bind (g := fun v1 be => walkList (mtexVisit be num x (k + 1)) () l v1) ?_).congr (fun s' => by rw [walkList]) (fun _ _ _ h => h)
        rintro v1 s1 hx1 hs1 ⟨h1, h2, h3⟩
        exact ih (fun n hn => h n (List.mem_cons_of_mem _ hn)) (fun j hj => hpl j (by simp [allNodesL, hj])) k hv v1 s1 hs1 h1 h2 h3
    have hw : Simul e ⟨size, False⟩ (walkTM (mtexVisitT e num x (nodeDepth (.list l) + 1)) (.list l) ⟨[], initState size dpi, false⟩)
        (fun be => walk (mtexVisit be num x (nodeDepth (.list l) + 1)) () (.list l) ⟨[], initState size dpi, false⟩)
        (fun s' v' => ∀ n ∈ v'.nodes, Fine dpi s' n) s := by
      rw [walkTM_unfold]
      have h1 : visitTM (mtexVisitT e num x (nodeDepth (.list l) + 1)) (.list l) ⟨[], initState size dpi, false⟩ =
          (.ret (some (), ⟨[], initState size dpi, false⟩) : TM F H (Option Unit × VSt F)) := rfl
      have h2 : ∀ v : VSt F, visitTM (mtexVisitT e num x (nodeDepth (.list l) + 1)) .nil v = (.ret (some (), v) : TM F H (Option Unit × VSt F)) :=
        fun v => rfl
      rw [h1]
      refine ((hl l hm (fun j hj => parse_plain hp j (by simp [allNodes, hj])) _ hv ⟨[], initState size dpi, false⟩ s hs rfl rfl (by simp)).bind
        (g := fun v _ => .ok v) (J := fun s' v' => ∀ n ∈ v'.nodes, Fine dpi s' n)
        (fun v s1 _ hs1 hf => Simul.ret hs1 hf (fun _ => rfl))).congr (fun s' => ?_) (fun _ _ _ h => h)
      rw [walk_unfold]
      simp only [mtexVisit, Res.ok_bind, inside]
    refine (hw.bind (g := fun v be => .ok (hbody be v.nodes)) (J := fun _ _ => True) ?_).congr (fun s' => hP _) (fun _ _ _ h => h)
    intro v s1 hx1 hs1 hf
    exact (sim_hbody e dpi hk v.nodes s1 hs1 hf).congr (fun _ => rfl) (fun _ _ _ _ => trivial)
  | _ => exact hm.elim

end

variable {H : Type}

/-- The numbers of `getInfo` are proportional to the size. -/
theorem ttf_linear (ps : GoString) (adv : Int) (b : Int × Int × Int × Int) (s d : ℚ) :
    (ttfMetrics ps adv b (.fin s : XR) (.fin d)).1.ymax = .fin ((ttfMetrics ps adv b (.fin 1 : XR) (.fin d)).1.ymax.val * s) ∧
    (ttfMetrics ps adv b (.fin s : XR) (.fin d)).1.ymin = .fin ((ttfMetrics ps adv b (.fin 1 : XR) (.fin d)).1.ymin.val * s) ∧
    (ttfMetrics ps adv b (.fin s : XR) (.fin d)).1.height = .fin (((ttfMetrics ps adv b (.fin 1 : XR) (.fin d)).1.ymax.val -
      (ttfMetrics ps adv b (.fin 1 : XR) (.fin d)).1.ymin.val) * s) := by
  unfold ttfMetrics
  dsimp only
  simp only [ofInt_fin, zero_fin]
  split
  all_goals
    simp only [fin_div _ _ (show ((12 : ℤ) : ℚ) ≠ 0 by norm_num), fin_div _ _ (show ((64 : ℤ) : ℚ) ≠ 0 by norm_num), fin_mul, fin_sub, fin_add,
      fin_div _ _ (show ((2 : ℤ) : ℚ) ≠ 0 by norm_num), fin_div _ _ (show ((3 : ℤ) : ℚ) ≠ 0 by norm_num),
      fin_div _ _ (show ((72 : ℤ) : ℚ) ≠ 0 by norm_num), XR.fin.injEq, XR.val]
    refine ⟨?_, ?_, ?_⟩ <;> push_cast <;> ring

/-- What is loaded at one size is loaded at any other, with proportional extents. -/
theorem load_linear {e : TtfEnv H} {c n t : GoString} {s d : ℚ} {m : Bool} {v : TtfVal XR H} (h : e.load c ⟨n, t, .fin s⟩ (.fin d) m = .ok v) :
    ∃ v1 : TtfVal XR H, e.load c ⟨n, t, .fin 1⟩ (.fin d) m = .ok v1 ∧ v.metrics.ymax = .fin (v1.metrics.ymax.val * s) ∧
      v.metrics.ymin = .fin (v1.metrics.ymin.val * s) ∧ v.metrics.height = .fin ((v1.metrics.ymax.val - v1.metrics.ymin.val) * s) ∧
      v.metrics.iceberg = v.metrics.ymax := by
  unfold TtfEnv.load at h ⊢
  obtain ⟨⟨ft, rn⟩, hg, h⟩ := Res.bind_eq_ok.1 h
  have hg' : e.getGlyph c (⟨n, t, .fin 1⟩ : Font XR) m = .ok (ft, rn) := hg
  rw [hg', Res.ok_bind]
  dsimp only at h ⊢
  split at h
  · cases h
  rename_i ps hps
  split at h
  · cases h
  rename_i idx hidx
  split at h
  · cases h
  rename_i sn hsn
  split at h
  · cases h
  rename_i hl1
  split at h
  · cases h
  rename_i adv hadv
  split at h
  · cases h
  rename_i hl2
  split at h
  · cases h
  rename_i b hbd
  simp only [Res.ok.injEq] at h
  subst h
  simp only [hl1, hl2, hadv, hbd, Bool.false_eq_true, if_false]
  obtain ⟨l1, l2, l3⟩ := ttf_linear ps adv b s d
  exact ⟨_, rfl, l1, l2, l3, rfl⟩

/-- How far the glyphs of the fonts reach, in formulas: what Metrics answers at size 1. -/
def ttfExtents (e : TtfEnv H) : Extents := fun c n t d _ =>
  match e.load c (⟨n, t, .fin 1⟩ : Font XR) d true with
  | .ok v => (v.metrics.ymax.val, -v.metrics.ymin.val)
  | _ => (0, 0)

/-- If nothing has been loaded in text mode, what is answered was loaded in math mode. -/
theorem getInfo_loaded {e : TtfEnv H} {B : XR} {s : TtfSt XR H} (hS : e.Sound ⟨B, False⟩ s) {c : GoString} {f : Font XR} {d : XR}
    {v : TtfVal XR H} {s' : TtfSt XR H} (hs : IsNum f.size) (hd : IsNum d) (h : e.getInfo c f d true s = (.ok v, s')) :
    e.load c f d true = .ok v := by
  rcases getInfo_cases e c f d true s with ⟨v', h1, h2⟩ | ⟨h0, v', hl, h2⟩ | ⟨-, p, -, h2⟩ | ⟨-, -, h2⟩ <;> rw [h2] at h
  · cases h
    obtain ⟨k, hk, hks⟩ := TtfSt.find_some h1
    rcases hS.base k _ hk with hv | ⟨hf, -⟩
    · rw [same_ident hks] at hv
      exact hv
    · exact hf.elim
  · simp only [answer, key_num hs hd, if_true] at h
    cases h
    exact hl
  · cases h
  · cases h

theorem ttf_metered {e : TtfEnv H} {B : XR} {s : TtfSt XR H} (hS : e.Sound ⟨B, False⟩ s) :
    Metered (e.backend (false, s)) (ttfExtents e) (· = true) := by
  have key : ∀ c n t (z : ℚ) (d : XR), IsNum d → (e.backend (false, s)).known c ⟨n, t, .fin z⟩ d true = true → ∃ v,
      e.load c ⟨n, t, .fin z⟩ d true = .ok v ∧ (e.backend (false, s)).metrics c ⟨n, t, .fin z⟩ d true = v.metrics := by
    intro c n t z d hd hk
    simp only [TtfEnv.backend, Bool.and_eq_true] at hk
    simp only [TtfEnv.backend]
    unfold TtfEnv.metrics at hk ⊢
    cases hg : e.getInfo c ⟨n, t, .fin z⟩ d true s with
    | mk r s' =>
      rw [hg] at hk
      cases r with
      | ok v => exact ⟨v, getInfo_loaded hS ⟨z, rfl⟩ hd hg, rfl⟩
      | panic p => simp at hk
      | fuel => simp at hk
  constructor
  · rintro c n t z d m rfl ⟨d, rfl⟩ hk
    obtain ⟨v, h1, h2⟩ := key c n t z _ ⟨d, rfl⟩ hk
    obtain ⟨v1, l1, l2, l3, l4, l5⟩ := load_linear h1
    rw [h2, l5, l2]
    simp only [ttfExtents, l1]
  · rintro c n t z d m rfl ⟨d, rfl⟩ hk
    obtain ⟨v, h1, h2⟩ := key c n t z _ ⟨d, rfl⟩ hk
    obtain ⟨v1, l1, l2, l3, l4, l5⟩ := load_linear h1
    rw [h2, l4]
    simp only [ttfExtents, l1]
    congr 1; ring

theorem ttf_modest {e : TtfEnv H} {s : TtfSt XR H} (b : Bool) {size : ℚ} (h0 : 0 < size) (h1 : size ≤ 1000000000) (hr : RadicalCrosses e) :
    Modest (e.backend (b, s)) (ttfExtents e) size 72 := by
  constructor
  · intro t
    refine ⟨size / 16, ?_, by positivity, by linarith⟩
    show ttfUnderline _ _ = _
    unfold ttfUnderline
    dsimp only
    simp only [ofInt_fin, fin_mul]
    rw [show (ofRat 1 16 : XR) = .fin (1 / 16) from by show XR.fin _ = _; norm_num, fin_mul, fin_mul, fin_div _ _ (by norm_num)]
    congr 1; push_cast; ring
  · intro t
    simp only [ttfExtents]
    split
    · rename_i v hv
      obtain ⟨a, b, e1, e2, h1, h2⟩ := hr t v hv
      rw [e1, e2]
      exact ⟨h2, by simpa using h1⟩
    · exact ⟨le_refl _, le_refl _⟩

/-- The operation a drawing call leaves on the canvas, when everything is loaded in math mode. -/
def MathDrawn (e : TtfEnv H) : Draw XR → COp XR H → Prop
  | .rect x1 y1 x2 y2, op => op = .rect x1 y1 x2 y2
  | .glyph x y f c d, op => ∃ v, e.load c f d true = .ok v ∧ op = .glyph x y v.glyphD

/-- The drawing calls and the operations on the canvas, when everything is loaded in math mode. -/
theorem runDraws_math {e : TtfEnv H} {B : XR} (l : List (Draw XR)) (s s' : TtfSt XR H) (hs : e.Sound ⟨B, False⟩ s) (hn : ∀ d ∈ l, NumDraw d)
    (h : runDraws e l s = .ok ((), s')) : ∃ ops, s'.canvas.ops = s.canvas.ops ++ ops ∧ List.Forall₂ (MathDrawn e) l ops := by
  induction l generalizing s with
  | nil => cases h; exact ⟨[], by simp, .nil⟩
  | cons d l ih =>
    unfold runDraws TM.bind at h
    obtain ⟨⟨u, s1⟩, h1, h⟩ := Res.bind_eq_ok.1 h
    obtain ⟨hs1, -, -, -, -⟩ := draw_run e d s s1 hs h1
    obtain ⟨ops, ho2, hf⟩ := ih s1 hs1 (fun d hd => hn d (List.mem_cons_of_mem _ hd)) h
    cases d with
    | rect x1 y1 x2 y2 =>
      cases h1
      exact ⟨_ :: ops, by rw [ho2]; simp [TtfSt.renderRect, Canvas.renderRect, Canvas.ops], .cons rfl hf⟩
    | glyph x y f c d =>
      have hnd := hn _ List.mem_cons_self
      unfold Draw.run TtfEnv.renderGlyph at h1
      dsimp only at h1
      cases hg : e.getInfo c f d true s with
      | mk r s2 =>
        rw [hg] at h1
        cases r with
        | ok v =>
          have hl := getInfo_loaded hs hnd.2.2.1 hnd.2.2.2 hg
          have hc : s2.canvas = s.canvas := by
            rcases getInfo_cases e c f d true s with ⟨v', h1, h2⟩ | ⟨h0, v', hl, h2⟩ | ⟨-, p, -, h2⟩ | ⟨-, -, h2⟩ <;> rw [h2] at hg <;> cases hg <;> rfl
          cases h1
          exact ⟨_ :: ops, by rw [ho2]; simp [Canvas.renderGlyph, Canvas.ops, hc], .cons ⟨v, hl, rfl⟩ hf⟩
        | panic p => cases h1
        | fuel => cases h1

theorem inside_op {e : TtfEnv H} {lo hi : ℚ} {d : Draw XR} {op : COp XR H} (hn : NumDraw d) (h : Inside (ttfExtents e) (· = true) lo hi d)
    (ho : MathDrawn e d op) : OpInside lo hi op := by
  cases d with
  | rect x1 y1 x2 y2 => rw [show op = _ from ho]; exact h
  | glyph x y f c d =>
    obtain ⟨v, hl, rfl⟩ := ho
    obtain ⟨a, s, m, rfl, ha, hs, h1, h2⟩ := h
    obtain ⟨-, -, -, ⟨dq, hd⟩⟩ := hn
    obtain ⟨n, t, z⟩ := f
    dsimp only at hs hd h1 h2
    subst hs hd
    obtain ⟨v1, l1, l2, l3, -, -⟩ := load_linear hl
    simp only [ttfExtents, l1] at h1 h2
    exact ⟨a, _, _, ha, l2, l3, h1, by linarith⟩

/-- **C76** mtex.Render of formulas with TrueType fonts: what it gives to the renderer, every line and every glyph with
the extents recorded with it, lies on the page, from 0 to 72 times the height given in inches, up to half a point for
every radical or overline around it. -/
theorem C76_render (U : Nat → Bool) (e : TtfEnv H) (num : GoString → Option XR) (x : GoString) (size : ℚ) (dpi : XR)
    (hk : e.KernFine) (ht : TallGlyphs e) (hr : RadicalCrosses e) (hn : ∀ t v, num t = some v → IsNum v) (h0 : 0 < size) (h1 : size ≤ 1000000000)
    (root : Node) (hp : parseExpr U x = .ok root) (hm : OnlyMath root) (c : RenderCall XR H) (h : renderT U e num x (.fin size) dpi = .ok c) :
    ∃ page : ℚ, c.h = .fin page ∧ ∀ op ∈ c.ops, OpInside (-(barNesting root / 2)) (72 * page + barNesting root / 2) op := by
  have h72 : eq (ofInt 72 : XR) (ofInt 72) = true := IsNum.self (IsNum.int _)
  have p72 : IsPos (ofInt 72 : XR) := ⟨72, by norm_num, by rw [ofInt_fin]; simp⟩
  unfold renderT at h
  obtain ⟨⟨⟨nd, cs⟩, s⟩, hpt, h⟩ := Res.bind_eq_ok.1 h
  obtain ⟨⟨st, cs'⟩, hsh, h⟩ := Res.bind_eq_ok.1 h
  obtain ⟨⟨u, s'⟩, hrun, h⟩ := Res.bind_eq_ok.1 h
  cases h
  dsimp only at hsh hrun ⊢
  have hsim := sim_parse_math U e num x (.fin size) (ofInt 72) ⟨hk, h72⟩ root hp hm .new (sound_new e)
  unfold Simul at hsim
  rw [hpt] at hsim
  obtain ⟨hx, hS, hc, -, hb⟩ := hsim
  have hparse := hb false s (.refl s) hS
  have hnum := ttf_numeric e s hS ht
  obtain ⟨st2, cs2, hsh2, hdr⟩ := C71_drawing U _ num x _ _ zero zero hnum hn ⟨size, h0, rfl⟩ p72 IsNum.zero IsNum.zero nd cs hparse
  rw [hsh] at hsh2
  cases hsh2
  have e72 : (ofInt 72 : XR) = .fin 72 := by rw [ofInt_fin]; norm_num
  rw [e72] at hparse
  obtain ⟨w, a, d, hme, st3, cs3, hsh3, hin⟩ := C76_formula U _ (ttfExtents e) num x size 72 0 zero hnum (ttf_metered hS)
    (ttf_modest false h0 h1 hr) hn h0 (by norm_num) root hp hm nd cs hparse
  rw [← zero_fin, hsh] at hsh3
  cases hsh3
  obtain ⟨ops, ho, hf⟩ := runDraws_math st.ops s s' hS hdr hrun
  have hops : s'.canvas.ops = ops := by rw [ho, hc]; rfl
  rw [hops, hme.height, hme.depth, e72, zero_fin, fin_max, fin_add]
  refine ⟨(⌈a + max d 0⌉ : ℚ) / 72, ?_, ?_⟩
  · show XR.fin _ / XR.fin 72 = _
    rw [fin_div _ _ (by norm_num)]
  · have hle : a + d ≤ (⌈a + max d 0⌉ : ℚ) := by
      have := Int.le_ceil (a + max d 0)
      have := le_max_left d 0
      linarith
    intro op hop
    have key : ∀ (l : List (Draw XR)) (ops : List (COp XR H)), List.Forall₂ (MathDrawn e) l ops → ∀ op ∈ ops, ∃ d ∈ l, MathDrawn e d op := by
      intro l ops hf
      induction hf with
      | nil => intro op h; cases h
      | cons h _ ih =>
        intro op hop
        rcases List.mem_cons.1 hop with rfl | hop
        · exact ⟨_, List.mem_cons_self, h⟩
        · obtain ⟨d, hd, h'⟩ := ih op hop
          exact ⟨d, List.mem_cons_of_mem _ hd, h'⟩
    obtain ⟨dr, hdr1, hdr2⟩ := key _ _ hf op hop
    refine inside_op (hdr dr hdr1) ((hin dr hdr1).wider ?_ ?_) hdr2
    · linarith
    · linarith

/-! ## Concrete cases -/

example : exEnv.KernFine := fun h a b k => by simp [exEnv, exLib]
example : RadicalCrosses exEnv := by
  intro typ v h
  unfold TtfEnv.load at h
  obtain ⟨⟨ft, rn⟩, hg, h⟩ := Res.bind_eq_ok.1 h
  simp [exEnv, exLib] at h
  subst h
  have hne : (bs!"Ex" : GoString) ≠ bs!"Cmex10" := by decide
  have h1 : ∀ n : ℤ, (XR.fin 1 / ofInt 12 * ofInt n / ofInt 64 + zero : XR) = .fin (n / 768) := by
    intro n
    rw [ofInt_fin, ofInt_fin, ofInt_fin, zero_fin, fin_div _ _ (by norm_num), fin_mul, fin_div _ _ (by norm_num), fin_add]
    congr 1; push_cast; ring
  refine ⟨((-0 : ℤ) : ℚ) / 768, ((- -(rn : ℤ) : ℤ) : ℚ) / 768, ?_, ?_, ?_, ?_⟩
  · unfold ttfMetrics
    dsimp only
    rw [if_neg hne, h1]
  · unfold ttfMetrics
    dsimp only
    rw [if_neg hne, h1]
  · norm_num
  · push_cast; rw [neg_neg]; positivity
/-- The height of the page in inches and the heights between which each operation paints, with the example fonts. -/
def exPage (x : GoString) : Option (XR × List (XR × XR)) :=
  match renderT exU exEnv exNum x (.fin 10) (.fin 100) with
  | .ok c => some (c.h, c.ops.map fun | .rect _ a _ b => (a, b) | .glyph _ y g => (y - g.metrics.ymax, y - g.metrics.ymin))
  | _ => none
/-- a page of 8 points, a radical in the denominator -/
example : exPage bs!"$\\frac{1}{\\sqrt{x}}$" = some (.fin (1 / 9), [(.fin 0, .fin (343 / 768)), (.fin (1783 / 768), .fin (2263 / 768)),
    (.fin (76639 / 19200), .fin (139639 / 19200)), (.fin (3079 / 768), .fin (3415 / 768)), (.fin (4615 / 768), .fin (5455 / 768))]) := by
  decide +kernel

end Verif.Props
