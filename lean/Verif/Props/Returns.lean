import Verif.Lemmas.Resolve
import Verif.Props.Render
import Verif.Props.Shippable
/-! # C69: when mtex.Render returns -/

namespace Verif.Props
open Verif Verif.Spec GoFloat
variable {F H : Type} [GoFloat F]

/-- What the fonts have, by symbol and mode. -/
def fontHas (c _typ : GoString) (m : Bool) : Bool := resolves c m

section
variable {e : TtfEnv H} {B D : F}

theorem known_iff [EqLaws F] (s : TtfSt F H) (c : GoString) (f : Font F) (d : F) (m : Bool) :
    (e.backend (false, s)).known c f d m = true ↔ (∃ v, s.find ⟨c, f, d⟩ = some v) ∨ ∃ v, e.load c f d m = .ok v := by
  have : (e.backend (false, s)).known c f d m = (match e.metrics c f d m s with | (.ok _, _) => true | _ => false) := by
    simp only [TtfEnv.backend, Bool.not_false, Bool.true_or, Bool.and_true]
    rfl
  rw [this]
  unfold TtfEnv.metrics
  rcases getInfo_cases e c f d m s with ⟨v, h1, h2⟩ | ⟨h0, v, hl, h2⟩ | ⟨h0, p, hl, h2⟩ | ⟨h0, hl, h2⟩ <;> rw [h2] <;>
    simp_all

/-- Sound entries are about symbols that stand for a rune. -/
theorem found_resolves [EqLaws F] {s : TtfSt F H} (hs : e.Sound ⟨B, True⟩ s) {c : GoString} {f : Font F} {d : F} {v : TtfVal F H}
    (h : s.find ⟨c, f, d⟩ = some v) :
    resolves c false = true ∧ (f.typ = bs!"it" → resolves c true = true) ∧ (resolves c true = true ∨ eq f.size B = true) := by
  obtain ⟨k, hk, hks⟩ := TtfSt.find_some h
  have hks' := hks
  simp only [TtfKey.same, Bool.and_eq_true, beq_iff_eq] at hks
  obtain ⟨⟨⟨⟨h1, h2⟩, h3⟩, h4⟩, h5⟩ := hks
  refine ⟨?_, ?_, ?_⟩
  · obtain ⟨m, -, hl⟩ := hs.loaded k v hk
    rw [← h1]
    cases m
    · exact load_resolves hl
    · exact resolves_text (load_resolves hl)
  · intro ht
    rw [← h1]
    exact load_resolves (hs.italic k v hk (h3.trans ht))
  · rcases hs.base k v hk with hl | ⟨-, hb, -⟩
    · exact .inl (h1 ▸ load_resolves hl)
    · rw [hb] at h4
      exact .inr (EqLaws.symm _ _ h4)

/-- the backend in any state has at least this -/
theorem knows_least [EqLaws F] (he : Complete e) (s : TtfSt F H) :
    Knows (e.backend (false, s)) (fun c t m => (t == bs!"rm" || t == bs!"it") && resolves c m) (fun _ => true) B D True False where
  least _ c f d m _ h := by
    simp only [Bool.and_eq_true, Bool.or_eq_true, beq_iff_eq] at h
    exact (known_iff s c f d m).2 (.inr (load_complete he c f d m h.1 h.2))
  most h := h.elim
  xleast _ c f d _ h := by
    simp only [Bool.and_eq_true, Bool.or_eq_true, beq_iff_eq] at h
    show (if e.xheightOk f then some zero else none : Option F) ≠ none
    have : e.xheightOk f = true := by
      unfold TtfEnv.xheightOk
      have : ∃ ft, e.fonts.get f.typ = some ft := by
        apply Option.ne_none_iff_exists'.1
        rcases h.1 with ht | ht <;> rw [ht]
        · exact he.rm
        · exact he.it
      obtain ⟨ft, hft⟩ := this
      rw [hft]
      exact he.newFace ft
    rw [this]
    simp
  xmost h := h.elim

/-- and at most this -/
def mostHas (c t : GoString) (m : Bool) : Bool :=
  if t = bs!"it" then !m || resolves c true else if t = bs!"rm" then resolves c false else true

theorem knows_most [EqLaws F] (s : TtfSt F H) (hs : e.Sound ⟨B, True⟩ s) :
    Knows (e.backend (false, s)) mostHas (fun _ => true) B D False True where
  least h := h.elim
  xleast h := h.elim
  xmost _ _ _ _ _ := rfl
  most _ c f d m _ h := by
    unfold mostHas
    rcases (known_iff s c f d m).1 h with ⟨v, h⟩ | ⟨v, h⟩
    · obtain ⟨h1, h2, -⟩ := found_resolves hs h
      split
      · next ht => simp [h2 ht]
      · split
        · exact h1
        · rfl
    · have := load_resolves h
      split
      · cases m <;> simp_all
      · split
        · cases m
          · exact this
          · exact resolves_text this
        · rfl

theorem agree_least : Agree (fun c t m => (t == bs!"rm" || t == bs!"it") && resolves c m) fontHas where
  math c := by rfl
  text c := by rfl
  roman c _ := by rfl

theorem agree_most : Agree mostHas fontHas where
  math c := by simp [mostHas, fontHas]
  text c := by simp [mostHas, fontHas]
  roman c hc := by simp [mostHas, fontHas, roman_resolves c hc]

theorem moded_start : Moded bs!"rm" false := .inl ⟨rfl, rfl⟩

theorem parse_walk {U : Nat → Bool} {be : Backend F} {num : GoString → Option F} {x : GoString} {size dpi : F} {root : Node}
    (hp : parseExpr U x = .ok root) : mtexParse U be num x size dpi =
      walkN be num x (initState size dpi) false root >>= fun l => .ok (hbody be l) := by
  rw [mtexParse, hp, Res.ok_bind, collect_eq]

omit [GoFloat F] in
theorem textSt_init (size dpi : F) : TextSt size dpi (initState size dpi) := ⟨rfl, rfl, rfl⟩

/-- What the strict backend knows of the text. -/
def strictHas (be : Backend F) (size dpi : F) (c t : GoString) (m : Bool) : Bool :=
  m && (bs!"=" :: auxSyms).contains c || be.known c ⟨bs!"default", t, size⟩ dpi m

omit [GoFloat F] in
theorem knows_strict (be : Backend F) : Knows be (strictHas be B D) (fun _ => true) B D False True where
  least h := h.elim
  xleast h := h.elim
  xmost _ _ _ _ _ := rfl
  most _ c f d m ha h := by
    unfold strictHas
    obtain ⟨rfl, ⟨hn, rfl⟩ | ⟨rfl, hc⟩⟩ := ha
    · obtain ⟨n, t, sz⟩ := f
      have hn : n = bs!"default" := hn
      subst hn
      rw [show be.known c ⟨bs!"default", t, sz⟩ d m = true from h, Bool.or_true]
    · have : (bs!"=" :: auxSyms).contains c = true := by
        rw [List.contains_iff_mem]; exact List.mem_cons_of_mem _ hc
      rw [this]; rfl

theorem aux_resolves : ∀ c ∈ bs!"=" :: auxSyms, resolves c true = true := by decide +kernel

/-- A glyph that can be drawn is drawn. -/
theorem draw_ok [EqLaws F] (he : Complete e) {s : TtfSt F H} {x y : F} {f : Font F} {c : GoString} {d : F}
    (ht : f.typ = bs!"rm" ∨ f.typ = bs!"it") (h : resolves c true = true ∨ ∃ v, s.find ⟨c, f, d⟩ = some v) :
    ∃ s', (Draw.glyph x y f c d).run e s = .ok ((), s') := by
  have : ∃ v s', e.getInfo c f d true s = (.ok v, s') := by
    rcases getInfo_cases e c f d true s with ⟨v, h1, h2⟩ | ⟨h0, v, hl, h2⟩ | ⟨h0, p, hl, h2⟩ | ⟨h0, hl, h2⟩
    · exact ⟨_, _, h2⟩
    · exact ⟨_, _, h2⟩
    all_goals
      rcases h with h | ⟨v, h⟩
      · obtain ⟨v, hv⟩ := load_complete he c f d true ht h
        rw [hv] at hl; cases hl
      · rw [h] at h0; cases h0
  obtain ⟨v, s', hv⟩ := this
  simp only [Draw.run, TtfEnv.renderGlyph, hv]
  exact ⟨_, rfl⟩

theorem draws_ok [EqLaws F] (he : Complete e) (s0 : TtfSt F H) (l : List (Draw F)) (is : List (Ink F))
    (hi : List.Forall₂ (Prints bs!"default" D) (l.filterMap opGlyph) is)
    (hk : ∀ i ∈ is, (i.typ = bs!"rm" ∨ i.typ = bs!"it") ∧ ∀ sz, (∀ s, i.size = some s → sz = s) →
      resolves i.sym true = true ∨ ∃ v, s0.find ⟨i.sym, ⟨bs!"default", i.typ, sz⟩, D⟩ = some v)
    (s : TtfSt F H) (hs : e.Sound ⟨B, True⟩ s) (hx : s0.Ext s) : ∃ s', runDraws e l s = .ok ((), s') := by
  induction l generalizing is s with
  | nil => exact ⟨s, rfl⟩
  | cons a l ih =>
    cases a with
    | rect x1 y1 x2 y2 =>
      obtain ⟨s', h'⟩ := ih is hi hk (s.renderRect x1 y1 x2 y2) ⟨hs.loaded, hs.italic, hs.base⟩ (hx.trans (.of_glyphs rfl))
      exact ⟨s', h'⟩
    | glyph x y f c d =>
      simp only [List.filterMap_cons, opGlyph] at hi
      cases hi with
      | @cons _ i _ is' h1 h2 =>
        obtain ⟨p1, p2, p3, p4, p5⟩ := h1
        obtain ⟨fn, ft, fs⟩ := f
        dsimp only at p1 p2 p3 p4 p5
        subst p1 p2 p4 p5
        obtain ⟨ht, hk1⟩ := hk i List.mem_cons_self
        have hr : ∃ s1, (Draw.glyph x y ⟨bs!"default", i.typ, fs⟩ i.sym d).run e s = .ok ((), s1) := by
          refine draw_ok he ht ?_
          rcases hk1 fs p3 with h | ⟨v, h⟩
          · exact .inl h
          · exact .inr ⟨v, hx _ _ h⟩
        obtain ⟨s1, hr⟩ := hr
        obtain ⟨hs1, hx1, -⟩ := draw_run e _ s s1 hs hr
        obtain ⟨s', h'⟩ := ih is' h2 (fun i hi => hk i (List.mem_cons_of_mem _ hi)) s1 hs1 (hx.trans hx1)
        refine ⟨s', ?_⟩
        show ((Draw.run e _).bind fun _ => runDraws e l) s = _
        unfold TM.bind
        rw [hr]
        exact h'

theorem draws_inkable [EqLaws F] (l : List (Draw F)) (is : List (Ink F))
    (hi : List.Forall₂ (Prints bs!"default" D) (l.filterMap opGlyph) is)
    (hr : ∀ i ∈ is, i.size = none → resolves i.sym true = true)
    (s s' : TtfSt F H) (hs : e.Sound ⟨B, True⟩ s) (h : runDraws e l s = .ok ((), s')) : ∀ i ∈ is, Inkable B i := by
  induction l generalizing is s with
  | nil => cases hi; intro i hi; cases hi
  | cons a l ih =>
    obtain ⟨⟨⟨⟩, s1⟩, h1, h'⟩ := Res.bind_eq_ok.1 (show ((Draw.run e a).bind fun _ => runDraws e l) s = _ from h)
    obtain ⟨hs1, -, -⟩ := draw_run e a s s1 hs h1
    cases a with
    | rect x1 y1 x2 y2 => exact ih is hi hr s1 hs1 h'
    | glyph x y f c d =>
      simp only [List.filterMap_cons, opGlyph] at hi
      cases hi with
      | @cons _ i _ is' h1' h2 =>
        obtain ⟨p1, p2, p3, p4, p5⟩ := h1'
        dsimp only at p1 p2 p3 p4 p5
        subst p4 p5
        have hi1 : Inkable B i := by
          cases hz : i.size with
          | none => exact .inl (hr i List.mem_cons_self hz)
          | some z =>
            have hg : ∃ v s1, e.getInfo i.sym f d true s = (.ok v, s1) := by
              unfold Draw.run at h1
              dsimp only at h1
              unfold TtfEnv.renderGlyph at h1
              rcases hh : e.getInfo i.sym f d true s with ⟨r, s2⟩
              rw [hh] at h1
              cases r with
              | ok v => exact ⟨v, s2, rfl⟩
              | panic p => cases h1
              | fuel => cases h1
            rcases getInfo_cases e i.sym f d true s with ⟨v, k1, k2⟩ | ⟨h0, v, hl, k2⟩ | ⟨h0, p, hl, k2⟩ | ⟨h0, hl, k2⟩
            · rcases (found_resolves hs k1).2.2 with h | h
              · exact .inl h
              · exact .inr ⟨z, hz, p3 z hz ▸ h⟩
            · exact .inl (load_resolves hl)
            · obtain ⟨v, s1, hg⟩ := hg; rw [k2] at hg; cases hg
            · obtain ⟨v, s1, hg⟩ := hg; rw [k2] at hg; cases hg
        intro j hj
        rcases List.mem_cons.1 hj with rfl | hj
        · exact hi1
        · exact ih is' h2 (fun i hi => hr i (List.mem_cons_of_mem _ hi)) s1 hs1 h' j hj

end

/-- **C69** With fonts that answer every question, Render reaches its renderer if and only if the
expression can be parsed, every symbol of the tree can be set (in math: it is a single ASCII
character or a listed symbol; there are no scripts; ...) and every symbol set in text mode in script
size could be set in math mode too.  Otherwise it panics. -/
theorem C69_renders_iff [EqLaws F] [ZeroLaws F] (U : Nat → Bool) (e : TtfEnv H) (he : Complete e)
    (num : GoString → Option F) (x : GoString) (size dpi : F) (h72 : eq (ofInt 72 : F) (ofInt 72) = true) :
    (∃ c, renderT U e num x size dpi = .ok c) ↔
      ∃ root, parseExpr U x = .ok root ∧ drawable fontHas (fun _ => true) num bs!"rm" false false root = true ∧
        ∀ i ∈ ink bs!"rm" size false false root, Inkable size i := by
  have hsim := sim_parse U e num x size (ofInt 72) ⟨he.kern, h72⟩ .new (sound_new e)
  unfold Simul at hsim
  constructor
  · rintro ⟨c, h⟩
    unfold renderT at h
    obtain ⟨⟨⟨hd, cs⟩, s⟩, hp, h⟩ := Res.bind_eq_ok.1 h
    obtain ⟨⟨st, cs'⟩, hsh, h⟩ := Res.bind_eq_ok.1 h
    obtain ⟨⟨u, s'⟩, hr, h⟩ := Res.bind_eq_ok.1 h
    rw [hp] at hsim
    obtain ⟨hx, hs, hc, -, hb⟩ := hsim
    have hb := hb false s (.refl s) hs
    dsimp only at hb
    obtain ⟨root, hroot, hi⟩ := C59_drawn U _ num x size (ofInt 72) hd cs hb zero zero st cs' hsh
    rw [parse_walk hroot] at hb
    obtain ⟨l, hl, -⟩ := Res.bind_eq_ok.1 hb
    have hd2 := (walk_judge (num := num) (x := x) (knows_most (D := ofInt 72) s hs) (by decide +kernel) (by decide +kernel) root
      (initState size (ofInt 72)) false (textSt_init _ _)).2 trivial l hl
    have hd0 : drawable fontHas (fun _ => true) num bs!"rm" false false root = true := by
      rw [← drawable_congr agree_most root _ _ _ moded_start]; exact hd2
    refine ⟨root, hroot, hd0, ?_⟩
    refine draws_inkable st.ops _ hi (fun i hi hn => ?_) s s' hs hr
    exact roman_resolves _ ((ink_known size root _ _ _ moded_start hd0 i hi).2.2 hn) true
  · rintro ⟨root, hroot, hd0, hink⟩
    have hd1 : drawable (fun c t m => (t == bs!"rm" || t == bs!"it") && resolves c m) (fun _ => true) num bs!"rm" false false root = true := by
      rw [drawable_congr agree_least root _ _ _ moded_start]; exact hd0
    have hok : ∀ s : TtfSt F H, ∃ r, mtexParse U (e.backend (false, s)) num x size (ofInt 72) = .ok r := by
      intro s
      obtain ⟨l, hl⟩ := (walk_judge (num := num) (x := x) (knows_least (B := size) (D := ofInt 72) he s) (by decide +kernel)
        (by decide +kernel) root (initState size (ofInt 72)) false (textSt_init _ _)).1 trivial hd1
      rw [parse_walk hroot, hl]
      exact ⟨_, rfl⟩
    cases hp : mtexParseT U e num x size (ofInt 72) .new with
    | panic p =>
      rw [hp] at hsim
      obtain ⟨s', -, -, h⟩ := hsim
      obtain ⟨r, hr⟩ := hok s'
      dsimp only at h
      rw [hr] at h; cases h
    | fuel =>
      rw [hp] at hsim
      obtain ⟨s', -, -, h⟩ := hsim
      obtain ⟨r, hr⟩ := hok s'
      dsimp only at h
      rw [hr] at h; cases h
    | ok q =>
      obtain ⟨⟨hd, cs⟩, s⟩ := q
      rw [hp] at hsim
      obtain ⟨hx, hs, hc, -, hb⟩ := hsim
      have hbf := hb false s (.refl s) hs
      have hbt := hb true s (.refl s) hs
      dsimp only at hbf hbt
      obtain ⟨st, hsh⟩ := C67_shippable U _ num x size (ofInt 72) hd cs hbf zero zero
      obtain ⟨root', hroot', hi⟩ := C59_drawn U _ num x size (ofInt 72) hd cs hbf zero zero st _ hsh
      rw [hroot] at hroot'
      cases hroot'
      have hstrict : drawable (strictHas (e.backend (true, s)) size (ofInt 72)) (fun _ => true) num bs!"rm" false false root = true := by
        rw [parse_walk hroot] at hbt
        obtain ⟨l, hl, -⟩ := Res.bind_eq_ok.1 hbt
        exact (walk_judge (num := num) (x := x) (knows_strict (B := size) (D := ofInt 72) (e.backend (true, s)))
          (by simp [strictHas, auxSyms]) (by simp [strictHas]) root (initState size (ofInt 72)) false (textSt_init _ _)).2 trivial l hl
      have hdraw : ∃ s', runDraws e st.ops s = .ok ((), s') := by
        refine draws_ok (B := size) he s st.ops _ hi (fun i hi => ?_) s hs (.refl s)
        obtain ⟨ht, ⟨m, hm⟩, hn⟩ := ink_known size root _ _ _ moded_start hstrict i hi
        refine ⟨ht, fun sz hsz => ?_⟩
        rcases hink i hi with h | ⟨z, hz, hq⟩
        · exact .inl h
        · rw [strictHas, Bool.or_eq_true, Bool.and_eq_true, List.contains_iff_mem] at hm
          rcases hm with ⟨-, hm⟩ | hm
          · exact .inl (aux_resolves _ hm)
          · have hself : TtfKey.same ⟨i.sym, ⟨bs!"default", i.typ, size⟩, (ofInt 72 : F)⟩ ⟨i.sym, ⟨bs!"default", i.typ, size⟩, ofInt 72⟩ = true :=
              same_of_eq _ _ _ (EqLaws.trans _ _ _ (EqLaws.symm _ _ hq) hq) h72
            simp only [TtfEnv.backend, hself, Bool.not_true, Bool.or_false, Bool.false_or, Bool.and_eq_true] at hm
            obtain ⟨v, hv⟩ := Option.isSome_iff_exists.1 hm.2
            obtain ⟨k, hk, hks⟩ := TtfSt.find_some hv
            have hks2 : k.same ⟨i.sym, ⟨bs!"default", i.typ, sz⟩, ofInt 72⟩ = true := by
              refine TtfKey.same_trans hks ?_
              rw [hsz z hz]
              simp only [TtfKey.same, beq_self_eq_true, EqLaws.symm _ _ hq, h72, Bool.and_self]
            cases hf : s.find ⟨i.sym, ⟨bs!"default", i.typ, sz⟩, ofInt 72⟩ with
            | some v' => exact .inr ⟨v', rfl⟩
            | none => rw [TtfSt.find_none hf hk] at hks2; cases hks2
      obtain ⟨s', hs'⟩ := hdraw
      refine ⟨⟨hd.box.width / ofInt 72, ceil (hd.box.height + GoFloat.max hd.box.depth zero) / ofInt 72, dpi, s'.canvas.ops⟩, ?_⟩
      unfold renderT
      rw [hp, Res.ok_bind]
      dsimp only
      rw [hsh, Res.ok_bind]
      dsimp only
      rw [hs']
      rfl

/-- **C69** Whatever the fonts: Render does not return if a radical or a binomial is to be set in a type of font that is not
there, or of which there is no face (its x-height cannot be told), even if none of its glyphs is of that font: in `$..$`, where the type is
italic, the signs and digits are set in roman. -/
theorem C69_xheight [EqLaws F] (U : Nat → Bool) (e : TtfEnv H) (hk : e.KernFine)
    (num : GoString → Option F) (x : GoString) (size dpi : F) (h72 : eq (ofInt 72 : F) (ofInt 72) = true) (c : RenderCall F H)
    (h : renderT U e num x size dpi = .ok c) :
    ∃ root, parseExpr U x = .ok root ∧ drawable (fun _ _ _ => true)
      (fun t => match e.fonts.get t with | some ft => e.lib.newFace ft | none => false) num bs!"rm" false false root = true := by
  have hsim := sim_parse U e num x size (ofInt 72) ⟨hk, h72⟩ .new (sound_new e)
  unfold Simul at hsim
  unfold renderT at h
  obtain ⟨⟨⟨hd, cs⟩, s⟩, hp, h⟩ := Res.bind_eq_ok.1 h
  rw [hp] at hsim
  obtain ⟨hx, hs, hc, -, hb⟩ := hsim
  have hb := hb false s (.refl s) hs
  dsimp only at hb
  cases hroot : parseExpr U x with
  | panic p => rw [mtexParse, hroot] at hb; cases hb
  | fuel => rw [mtexParse, hroot] at hb; cases hb
  | ok root =>
    rw [parse_walk hroot] at hb
    obtain ⟨l, hl, -⟩ := Res.bind_eq_ok.1 hb
    refine ⟨root, rfl, ?_⟩
    refine (walk_judge (num := num) (x := x) (P := False) (Q := True) (B := size) (D := ofInt 72) ⟨fun h => h.elim, fun _ _ _ _ _ _ _ => rfl,
      fun h => h.elim, fun _ f d _ hf => ?_⟩ rfl rfl root (initState size (ofInt 72)) false (textSt_init _ _)).2 trivial l hl
    have hf : (if e.xheightOk f then some zero else none : Option F) ≠ none := hf
    cases hx : e.xheightOk f with
    | false => rw [hx] at hf; exact absurd rfl hf
    | true =>
      unfold TtfEnv.xheightOk at hx
      cases hg : e.fonts.get f.typ with
      | none => rw [hg] at hx; cases hx
      | some ft => rw [hg] at hx; exact hx

theorem listed_resolves (k : GoString) (hk : (tex2uni.lookup k).isSome = true) : resolves (ch!"\\" :: k) true = true := by
  obtain ⟨r, hk⟩ := Option.isSome_iff_exists.1 hk
  have hd : dropBackslash (ch!"\\" :: k) = k := by simp [dropBackslash]
  unfold resolves tex2unicodeIndex
  rw [hd, hk]
  generalize ch!"\\" :: k = v
  generalize firstRune v = n
  by_cases h1 : v = bs!"-"
  · rw [if_pos rfl, if_pos h1]
  · by_cases h2 : v.length = 1 ∧ n ≠ runeError
    · rw [if_pos rfl, if_neg h1, if_pos h2]
    · rw [if_pos rfl, if_neg h1, if_neg h2]

/-- The names that ParseExpr and mtex.Parse take for a glyph, and that stand for none. -/
def glyphless : List GoString := [
  bs!"\\amalg", bs!"\\ddagger", bs!"\\lhd", bs!"\\rhd", bs!"\\setminus", bs!"\\unlhd", bs!"\\unrhd",
  bs!"\\stackrel", bs!"\\genfrac", bs!"\\ldotp", bs!"\\bigsqcup", bs!"\\rm", bs!"\\cal", bs!"\\it",
  bs!"\\tt", bs!"\\sf", bs!"\\bf", bs!"\\default", bs!"\\bb", bs!"\\frak", bs!"\\scr", bs!"\\regular",
  bs!"\\omicron", bs!"\\Alpha", bs!"\\Beta", bs!"\\Epsilon", bs!"\\Zeta", bs!"\\Eta", bs!"\\Iota",
  bs!"\\Kappa", bs!"\\Mu", bs!"\\Nu", bs!"\\Omicron", bs!"\\Rho", bs!"\\Tau", bs!"\\Chi", bs!"\\mathbf",
  bs!"\\mathit", bs!"\\mathsf", bs!"\\mathtt", bs!"\\mathcal", bs!"\\mathdefault", bs!"\\mathbb",
  bs!"\\mathfrak", bs!"\\mathscr", bs!"\\mathregular", bs!"\\textbf", bs!"\\textit", bs!"\\textsf",
  bs!"\\texttt", bs!"\\textcal", bs!"\\textdefault", bs!"\\textbb", bs!"\\textfrak", bs!"\\textscr",
  bs!"\\textregular", bs!"\\operatorname"]

theorem glyphless_none : (glyphless.all fun k => !resolves k true) = true := by decide +kernel

theorem glyphless_all : ((symBinaryOperators ++ symRelationSymbols ++ symArrowSymbols ++ symPunctuationSymbols ++
    mtexMacros.map Prod.fst).all fun k => resolves k true || glyphless.contains k || k.take 1 != bs!"\\" ||
      role k != .glyph) = true := by decide +kernel

/-- **C69** finding: of the macros that ParseExpr accepts and mtex.Parse takes for a glyph, exactly these
stand for no character: in math mode each makes Render panic. -/
theorem C69_glyphless (name : GoString) (h : name.take 1 = bs!"\\") (hr : role name = .glyph) :
    resolves name true = false ↔ name ∈ glyphless := by
  by_cases hm : name ∈ symBinaryOperators ++ symRelationSymbols ++ symArrowSymbols ++ symPunctuationSymbols ++
      mtexMacros.map Prod.fst
  · constructor
    · intro hn
      have := List.all_eq_true.1 glyphless_all name hm
      rw [hn, h, hr] at this
      simpa using this
    · intro hn
      have := List.all_eq_true.1 glyphless_none name hn
      simpa using this
  · have hg : IsGlyphName name = true := by
      by_contra hg
      unfold role at hr
      repeat' split at hr
      all_goals cases hr
    unfold IsGlyphName at hg
    simp only [Bool.or_eq_true, List.contains_iff_mem, Bool.and_eq_true] at hg
    simp only [List.mem_append, not_or] at hm
    obtain ⟨⟨⟨⟨m1, m2⟩, m3⟩, m4⟩, m5⟩ := hm
    rcases hg with ((((hg | hg) | hg) | hg) | hg) | ⟨-, hg⟩
    · exact absurd hg m1
    · exact absurd hg m2
    · exact absurd hg m3
    · exact absurd hg m4
    · exact absurd hg m5
    · obtain ⟨k, rfl⟩ : ∃ k, name = ch!"\\" :: k := by
        cases name with
        | nil => cases h
        | cons a k => simp at h; exact ⟨k, by rw [h]⟩
      have hk := (lookup_contains tex2uni k).trans (List.contains_iff_mem.2 hg)
      constructor
      · intro hn
        exfalso
        rw [listed_resolves k hk] at hn
        cases hn
      · intro hn
        have := List.all_eq_true.1 glyphless_none _ hn
        rw [listed_resolves k hk] at this
        cases this

/-! ## Concrete cases -/

example : role bs!"\\setminus" = .glyph ∧ macroLookup bs!"\\setminus" ≠ none := by decide +kernel
example : Complete exEnv := by
  constructor <;> intros <;> simp [exEnv, exLib]
example : eq (ofInt 72 : XR) (ofInt 72) = true := by decide +kernel

/-- Non-ASCII letters, for the examples: only `é`. -/
def exLetters : Nat → Bool := fun r => r == 0xE9

/-- The right-hand side of C69 for the example fonts at 10 points, computed. -/
def exReturns (x : GoString) : Bool :=
  match parseExpr exLetters x with
  | .ok root => drawable fontHas (fun _ => true) exNum bs!"rm" false false root &&
      (ink bs!"rm" (.fin 10 : XR) false false root).all fun i =>
        resolves i.sym true || match i.size with | some s => eq s (.fin 10) | none => false
  | _ => false

/-- Whether Render returns with the example fonts at 10 points, computed. -/
def exRenders (x : GoString) : Bool :=
  match renderT exLetters exEnv exNum x (.fin 10) (.fin 100) with
  | .ok _ => true
  | _ => false

example : [bs!"$\\frac{1}{x}$", bs!"é", bs!"\\dfrac{é}{2}", bs!"\\setminus"].map exReturns = [true, true, true, true] := by
  decide +kernel

/-- The example fonts without the italic one. -/
def exRomanEnv : TtfEnv Unit := { exEnv with fonts := ⟨some (), some (), none, some (), some ()⟩ }
/-- **C69** cases: without an italic font, digits can be set in a formula, and a radical in text, but no radical in a formula. -/
theorem C69_noItalic : [bs!"$1$", bs!"$\\frac{1}{2}$", bs!"\\sqrt{1}", bs!"$\\sqrt{1}$"].map
    (fun x => match renderT exLetters exRomanEnv exNum x (.fin 10) (.fin 100) with | .ok _ => true | _ => false) =
    [true, true, true, false] := by decide +kernel

/-- **C69** cases: what is set in text mode and in script size must be listed for math mode too; of
the macros that are accepted some stand for no character; scripts are refused. -/
theorem C69_panics : [bs!"\\frac{é}{2}", bs!"$é$", bs!"$\\setminus$", bs!"\\frac{\\setminus}{2}", bs!"$x^2$", [0xff]].map
    exRenders = [false, false, false, false, false, false] := by
  decide +kernel

/-- **C69** cases: the same symbols can be drawn elsewhere. -/
theorem C69_returns : [bs!"é", bs!"\\dfrac{é}{2}", bs!"\\setminus"].map exRenders = [true, true, true] := by
  decide +kernel

end Verif.Props
