import Verif.Spec.Zoom
import Verif.Lemmas.Mtex
/-! # Layout commutes with changes of scale -/

namespace Verif
open GoFloat Spec
variable {F : Type} [GoFloat F] (z : Zoom F) {be be' : Backend F} {G : Bool → Prop}

theorem as_ok {α β : Type} (a : α) (f : α → β) : Res.as (.ok a) f = .ok (f a) := rfl
theorem as_panic {α β : Type} (p : Panic) (f : α → β) : Res.as (.panic p) f = .panic p := rfl
theorem as_fuel {α β : Type} (f : α → β) : Res.as .fuel f = .fuel := rfl

theorem as_bind {α β γ : Type} (r : Res α) (f : α → β) (g : β → Res γ) : (Res.as r f >>= g) = (r >>= fun a => g (f a)) := by
  cases r <;> rfl

/-- Two computations one after the other. -/
theorem bind_as {α β α' β' : Type} {r : Res α} {r' : Res α'} {f : α → α'} {g : α → Res β} {g' : α' → Res β'} {h : β → β'}
    (h1 : r' = Res.as r f) (h2 : ∀ a, r = .ok a → g' (f a) = Res.as (g a) h) : (r' >>= g') = Res.as (r >>= g) h := by
  subst h1
  cases r with
  | ok a => exact h2 a rfl
  | panic p => rfl
  | fuel => rfl

namespace Zoom'
theorem pos (a : F) : GoFloat.pos (z.len a) = GoFloat.pos a := by
  unfold GoFloat.pos
  rw [← z.lt zero a, z.zero]

theorem ltz (a : F) : GoFloat.lt (z.len a) zero = GoFloat.lt a zero := by rw [← z.lt a, z.zero]
theorem zadd (a : F) : zero + z.len a = z.len (zero + a) := by rw [← z.add, z.zero]
theorem lti (a : F) : GoFloat.lt inf (z.len a) = GoFloat.lt inf a := by rw [← z.lt inf a, z.inf]
end Zoom'

theorem nodes_eq (l : List (TNode F)) : z.nodes l = l.map z.node := by
  induction l with
  | nil => rfl
  | cons n l ih => rw [Zoom.nodes, ih]; rfl

theorem zoom_width (n : TNode F) : (z.node n).width = z.len n.width := by cases n <;> rfl
theorem zoom_height (n : TNode F) : (z.node n).height = z.len n.height := by cases n <;> first | rfl | exact z.zero.symm
theorem zoom_depth (n : TNode F) : (z.node n).depth = z.len n.depth := by cases n <;> first | rfl | exact z.zero.symm

theorem zoom_boxShrink (b : BoxD F) : (z.box b).shrink = z.box b.shrink := by
  unfold BoxD.shrink
  split
  · rename_i h
    rw [if_pos (by exact h)]
    simp only [Zoom.box, z.mulr]
  · rename_i h
    rw [if_neg (by exact h)]
    simp only [Zoom.box]

theorem zoom_charShrink (c : CharD F) : (z.char c).shrink = z.char c.shrink := by
  unfold CharD.shrink
  split
  · rename_i h
    rw [if_pos (by exact h)]
    simp only [Zoom.char, Zoom.font, z.mulr, z.size]
  · rename_i h
    rw [if_neg (by exact h)]
    simp only [Zoom.char]

theorem zoom_headShrink (c : LHead F) : (z.head c).shrink = z.head c.shrink := by
  unfold LHead.shrink
  split
  · rename_i h
    rw [if_pos (by exact h)]
    simp only [Zoom.head, zoom_boxShrink, z.mulr]
  · rename_i h
    rw [if_neg (by exact h)]
    simp only [Zoom.head, zoom_boxShrink]

theorem zoom_glueShrink (c : GlueD F) : (z.glue c).shrinkG = z.glue c.shrinkG := by
  unfold GlueD.shrinkG
  split
  · rename_i h
    rw [if_pos (by exact h)]
    simp only [Zoom.glue, z.mulr]
  · rename_i h
    rw [if_neg (by exact h)]
    simp only [Zoom.glue]

theorem zoom_kernShrink (c : KernD F) : (z.kern c).shrink = z.kern c.shrink := by
  unfold KernD.shrink
  split
  · rename_i h
    rw [if_pos (by exact h)]
    simp only [Zoom.kern, z.mulr]
  · rename_i h
    rw [if_neg (by exact h)]
    simp only [Zoom.kern]

theorem zoom_zeroMetrics : z.metrics ⟨zero, zero, zero, zero, zero, zero, zero, zero⟩ = ⟨zero, zero, zero, zero, zero, zero, zero, zero⟩ := by
  simp only [Zoom.metrics, z.zero]

/-- A state at another scale. -/
def Spec.Zoom.state (st : TState F) : TState F := ⟨z.font st.font, z.res st.dpi⟩

theorem zoom_withType (st : TState F) (t : GoString) : (z.state st).withType t = z.state (st.withType t) := rfl

theorem zoom_rawChar (c : GoString) (st : TState F) (m : Bool) : rawChar c (z.state st) m = z.char (rawChar c st m) := by
  simp only [rawChar, Zoom.char, z.zero, zoom_zeroMetrics, Zoom.state]

theorem zoom_updateMetrics (hb : Zoomed z be be' G) (c : CharD F) (hm : G c.math) : (z.char c).updateMetrics be' = z.char (c.updateMetrics be) := by
  unfold CharD.updateMetrics
  have h : be'.metrics (z.char c).c (z.char c).font (z.char c).dpi (z.char c).math = z.metrics (be.metrics c.c c.font c.dpi c.math) := hb.metrics _ _ _ _ hm
  dsimp only
  rw [h]
  by_cases hc : c.c = bs!" "
  · simp only [Zoom.char, hc, if_true, Zoom.metrics, z.sub, z.neg]
  · simp only [Zoom.char, hc, if_false, Zoom.metrics, z.sub, z.neg]

theorem zoom_newChar (hb : Zoomed z be be' G) (c : GoString) (st : TState F) (m : Bool) (hm : G m) :
    newChar be' c (z.state st) m = Res.as (newChar be c st m) z.char := by
  unfold newChar
  rw [show be'.known c (z.state st).font (z.state st).dpi m = be.known c st.font st.dpi m from hb.known _ _ _ _ hm]
  split
  · rw [zoom_rawChar, zoom_updateMetrics z hb _ hm]; rfl
  · rfl

mutual
/-- no accents inside -/
def NoMark : TNode F → Prop
  | .accent _ => False
  | .list _ _ cs => NoMarks cs
  | _ => True
/-- no accents inside -/
def NoMarks : List (TNode F) → Prop
  | [] => True
  | n :: l => NoMark n ∧ NoMarks l
end

mutual
theorem zoom_shrink : ∀ n : TNode F, NoMark n → (z.node n).shrink be' = z.node (n.shrink be)
  | .box b, _ => by simp only [Zoom.node, TNode.shrink, zoom_boxShrink]
  | .rule b, _ => by simp only [Zoom.node, TNode.shrink, zoom_boxShrink]
  | .char c, _ => by simp only [Zoom.node, TNode.shrink, zoom_charShrink]
  | .accent c, h => h.elim
  | .glue c, _ => by simp only [Zoom.node, TNode.shrink, zoom_glueShrink]
  | .kern c, _ => by simp only [Zoom.node, TNode.shrink, zoom_kernShrink]
  | .list k hd cs, h => by
    simp only [Zoom.node, TNode.shrink, zoom_headShrink]
    rw [zoom_shrinkAll cs (by rw [NoMark] at h; exact h)]
theorem zoom_shrinkAll : ∀ l : List (TNode F), NoMarks l → shrinkAll be' (z.nodes l) = z.nodes (shrinkAll be l)
  | [], _ => rfl
  | n :: l, h => by
    rw [NoMarks] at h
    simp only [Zoom.nodes, shrinkAll]
    rw [zoom_shrink n h.1, zoom_shrinkAll l h.2]
end

theorem zoom_charKerning (hb : Zoomed z be be' G) (c : CharD F) (next : Option (TNode F)) :
    (z.char c).kerning be' (next.map z.node) = z.len (c.kerning be next) := by
  unfold CharD.kerning
  have hz : (z.len zero : F) = zero := z.zero
  cases next with
  | none => simp only [Option.map_none, Zoom.char, Zoom.metrics, z.sub]; rw [← z.add, hz]
  | some n =>
    have hk : ∀ d : CharD F, be'.kern (z.char c).font (z.char c).c (z.char d).font (z.char d).c (z.char c).dpi = z.len (be.kern c.font c.c d.font d.c c.dpi) :=
      fun d => hb.kern _ _ _ _ _
    cases n with
    | char d =>
      simp only [Option.map_some, Zoom.node, hk]
      simp only [Zoom.char, Zoom.metrics, z.sub, z.add]
    | accent d =>
      simp only [Option.map_some, Zoom.node, hk]
      simp only [Zoom.char, Zoom.metrics, z.sub, z.add]
    | _ => simp only [Option.map_some, Zoom.node, Zoom.char, Zoom.metrics, z.sub]; rw [← z.add, hz]

theorem zoom_kerning (hb : Zoomed z be be' G) (n : TNode F) (next : Option (TNode F)) :
    (z.node n).kerning be' (next.map z.node) = z.len (n.kerning be next) := by
  cases n with
  | char c => exact zoom_charKerning z hb c next
  | accent c => exact zoom_charKerning z hb c next
  | _ => exact z.zero.symm

theorem zoom_insertKerns (hb : Zoomed z be be' G) (l : List (TNode F)) : insertKerns be' (z.nodes l) = z.nodes (insertKerns be l) := by
  induction l with
  | nil => rfl
  | cons n l ih =>
    have hh : (z.nodes l).head? = l.head?.map z.node := by cases l <;> rfl
    simp only [Zoom.nodes, insertKerns, hh, zoom_kerning z hb, z.eqz, ih]
    split <;> rfl

/-- The accumulators at another scale. -/
def Spec.Zoom.dims (p : Dims F) : Dims F := ⟨z.len p.x, z.len p.a, z.len p.b, p.st, p.sh⟩

theorem zoom_dimsZero : z.dims Dims.zero = Dims.zero := by simp only [Zoom.dims, Dims.zero, z.zero]

theorem zoom_hpackDims (n : TNode F) (p : Dims F) : hpackDims (z.node n) (z.dims p) = z.dims (hpackDims n p) := by
  cases n with
  | box b =>
    simp only [Zoom.node, hpackDims, Zoom.box, z.isInf]
    split <;> simp only [Zoom.dims, z.add, z.max]
  | rule b =>
    simp only [Zoom.node, hpackDims, Zoom.box, z.isInf]
    split <;> simp only [Zoom.dims, z.add, z.max]
  | char c => simp only [Zoom.node, hpackDims, Zoom.char, Zoom.dims, z.add, z.max]
  | accent c => simp only [Zoom.node, hpackDims, Zoom.char, Zoom.dims, z.add, z.max]
  | list k hd cs =>
    simp only [Zoom.node, hpackDims, Zoom.head, Zoom.box, z.isInf]
    split <;> simp only [Zoom.dims, z.add, z.sub, z.max]
  | glue g => simp only [Zoom.node, hpackDims, Zoom.glue, Zoom.dims, z.add]
  | kern k => simp only [Zoom.node, hpackDims, Zoom.kern, Zoom.dims, z.add]

theorem zoom_hfold (l : List (TNode F)) (p : Dims F) :
    (z.nodes l).foldl (fun p n => hpackDims n p) (z.dims p) = z.dims (l.foldl (fun p n => hpackDims n p) p) := by
  induction l generalizing p with
  | nil => rfl
  | cons n l ih => simp only [Zoom.nodes, List.foldl_cons, zoom_hpackDims, ih]

theorem zoom_setGlue (hd : LHead F) (x : F) (s : Int) (t : Fin 4 → F) : setGlue (z.head hd) (z.len x) s t = z.head (setGlue hd x s t) := by
  unfold setGlue
  dsimp only
  split <;> simp only [Zoom.head, z.div]

theorem zoom_finishGlue (hd : LHead F) (x : F) (st sh : Fin 4 → F) : finishGlue (z.head hd) (z.len x) st sh = z.head (finishGlue hd x st sh) := by
  unfold finishGlue
  rw [z.eqz, Zoom'.pos]
  split
  · rfl
  · split <;> rw [zoom_setGlue]

theorem zoom_hpack (hd : LHead F) (cs : List (TNode F)) (w : F) (a : Bool) : hpack (z.head hd) (z.nodes cs) (z.len w) a = z.head (hpack hd cs w a) := by
  unfold hpack
  have h := zoom_hfold z cs Dims.zero
  rw [zoom_dimsZero] at h
  dsimp only
  rw [h, ← zoom_finishGlue]
  cases a <;> simp only [Bool.false_eq_true, if_true, if_false, Zoom.head, Zoom.box, Zoom.dims, z.add, z.sub]

theorem zoom_headZero : z.head LHead.zero = LHead.zero := by simp only [Zoom.head, Zoom.box, LHead.zero, z.zero]

theorem zoom_hpack0 (cs : List (TNode F)) : hpack LHead.zero (z.nodes cs) zero true = z.head (hpack LHead.zero cs zero true) := by
  rw [← zoom_hpack, zoom_headZero, z.zero]

theorem zoom_hbody (hb : Zoomed z be be' G) (l : List (TNode F)) : hbody be' (z.nodes l) = (z.head (hbody be l).1, z.nodes (hbody be l).2) := by
  simp only [hbody, zoom_insertKerns z hb, zoom_hpack0]

theorem zoom_hlistOf (hb : Zoomed z be be' G) (l : List (TNode F)) : hlistOf be' (z.nodes l) true = z.node (hlistOf be l true) := by
  simp only [hlistOf, if_true, zoom_insertKerns z hb, zoom_hpack0, Zoom.node]

theorem zoom_vpackDims (n : TNode F) (p : Dims F) : vpackDims (z.node n) (z.dims p) = Res.as (vpackDims n p) z.dims := by
  have hz : (z.len zero : F) = zero := z.zero
  cases n with
  | box b =>
    simp only [Zoom.node, vpackDims, Zoom.box, z.isInf, as_ok, Zoom.dims, z.add]
    split <;> simp only [z.max]
  | rule b =>
    simp only [Zoom.node, vpackDims, Zoom.box, z.isInf, as_ok, Zoom.dims, z.add]
    split <;> simp only [z.max]
  | char c => rfl
  | accent c => rfl
  | list k hd cs =>
    simp only [Zoom.node, vpackDims, Zoom.head, Zoom.box, z.isInf, as_ok, Zoom.dims, z.add]
    split <;> simp only [z.max]
  | glue g => simp only [Zoom.node, vpackDims, Zoom.glue, as_ok, Zoom.dims, z.add, hz]
  | kern k => simp only [Zoom.node, vpackDims, Zoom.kern, as_ok, Zoom.dims, z.add, hz]

theorem zoom_vpackAll (l : List (TNode F)) (p : Dims F) : vpackAll (z.nodes l) (z.dims p) = Res.as (vpackAll l p) z.dims := by
  induction l generalizing p with
  | nil => rfl
  | cons n l ih =>
    simp only [Zoom.nodes, vpackAll]
    exact bind_as (zoom_vpackDims z n p) fun q _ => ih q

theorem zoom_vpack (hd : LHead F) (cs : List (TNode F)) (h : F) (a : Bool) (l : F) :
    vpack (z.head hd) (z.nodes cs) (z.len h) a (z.len l) = Res.as (vpack hd cs h a l) z.head := by
  unfold vpack
  have hv := zoom_vpackAll z cs Dims.zero
  rw [zoom_dimsZero] at hv
  refine bind_as hv fun p _ => ?_
  rw [as_ok, ← zoom_finishGlue]
  simp only [Zoom.dims, z.lt]
  generalize GoFloat.lt l p.b = b
  cases b <;> cases a <;> simp only [Bool.false_eq_true, if_true, if_false, Zoom.head, Zoom.box, z.add, z.sub]

theorem zoom_vpack0 (cs : List (TNode F)) : vpack LHead.zero (z.nodes cs) zero true inf = Res.as (vpack LHead.zero cs zero true inf) z.head := by
  rw [← zoom_vpack, zoom_headZero, z.zero, z.inf]

theorem zoom_hrule (hb : Zoomed z be be' G) (st : TState F) (t : F) : hrule be' (z.state st) (z.len t) = z.node (hrule be st t) := by
  unfold hrule
  have hu : be'.underline (z.state st).font (z.state st).dpi = z.len (be.underline st.font st.dpi) := hb.underline _ _
  rw [Zoom'.ltz, hu]
  split <;> simp only [newRule, newBox, Zoom.node, Zoom.box, z.mull, z.inf]

theorem zoom_hruleLine (hb : Zoomed z be be' G) (hneg : GoFloat.lt (ofInt (-1) : F) zero = true) (st : TState F) :
    hrule be' (z.state st) (ofInt (-1)) = z.node (hrule be st (ofInt (-1))) := by
  unfold hrule
  have hu : be'.underline (z.state st).font (z.state st).dpi = z.len (be.underline st.font st.dpi) := hb.underline _ _
  rw [hneg, hu]
  simp only [if_true, newRule, newBox, Zoom.node, Zoom.box, z.mull, z.inf]

theorem zoom_hbox (w : F) : hbox (z.len w) = z.node (hbox w) := by simp only [hbox, newBox, Zoom.node, Zoom.box, z.zero]
theorem zoom_vbox (d : F) : vbox zero (z.len d) = z.node (vbox zero d) := by simp only [vbox, newBox, Zoom.node, Zoom.box, z.zero]
theorem zoom_newKern (w : F) : newKern (z.len w) = z.node (newKern w) := rfl

theorem zoom_autoHeightChar (hb : Zoomed z be be' G) (hG : G true) (c : GoString) (h d : F) (st : TState F) :
    autoHeightChar be' c (z.len h) (z.len d) (z.state st) zero = Res.as (autoHeightChar be c h d st zero) z.node := by
  have hx := hb.xheight st.font st.dpi
  unfold autoHeightChar
  show (match be'.xheight (z.font st.font) (z.res st.dpi) with | none => _ | some _ => _) = _
  cases h1 : be'.xheight (z.font st.font) (z.res st.dpi) with
  | none =>
    cases h2 : be.xheight st.font st.dpi with
    | none => rfl
    | some v => rw [h1, h2] at hx; cases hx
  | some w =>
  cases h2 : be.xheight st.font st.dpi with
  | none => rw [h1, h2] at hx; cases hx
  | some v =>
  dsimp only
  unfold autoHeightBody
  refine bind_as (zoom_newChar z hb c st true hG) fun ch _ => ?_
  have hn : (z.state st).font.name = st.font.name := rfl
  dsimp only
  rw [hn]
  have hf : (if eq (zero : F) zero then (z.len h + z.len d) / ((z.char ch).height + (z.char ch).depth) else zero) =
      if eq (zero : F) zero then (h + d) / (ch.height + ch.depth) else zero := by
    simp only [Zoom.char, z.add, z.ratio]
  rw [hf]
  split
  · refine bind_as (r := newChar be c _ true) (f := z.char) ?_ fun ch' _ => ?_
    · have := zoom_newChar z hb c { st with font := { st.font with size := st.font.size * if eq (zero : F) zero then (h + d) / (ch.height + ch.depth) else zero } } true hG
      rw [← this]
      simp only [Zoom.state, Zoom.font, z.size]
    · have h1 := zoom_insertKerns z hb [.char ch']
      simp only [Zoom.nodes, Zoom.node] at h1
      rw [h1, zoom_hpack0, as_ok]
      simp only [Zoom.node, Zoom.head, Zoom.char, z.sub]
  · have h1 := zoom_insertKerns z hb [.char ch]
    simp only [Zoom.nodes, Zoom.node] at h1
    rw [h1, zoom_hpack0, as_ok]
    simp only [Zoom.node, Zoom.head, z.zero]

theorem zoom_makeSpace (hb : Zoomed z be be' G) (hG : G true) (st : TState F) (w : F) :
    makeSpace be' (z.state st) w = Res.as (makeSpace be st w) z.node := by
  unfold makeSpace
  have hk : be'.known bs!"m" { (z.state st).font with name := bs!"it", typ := mathDefault } (z.state st).dpi true =
    be.known bs!"m" { st.font with name := bs!"it", typ := mathDefault } st.dpi true := hb.known _ { st.font with name := bs!"it", typ := mathDefault } _ _ hG
  have hm : be'.metrics bs!"m" { (z.state st).font with name := bs!"it", typ := mathDefault } (z.state st).dpi true =
    z.metrics (be.metrics bs!"m" { st.font with name := bs!"it", typ := mathDefault } st.dpi true) := hb.metrics _ { st.font with name := bs!"it", typ := mathDefault } _ _ hG
  dsimp only
  rw [hk, hm]
  split
  · simp only [Zoom.metrics, z.mulr, as_ok]; rfl
  · rfl

theorem zoom_handleSymbol (hb : Zoomed z be be' G) (hG : G true) (x : GoString) (pos : Nat) (t : GoString) (st : TState F) (m : Bool) (hm : G m) :
    handleSymbol be' x pos t (z.state st) m = Res.as (handleSymbol be x pos t st m) z.node := by
  unfold handleSymbol
  refine bind_as (zoom_newChar z hb t st m hm) fun ch _ => ?_
  dsimp only
  generalize isSpaced t = b1
  generalize (setHas (newSet symBinaryOperators) t && (prevChar (x.take pos) == bs!"{" || setHas (newSet symLeftDelim) (prevChar (x.take pos)))) = b2
  generalize setHas (newSet symPunctuationSymbols) t = b3
  cases b1
  · simp only [Bool.false_eq_true, if_false]
    cases b3
    · rfl
    · simp only [if_true]
      split
      · split
        · rfl
        · refine bind_as (zoom_makeSpace z hb hG st _) fun k _ => ?_
          have := zoom_hlistOf z hb [.char ch, k]
          rw [as_ok, ← this]; rfl
      · rfl
  · simp only [if_true]
    cases b2
    · refine bind_as (zoom_makeSpace z hb hG st _) fun k _ => bind_as (zoom_makeSpace z hb hG st _) fun k' _ => ?_
      have := zoom_hlistOf z hb [k, .char ch, k']
      rw [as_ok, ← this]; rfl
    · rfl

theorem zoom_handleSpace (hb : Zoomed z be be' G) (hG : G true) (t : GoString) (st : TState F) :
    handleSpace be' t (z.state st) = Res.as (handleSpace be t st) z.node := by
  unfold handleSpace
  split
  · exact zoom_makeSpace z hb hG st _
  · rfl

theorem zoom_newChars (hb : Zoomed z be be' G) (st : TState F) (m : Bool) (hm : G m) (l : List Ch) :
    newChars be' (z.state st) m l = Res.as (newChars be st m l) z.nodes := by
  induction l with
  | nil => rfl
  | cons c l ih => exact bind_as (zoom_newChar z hb _ st m hm) fun ch _ => bind_as ih fun r _ => rfl

theorem zoom_literalChars (hb : Zoomed z be be' G) (hG : G true) (x : GoString) (st : TState F) (m : Bool) (hm : G m) (l : List Ch) :
    literalChars be' x (z.state st) m l = Res.as (literalChars be x st m l) z.nodes := by
  induction l with
  | nil => rfl
  | cons c l ih => exact bind_as (zoom_handleSymbol z hb hG x 0 _ st m hm) fun ch _ => bind_as ih fun r _ => rfl

theorem zoom_handleFunction (hb : Zoomed z be be' G) (t : GoString) (st : TState F) (m : Bool) (hm : G m) :
    handleFunction be' t (z.state st) m = Res.as (handleFunction be t st m) z.node := by
  unfold handleFunction
  rw [zoom_withType]
  refine bind_as (zoom_newChars z hb _ m hm _) fun l _ => ?_
  rw [zoom_hlistOf z hb]; rfl

theorem zoom_maxDims (l : List (TNode F)) : maxDims (z.nodes l) = (z.len (maxDims l).1, z.len (maxDims l).2) := by
  unfold maxDims
  have key : ∀ (l : List (TNode F)) (q : F × F), (z.nodes l).foldl (fun q n => (GoFloat.max q.1 n.height, GoFloat.max q.2 n.depth)) (z.len q.1, z.len q.2) =
      (z.len (l.foldl (fun q n => (GoFloat.max q.1 n.height, GoFloat.max q.2 n.depth)) q).1,
       z.len (l.foldl (fun q n => (GoFloat.max q.1 n.height, GoFloat.max q.2 n.depth)) q).2) := by
    intro l
    induction l with
    | nil => intro q; rfl
    | cons n l ih =>
      intro q
      simp only [Zoom.nodes, List.foldl_cons, zoom_height, zoom_depth, z.max]
      exact ih (GoFloat.max q.1 n.height, GoFloat.max q.2 n.depth)
  have := key l (zero, zero)
  rw [z.zero] at this
  exact this

theorem zoom_nodes_append (a b : List (TNode F)) : z.nodes (a ++ b) = z.nodes a ++ z.nodes b := by
  rw [nodes_eq, nodes_eq, nodes_eq, List.map_append]

theorem zoom_autoSizedDelimiter (hb : Zoomed z be be' G) (hG : G true) (l : GoString) (mid : List (TNode F)) (r : GoString) (st : TState F) :
    autoSizedDelimiter be' l (z.nodes mid) r (z.state st) = Res.as (autoSizedDelimiter be l mid r st) z.node := by
  unfold autoSizedDelimiter
  dsimp only
  rw [zoom_maxDims]
  refine bind_as (zoom_autoHeightChar z hb hG _ _ _ _) fun a _ => bind_as (zoom_autoHeightChar z hb hG _ _ _ _) fun b _ => ?_
  rw [as_ok, ← zoom_hlistOf z hb]
  simp only [Zoom.nodes, zoom_nodes_append, List.cons_append]

theorem zoom_ssGlue : z.glue ssGlue = ssGlue := by simp only [Zoom.glue, ssGlue, z.zero]

theorem zoom_centredTo (n : TNode F) (w : F) : centredTo (z.node n) (z.len w) = (z.head (centredTo n w).1, z.nodes (centredTo n w).2) := by
  have h : ∀ n : TNode F, ([.glue ssGlue, z.node n, .glue ssGlue] : List (TNode F)) = z.nodes [.glue ssGlue, n, .glue ssGlue] := fun n => by
    simp only [Zoom.nodes, Zoom.node, zoom_ssGlue]
  unfold centredTo
  dsimp only
  rw [h, zoom_hpack0, zoom_hpack]

theorem zoom_setShift (hd : LHead F) (s : F) : (z.head hd).setShift (z.len s) = z.head (hd.setShift s) := rfl

/-- Numerator or denominator, made smaller or not. -/
theorem zoom_small (n : TNode F) (hn : NoMark n) (b : Bool) : (if b then z.node n else (z.node n).shrink be') = z.node (if b then n else n.shrink be) := by
  cases b
  · exact zoom_shrink z n hn
  · rfl

theorem zoom_genfrac (hb : Zoomed z be be' G) (hG : G true) (delims : Bool) (rule : F) (ds : Bool) (num den : TNode F) (hn : NoMark num) (hd : NoMark den)
    (st : TState F) :
    genfrac be' delims (z.len rule) ds (z.node num) (z.node den) (z.state st) = Res.as (genfrac be delims rule ds num den st) z.node := by
  unfold genfrac
  have hu : be'.underline (z.state st).font (z.state st).dpi = z.len (be.underline st.font st.dpi) := hb.underline _ _
  dsimp only
  rw [hu, zoom_small z (be := be) num hn, zoom_small z (be := be) den hd]
  generalize (if ds = true then num else num.shrink be) = a
  generalize (if ds = true then den else den.shrink be) = b
  generalize ht : be.underline st.font st.dpi = t
  rw [zoom_width, zoom_width, z.max, zoom_centredTo, zoom_centredTo, z.mulr, zoom_vbox, zoom_hrule z hb]
  have hcs : ∀ (q r : LHead F × List (TNode F)) (s u : TNode F), ([.list .h (z.head q.1) (z.nodes q.2), z.node s, z.node u, z.node s, .list .h (z.head r.1) (z.nodes r.2)] : List (TNode F)) =
      z.nodes [.list .h q.1 q.2, s, u, s, .list .h r.1 r.2] := fun q r s u => by simp only [Zoom.nodes, Zoom.node]
  dsimp only
  rw [hcs]
  refine bind_as (zoom_vpack0 z _) fun h _ => ?_
  rw [zoom_withType]
  have hk : be'.known bs!"=" (z.state (st.withType mathDefault)).font (z.state st).dpi true =
    be.known bs!"=" (st.withType mathDefault).font st.dpi true := hb.known _ _ _ _ hG
  have hm : be'.metrics bs!"=" (z.state (st.withType mathDefault)).font (z.state st).dpi true =
    z.metrics (be.metrics bs!"=" (st.withType mathDefault).font st.dpi true) := hb.metrics _ _ _ _ hG
  rw [hk, hm]
  split
  · simp only [Zoom.metrics, z.add, z.div, z.mull, z.sub, zoom_hbox]
    have h1 : (z.head (centredTo b (GoFloat.max a.width b.width)).1).box.height = z.len (centredTo b (GoFloat.max a.width b.width)).1.box.height := rfl
    rw [h1, z.sub, zoom_setShift]
    generalize (h.setShift _) = h'
    generalize hbox (ofInt 2 * t) = e
    have h2 : ∀ (h' : LHead F) (cs : List (TNode F)) (e : TNode F), ([.list .v (z.head h') (z.nodes cs), z.node e] : List (TNode F)) = z.nodes [.list .v h' cs, e] :=
      fun _ _ _ => by simp only [Zoom.nodes, Zoom.node]
    rw [h2, zoom_hlistOf z hb]
    split
    · exact zoom_autoSizedDelimiter z hb hG _ [_] _ st
    · rfl
  · rfl

theorem zoom_ruled (hb : Zoomed z be be' G) (hneg : GoFloat.lt (ofInt (-1) : F) zero = true) (st : TState F) (body : TNode F) (h d : F) :
    ruled be' (z.state st) (z.node body) (z.len h) (z.len d) = Res.as (ruled be st body h d) z.node := by
  unfold ruled
  refine bind_as (r := newGlue bs!"fill") (f := z.glue) ?_ fun g _ => ?_
  · show (Res.ok _ : Res (GlueD F)) = .ok _
    simp only [Zoom.glue, z.zero]
  · dsimp only
    rw [zoom_hruleLine z hb hneg]
    have hcs : ∀ a b c : TNode F, ([z.node a, z.node b, z.node c] : List (TNode F)) = z.nodes [a, b, c] := fun _ _ _ => rfl
    have hg : (.glue (z.glue g) : TNode F) = z.node (.glue g) := rfl
    rw [hg, hcs]
    refine bind_as (zoom_vpack0 z _) fun h' _ => ?_
    rw [show (z.state st).font.size * (z.state st).dpi = z.len (st.font.size * st.dpi) from z.area _ _, z.div, z.add]
    exact bind_as (zoom_vpack z _ _ _ _ _) fun h' _ => rfl

/-- The sign of the radical is a list. -/
theorem autoHeight_list {be : Backend F} {c : GoString} {h d : F} {st : TState F} {f : F} {n : TNode F} (e : autoHeightChar be c h d st f = .ok n) :
    ∃ hd cs, n = .list .h hd cs := by
  replace e := autoHeightChar_ok e
  unfold autoHeightBody at e
  obtain ⟨ch, -, e⟩ := Res.bind_eq_ok.1 e
  dsimp only at e
  split at e
  · obtain ⟨ch', -, e⟩ := Res.bind_eq_ok.1 e
    cases e
    exact ⟨_, _, rfl⟩
  · cases e
    exact ⟨_, _, rfl⟩

mutual
theorem noMark_shrink (be : Backend F) : ∀ n : TNode F, NoMark n → NoMark (n.shrink be)
  | .box b, _ => trivial
  | .rule b, _ => trivial
  | .char c, _ => trivial
  | .accent c, h => h.elim
  | .glue c, _ => trivial
  | .kern c, _ => trivial
  | .list k hd cs, h => by
    rw [NoMark] at h
    simp only [TNode.shrink, NoMark]
    exact noMarks_shrink be cs h
theorem noMarks_shrink (be : Backend F) : ∀ l : List (TNode F), NoMarks l → NoMarks (shrinkAll be l)
  | [], _ => trivial
  | n :: l, h => by
    rw [NoMarks] at h
    simp only [shrinkAll, NoMarks]
    exact ⟨noMark_shrink be n h.1, noMarks_shrink be l h.2⟩
end

theorem zoom_buildSqrt (hb : Zoomed z be be' G) (hG : G true) (hneg : GoFloat.lt (ofInt (-1) : F) zero = true) (root : Option (TNode F))
    (hr : ∀ n, root = some n → NoMark n) (hd : LHead F) (cs : List (TNode F)) (st : TState F) :
    buildSqrt be' (root.map z.node) (z.head hd) (z.nodes cs) (z.state st) = Res.as (buildSqrt be root hd cs st) z.node := by
  unfold buildSqrt
  have hu : be'.underline (z.state st).font (z.state st).dpi = z.len (be.underline st.font st.dpi) := hb.underline _ _
  dsimp only
  rw [hu]
  generalize be.underline st.font st.dpi = t
  have h1 : (z.head hd).box.height - (z.head hd).shift + ofInt 5 * z.len t = z.len (hd.box.height - hd.shift + ofInt 5 * t) := by
    simp only [Zoom.head, Zoom.box, z.mull, z.sub, z.add]
  have h2 : (z.head hd).box.depth + (z.head hd).shift = z.len (hd.box.depth + hd.shift) := by
    simp only [Zoom.head, Zoom.box, z.add]
  rw [h1, h2]
  refine bind_as (zoom_autoHeightChar z hb hG _ _ _ _) fun check hc => ?_
  obtain ⟨chd, ccs, rfl⟩ := autoHeight_list hc
  have hw : (z.node (.list .h chd ccs)).width = z.len (TNode.width (.list .h chd ccs)) := zoom_width z _
  rw [hw]
  simp only [Zoom.node, TNode.height, TNode.depth]
  have h3 : (z.head chd).box.height - (z.head chd).shift = z.len (chd.box.height - chd.shift) := by
    simp only [Zoom.head, Zoom.box, z.sub]
  have h4 : (z.head chd).box.depth + (z.head chd).shift = z.len (chd.box.depth + chd.shift) := by
    simp only [Zoom.head, Zoom.box, z.add]
  rw [h3, h4, z.mull, zoom_hbox]
  have h5 : ∀ a : TNode F, ([z.node a, .list .h (z.head hd) (z.nodes cs), z.node a] : List (TNode F)) = z.nodes [a, .list .h hd cs, a] := fun _ => by
    simp only [Zoom.nodes, Zoom.node]
  rw [h5, zoom_hlistOf z hb]
  refine bind_as (zoom_ruled z hb hneg st _ _ _) fun rhs _ => ?_
  have tail : ∀ rt : TNode F, (vpack LHead.zero [hlistOf be' [z.node rt] true] zero true inf >>= fun hd =>
      .ok (hlistOf be' [.list .v (hd.setShift (-z.len (chd.box.height - chd.shift) * ofRat 6 10)) [hlistOf be' [z.node rt] true],
        newKern (-z.len (TNode.width (.list .h chd ccs)) * ofRat 5 10), .list .h (z.head chd) (z.nodes ccs), z.node rhs] true)) =
      Res.as (vpack LHead.zero [hlistOf be [rt] true] zero true inf >>= fun hd =>
      .ok (hlistOf be [.list .v (hd.setShift (-(chd.box.height - chd.shift) * ofRat 6 10)) [hlistOf be [rt] true],
        newKern (-(TNode.width (.list .h chd ccs)) * ofRat 5 10), .list .h chd ccs, rhs] true)) z.node := by
    intro rt
    have h7 := zoom_hlistOf z hb [rt]
    simp only [Zoom.nodes] at h7
    rw [h7]
    have h8 : ∀ a : TNode F, ([z.node a] : List (TNode F)) = z.nodes [a] := fun _ => rfl
    rw [h8]
    refine bind_as (zoom_vpack0 z _) fun h' _ => ?_
    rw [z.neg, z.mulr, zoom_setShift, z.neg, z.mulr, zoom_newKern, as_ok, ← zoom_hlistOf z hb]
    simp only [Zoom.nodes, Zoom.node]
  cases root with
  | none =>
    simp only [Option.map_none, z.mulr, zoom_hbox]
    exact tail _
  | some r =>
    simp only [Option.map_some]
    rw [zoom_shrink z (be := be) _ (hr r rfl), zoom_shrink z (be := be) _ (noMark_shrink be r (hr r rfl))]
    exact tail _

theorem zoom_buildOverline (hb : Zoomed z be be' G) (hneg : GoFloat.lt (ofInt (-1) : F) zero = true)
    (hd : LHead F) (cs : List (TNode F)) (st : TState F) :
    buildOverline be' (z.head hd) (z.nodes cs) (z.state st) = Res.as (buildOverline be hd cs st) z.node := by
  unfold buildOverline
  have hu : be'.underline (z.state st).font (z.state st).dpi = z.len (be.underline st.font st.dpi) := hb.underline _ _
  dsimp only
  rw [hu]
  have h1 : (z.head hd).box.height - (z.head hd).shift + ofInt 3 * z.len (be.underline st.font st.dpi) =
      z.len (hd.box.height - hd.shift + ofInt 3 * be.underline st.font st.dpi) := by
    simp only [Zoom.head, Zoom.box, z.mull, z.sub, z.add]
  have h2 : (z.head hd).box.depth + (z.head hd).shift = z.len (hd.box.depth + hd.shift) := by
    simp only [Zoom.head, Zoom.box, z.add]
  rw [h1, h2]
  have h5 := zoom_hlistOf z hb [.list .h hd cs]
  simp only [Zoom.nodes, Zoom.node] at h5
  rw [h5]
  refine bind_as (zoom_ruled z hb hneg st _ _ _) fun rhs _ => ?_
  rw [as_ok, ← zoom_hlistOf z hb]
  rfl

end Verif
