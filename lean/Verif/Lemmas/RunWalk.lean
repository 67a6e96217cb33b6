import Verif.Lemmas.Run
/-! # A run with the TrueType backend: macros, the visitor, the walk -/

namespace Verif
open GoFloat Spec
variable {F H : Type} [GoFloat F] {B : TextAt F}

theorem ruled_line (e : TtfEnv H) (s : Bool × TtfSt F H) (st : TState F) (b : TNode F) (h d : F) :
    ruled (e.backend s) st b h d = ruled lineBackend st b h d := rfl

theorem ruled_list (be : Backend F) (st : TState F) (b : TNode F) (h d : F) (n : TNode F) (hr : ruled be st b h d = .ok n)
    (hb : NoAcc b) (dpi : F) (s : TtfSt F H) : Fine dpi s n := by
  unfold ruled at hr
  simp only [Res.bind_eq_ok] at hr
  obtain ⟨g, -, hd, -, hd', -, hr⟩ := hr
  cases hr
  refine fine_list _ _ _ _ _ ?_
  simp only [NoAccs, NoAcc, hrule, newRule, hb, and_self]

theorem sim_buildSqrt [EqLaws F] (e : TtfEnv H) (root : Option (TNode F)) (bh : LHead F) (bcs : List (TNode F))
    (st : TState F) (hk : Setup e st.dpi) (s : TtfSt F H) (hs : e.Sound B s) (h1 : ∀ r, root = some r → ∃ hd cs, r = .list .h hd cs ∧ NoAccs cs) (h2 : NoAccs bcs) :
    Simul e B (buildSqrtT e root bh bcs st) (fun be => buildSqrt be root bh bcs st) (fun s' n => Fine st.dpi s' n) s := by
  have key : ∀ (r' : F → TNode F), (∀ w, NoAcc (r' w) ∧ ∀ c, r' w ≠ .char c) → Simul e B
      (let thickness := ttfUnderline st.font st.dpi
       let height := bh.box.height - bh.shift + ofInt 5 * thickness
       let depth := bh.box.depth + bh.shift
       (autoHeightCharT e bs!"\\__sqrt__" height depth st zero).bind fun check =>
         let checkShift := match check with | .list _ hd _ => hd.shift | _ => zero
         let height := check.height - checkShift
         let depth := check.depth + checkShift
         (hlistOfT e [hbox (ofInt 2 * thickness), .list .h bh bcs, hbox (ofInt 2 * thickness)]).bind fun padded =>
           (TM.lift (ruled lineBackend st padded height depth)).bind fun rhs =>
             (hlistOfT e [r' check.width]).bind fun r1 =>
               (TM.lift (vpack LHead.zero [r1] zero true inf)).bind fun hd =>
                 let vl : TNode F := .list .v (hd.setShift (-height * ofRat 6 10)) [r1]
                 hlistOfT e [vl, newKern (-check.width * ofRat 5 10), check, rhs])
      (fun be =>
       let thickness := ttfUnderline st.font st.dpi
       let height := bh.box.height - bh.shift + ofInt 5 * thickness
       let depth := bh.box.depth + bh.shift
       autoHeightChar be bs!"\\__sqrt__" height depth st zero >>= fun check =>
         let checkShift := match check with | .list _ hd _ => hd.shift | _ => zero
         let height := check.height - checkShift
         let depth := check.depth + checkShift
         Res.ok (hlistOf be [hbox (ofInt 2 * thickness), .list .h bh bcs, hbox (ofInt 2 * thickness)] true) >>= fun padded =>
           ruled lineBackend st padded height depth >>= fun rhs =>
             Res.ok (hlistOf be [r' check.width] true) >>= fun r1 =>
               vpack LHead.zero [r1] zero true inf >>= fun hd =>
                 let vl : TNode F := .list .v (hd.setShift (-height * ofRat 6 10)) [r1]
                 Res.ok (hlistOf be [vl, newKern (-check.width * ofRat 5 10), check, rhs] true))
      (fun s' n => Fine st.dpi s' n) s := by
    intro r' hr'
    refine (sim_autoHeightChar e _ _ _ st zero hk s hs).bind ?_
    intro check s1 hx1 hs1 hc
    dsimp only
    refine (sim_hlistOf e st.dpi hk _ s1 hs1 ?_).bind ?_
    · intro y hy
      simp only [List.mem_cons, List.not_mem_nil, or_false] at hy
      rcases hy with rfl | rfl | rfl
      · exact fine_hbox _ _ _
      · exact fine_list _ _ _ _ _ h2
      · exact fine_hbox _ _ _
    intro padded s2 hx2 hs2 hp
    refine Simul.bind (I := fun s' n => Fine st.dpi s' n)
      (.lift hs2 (fun n hn => ruled_list _ _ _ _ _ n hn hp.1 _ _) (fun _ => rfl)) ?_
    intro rhs s3 hx3 hs3 hrhs
    refine (sim_hlistOf e st.dpi hk _ s3 hs3 ?_).bind ?_
    · intro y hy
      simp only [List.mem_cons, List.not_mem_nil, or_false] at hy
      rw [hy]
      exact ⟨(hr' _).1, fun c hc => absurd hc ((hr' _).2 c)⟩
    intro r1 s4 hx4 hs4 hr1
    refine Simul.bind (I := fun _ _ => True) (.lift hs4 (fun _ _ => trivial) (fun _ => rfl)) ?_
    intro hd s5 hx5 hs5 _
    refine sim_hlistOf e st.dpi hk _ s5 hs5 ?_
    intro y hy
    simp only [List.mem_cons, List.not_mem_nil, or_false] at hy
    rcases hy with rfl | rfl | rfl | rfl
    · exact fine_list _ _ _ _ _ ⟨hr1.1, trivial⟩
    · exact fine_kern _ _ _
    · exact hc.mono (hx2.trans (hx3.trans (hx4.trans hx5)))
    · exact hrhs.mono (hx4.trans hx5)
  cases root with
  | none =>
    refine (key (fun w => hbox (w * ofRat 5 10)) (fun w => ⟨trivial, fun c hc => by cases hc⟩)).congr (fun s' => ?_)
      (fun _ _ _ h => h)
    rfl
  | some r =>
    obtain ⟨hd, cs, rfl, hcs⟩ := h1 r rfl
    have q1 := shrink_noAcc lineBackend (.list .h hd cs) hcs
    have q2 := shrink_noAcc lineBackend _ q1.2
    refine (key (fun w => ((TNode.list .h hd cs).shrink lineBackend).shrink lineBackend)
      (fun w => ⟨q2.2, fun c hc => by simp [TNode.shrink] at hc⟩)).congr (fun s' => ?_) (fun _ _ _ h => h)
    rw [← (shrink_noAcc (e.backend s') _ q1.2).1, ← (shrink_noAcc (e.backend s') (.list .h hd cs) hcs).1]
    rfl

theorem sim_buildOverline [EqLaws F] (e : TtfEnv H) (bh : LHead F) (bcs : List (TNode F))
    (st : TState F) (hk : Setup e st.dpi) (s : TtfSt F H) (hs : e.Sound B s) (h2 : NoAccs bcs) :
    Simul e B (buildOverlineT e bh bcs st) (fun be => buildOverline be bh bcs st) (fun s' n => Fine st.dpi s' n) s := by
  unfold buildOverlineT
  refine ((sim_hlistOf e st.dpi hk [.list .h bh bcs] s hs ?_).bind
    (g := fun b be => ruled lineBackend st b (bh.box.height - bh.shift + ofInt 3 * ttfUnderline st.font st.dpi)
      (bh.box.depth + bh.shift) >>= fun rhs => .ok (hlistOf be [rhs] true)) ?_).congr (fun _ => rfl) (fun _ _ _ h => h)
  · intro y hy
    simp only [List.mem_cons, List.not_mem_nil, or_false] at hy
    rw [hy]
    exact fine_list _ _ _ _ _ h2
  · intro b s1 hx1 hs1 hb
    refine Simul.bind (I := fun s' n => Fine st.dpi s' n)
      (.lift hs1 (fun n hn => ruled_list _ _ _ _ _ n hn hb.1 _ _) (fun _ => rfl)) ?_
    intro rhs s2 hx2 hs2 hr
    refine sim_hlistOf e st.dpi hk _ s2 hs2 ?_
    intro y hy
    simp only [List.mem_cons, List.not_mem_nil, or_false] at hy
    rw [hy]; exact hr

/-- In the italic font the mode is math; the size is `B.size`; there is no text unless `B.on`. -/
structure StOk (B : TextAt F) (f : Font F) (m : Bool) : Prop where
  italic : f.typ = bs!"it" → m = true
  size : f.size = B.size
  text : m = false → B.on

theorem StOk.mode {B : TextAt F} {f : Font F} {m : Bool} (h : StOk B f m) {c : GoString} (hc : c ≠ radicalSign) : ModeOk B c f m := ⟨h.1, fun hm => ⟨h.3 hm, h.2, hc⟩⟩

/-- The node is not the sign of a radical. -/
def PlainNode : Node → Prop
  | .sym _ t => t ≠ radicalSign
  | .macro (some (_, name)) _ => name ≠ radicalSign
  | _ => True

/-- No symbol of the tree is the sign of a radical. -/
def Plain (n : Node) : Prop := ∀ k ∈ allNodes n, PlainNode k
def PlainL (l : List Node) : Prop := ∀ k ∈ allNodesL l, PlainNode k

/-- `hnT` builds lists as `hn` does. -/
def SimNode (e : TtfEnv H) (B : TextAt F) (dpi : F) (hnT : TState F → Bool → List Node → TM F H (LHead F × List (TNode F)))
    (hn : Backend F → TState F → Bool → List Node → Res (LHead F × List (TNode F))) : Prop :=
  ∀ st math l s, PlainL l → st.dpi = dpi → StOk B st.font math → e.Sound B s → Simul e B (hnT st math l) (fun be => hn be st math l) (fun _ q => NoAccs q.2) s

theorem sim_frac [EqLaws F] (e : TtfEnv H) (hnT : TState F → Bool → List Node → TM F H (LHead F × List (TNode F)))
    (hn : Backend F → TState F → Bool → List Node → Res (LHead F × List (TNode F))) (st : TState F) (hk : Setup e st.dpi)
    (hh : SimNode e B st.dpi hnT hn) (math : Bool) (hm : StOk B st.font math) (l1 l2 : List Node) (hl1 : PlainL l1) (hl2 : PlainL l2) (delims : Bool) (rule : F) (display : Bool)
    (s : TtfSt F H) (hs : e.Sound B s) :
    Simul e B ((hnT st math l1).bind fun a => (hnT st math l2).bind fun b =>
        genfracT e delims rule display (.list .h a.1 a.2) (.list .h b.1 b.2) st)
      (fun be => hn be st math l1 >>= fun a => hn be st math l2 >>= fun b =>
        genfrac be delims rule display (.list .h a.1 a.2) (.list .h b.1 b.2) st)
      (fun s' n => Fine st.dpi s' n) s := by
  refine (hh st math l1 s hl1 rfl hm hs).bind ?_
  intro a s1 hx1 hs1 ha
  refine (hh st math l2 s1 hl2 rfl hm hs1).bind ?_
  intro b s2 hx2 hs2 hb
  exact sim_genfrac e delims rule display _ _ st hk s2 hs2 ha hb

theorem sim_handle [EqLaws F] (e : TtfEnv H) (num : GoString → Option F) (x : GoString)
    (hnT : TState F → Bool → List Node → TM F H (LHead F × List (TNode F)))
    (hn : Backend F → TState F → Bool → List Node → Res (LHead F × List (TNode F))) (st : TState F) (hk : Setup e st.dpi)
    (hh : SimNode e B st.dpi hnT hn) (h : Hk) (n : Node) (hp : Plain n) (math : Bool) (hm : StOk B st.font math) (hw : (∃ p t, n = .word p t) ∨ (∃ p t, n = .lit p t) → math = true) (s : TtfSt F H) (hs : e.Sound B s) :
    Simul e B (handleT e num x hnT h n st math) (fun be => handle be num x (hn be) h n st math) (fun s' n => Fine st.dpi s' n) s := by
  unfold handleT handle
  cases h with
  | symbol =>
    dsimp only
    split
    · rename_i pos name args
      exact sim_handleSymbol e x _ _ st math (hm.mode (hp (.macro (some (pos, name)) args) (by simp only [allNodes]; exact List.mem_cons_self))) hk s hs
    · rename_i pos t
      exact sim_handleSymbol e x _ _ st math (hm.mode (hp (.sym pos t) (by simp only [allNodes]; exact List.mem_cons_self))) hk s hs
    · obtain rfl := hw (.inl ⟨_, _, rfl⟩)
      exact sim_handleSymbol e x _ _ st _ (modeOk_math _ _ _) hk s hs
    · obtain rfl := hw (.inr ⟨_, _, rfl⟩)
      exact sim_handleSymbol e x _ _ st _ (modeOk_math _ _ _) hk s hs
    · exact .pan hs (fun _ => by split <;> first | rfl | (exfalso; rename_i h _; apply h <;> rfl) | (exfalso; rename_i h; apply h <;> rfl) | simp_all)
  | space =>
    dsimp only
    split
    · exact sim_handleSpace e st.dpi _ st s hs
    · exact sim_handleSpace e st.dpi _ st s hs
    · exact .pan hs (fun _ => by split <;> first | rfl | (exfalso; rename_i h _; apply h <;> rfl) | (exfalso; rename_i h; apply h <;> rfl) | simp_all)
  | hspace =>
    dsimp only
    split
    · split
      · next v hv => exact (sim_makeSpace e st.dpi st v s hs).congr (fun _ => by simp only [hv]) (fun _ _ _ h => h)
      · next hv => exact .pan hs (fun _ => by simp only [hv])
    · exact .pan hs (fun _ => by split <;> first | rfl | (exfalso; rename_i h _; apply h <;> rfl) | (exfalso; rename_i h; apply h <;> rfl) | simp_all)
  | function =>
    dsimp only
    split
    · exact sim_handleFunction e _ st math (fun _ hc => hm.mode hc) hk s hs
    · exact .pan hs (fun _ => by split <;> first | rfl | (exfalso; rename_i h _; apply h <;> rfl) | (exfalso; rename_i h; apply h <;> rfl) | simp_all)
  | frac =>
    dsimp only
    split
    · exact sim_frac e hnT hn st hk hh math hm _ _ (fun k h => hp k (by simp [allNodes, allNodesL, h])) (fun k h => hp k (by simp [allNodes, allNodesL, h])) _ _ _ s hs
    · exact .pan hs (fun _ => by split <;> first | rfl | (exfalso; rename_i h _; apply h <;> rfl) | (exfalso; rename_i h; apply h <;> rfl) | simp_all)
  | dfrac =>
    dsimp only
    split
    · exact sim_frac e hnT hn st hk hh math hm _ _ (fun k h => hp k (by simp [allNodes, allNodesL, h])) (fun k h => hp k (by simp [allNodes, allNodesL, h])) _ _ _ s hs
    · exact .pan hs (fun _ => by split <;> first | rfl | (exfalso; rename_i h _; apply h <;> rfl) | (exfalso; rename_i h; apply h <;> rfl) | simp_all)
  | tfrac =>
    dsimp only
    split
    · exact sim_frac e hnT hn st hk hh math hm _ _ (fun k h => hp k (by simp [allNodes, allNodesL, h])) (fun k h => hp k (by simp [allNodes, allNodesL, h])) _ _ _ s hs
    · exact .pan hs (fun _ => by split <;> first | rfl | (exfalso; rename_i h _; apply h <;> rfl) | (exfalso; rename_i h; apply h <;> rfl) | simp_all)
  | binom =>
    dsimp only
    split
    · exact sim_frac e hnT hn st hk hh math hm _ _ (fun k h => hp k (by simp [allNodes, allNodesL, h])) (fun k h => hp k (by simp [allNodes, allNodesL, h])) _ _ _ s hs
    · exact .pan hs (fun _ => by split <;> first | rfl | (exfalso; rename_i h _; apply h <;> rfl) | (exfalso; rename_i h; apply h <;> rfl) | simp_all)
  | sqrt =>
    dsimp only
    split
    · refine (hh st math _ s (fun k h => hp k (by simp [allNodes, allNodesL, h])) rfl hm hs).bind ?_
      intro a s1 hx1 hs1 ha
      refine (hh st math _ s1 (fun k h => hp k (by simp [allNodes, allNodesL, h])) rfl hm hs1).bind ?_
      intro b s2 hx2 hs2 hb
      exact sim_buildSqrt e _ _ _ st hk s2 hs2 (fun r hr => ⟨_, _, (Option.some.inj hr).symm, ha⟩) hb
    · refine (hh st math _ s (fun k h => hp k (by simp [allNodes, allNodesL, h])) rfl hm hs).bind ?_
      intro b s1 hx1 hs1 hb
      exact sim_buildSqrt e _ _ _ st hk s1 hs1 (fun r hr => by cases hr) hb
    · exact .pan hs (fun _ => by split <;> first | rfl | (exfalso; rename_i h _; apply h <;> rfl) | (exfalso; rename_i h; apply h <;> rfl) | simp_all)
  | overline =>
    dsimp only
    split
    · refine (hh st math _ s (fun k h => hp k (by simp [allNodes, allNodesL, h])) rfl hm hs).bind ?_
      intro b s1 hx1 hs1 hb
      exact sim_buildOverline e _ _ st hk s1 hs1 hb
    · exact .pan hs (fun _ => by split <;> first | rfl | (exfalso; rename_i h _; apply h <;> rfl) | (exfalso; rename_i h; apply h <;> rfl) | simp_all)

/-! ## The walk -/

/-- The visitor's boxes are fine and its resolution is the given one. -/
def FineV (B : TextAt F) (dpi : F) (s : TtfSt F H) (v : VSt F) : Prop := (v.st.dpi = dpi ∧ StOk B v.st.font v.math) ∧ ∀ n ∈ v.nodes, Fine dpi s n

theorem FineV.mono {dpi : F} {s s' : TtfSt F H} {v : VSt F} (h : FineV B dpi s v) (hx : s.Ext s') : FineV B dpi s' v :=
  ⟨h.1, fun n hn => (h.2 n hn).mono hx⟩

theorem FineV.push {dpi : F} {s : TtfSt F H} {v : VSt F} (h : FineV B dpi s v) {l : List (TNode F)} (hl : ∀ n ∈ l, Fine dpi s n) :
    FineV B dpi s (v.push l) := by
  refine ⟨h.1, ?_⟩
  intro n hn
  simp only [VSt.push, List.mem_append] at hn
  rcases hn with hn | hn
  · exact h.2 n hn
  · exact hl n hn

/-- A visit as a computation. -/
def visitTM (visit : Visit Unit (VT F H)) (n : Node) (v : VSt F) : TM F H (Option Unit × VSt F) := fun s =>
  visit () n (v, s) >>= fun r => .ok ((r.1, r.2.1), r.2.2)

/-- `visitT` does what `visit` does. -/
def SimVisit (e : TtfEnv H) (B : TextAt F) (dpi : F) (visitT : Visit Unit (VT F H)) (visit : Backend F → Visit Unit (VSt F)) : Prop :=
  ∀ n v s, Plain n → e.Sound B s → FineV B dpi s v →
    Simul e B (visitTM visitT n v) (fun be => visit be () n v) (fun s' r => FineV B dpi s' r.2) s

/-- A walk as a computation. -/
def walkTM (visit : Visit Unit (VT F H)) (n : Node) (v : VSt F) : TM F H (VSt F) := fun s => walk visit () n (v, s)
/-- A walk over a list as a computation. -/
def walkListTM (visit : Visit Unit (VT F H)) (l : List Node) (v : VSt F) : TM F H (VSt F) := fun s => walkList visit () l (v, s)
/-- A walk to a macro name as a computation. -/
def walkIdentTM (visit : Visit Unit (VT F H)) (p : Nat) (x : GoString) (v : VSt F) : TM F H (VSt F) := fun s =>
  walkIdent visit () p x (v, s)

/-- What `walk` does between the two visits. -/
def insideTM (visit : Visit Unit (VT F H)) (n : Node) (v : VSt F) : TM F H (VSt F) :=
  match n with
  | .nil => .lift (.panic (.other "ast.Walk: unknown ast node"))
  | .list l => walkListTM visit l v
  | .macro none args => walkListTM visit args v
  | .macro (some (p, x)) args => (walkIdentTM visit p x v).bind fun v2 => walkListTM visit args v2
  | .arg _ l _ => walkListTM visit l v
  | .optArg _ l _ => walkListTM visit l v
  | .ident _ _ => .ret v
  | .math _ _ l _ => walkListTM visit l v
  | .word _ _ => .ret v
  | .lit _ _ => .ret v
  | .sym _ _ => .ret v
  | .sub _ n => walkTM visit n v
  | .sup _ n => walkTM visit n v

/-- What `walk` does between the two visits. -/
def inside (visit : Visit Unit (VSt F)) (n : Node) (v : VSt F) : Res (VSt F) :=
  match n with
  | .nil => .panic (.other "ast.Walk: unknown ast node")
  | .list l => walkList visit () l v
  | .macro none args => walkList visit () args v
  | .macro (some (p, x)) args => walkIdent visit () p x v >>= fun s2 => walkList visit () args s2
  | .arg _ l _ => walkList visit () l v
  | .optArg _ l _ => walkList visit () l v
  | .ident _ _ => .ok v
  | .math _ _ l _ => walkList visit () l v
  | .word _ _ => .ok v
  | .lit _ _ => .ok v
  | .sym _ _ => .ok v
  | .sub _ n => walk visit () n v
  | .sup _ n => walk visit () n v

omit [GoFloat F] in
theorem walk_unfold (visit : Visit Unit (VSt F)) (n : Node) (v : VSt F) : walk visit () n v =
    (visit () n v >>= fun r => match r.1 with
      | none => .ok r.2
      | some _ => inside visit n r.2 >>= fun v2 => visit () .nil v2 >>= fun r2 => .ok r2.2) := by
  rw [walk]
  congr 1
  funext r
  obtain ⟨o, v'⟩ := r
  cases o with
  | none => rfl
  | some u =>
    cases u
    cases n <;> first | rfl | skip
    all_goals (unfold inside; rfl)

omit [GoFloat F] in
theorem walkTM_unfold (visit : Visit Unit (VT F H)) (n : Node) (v : VSt F) : walkTM visit n v =
    (visitTM visit n v).bind fun r => match r.1 with
      | none => .ret r.2
      | some _ => (insideTM visit n r.2).bind fun v2 => (visitTM visit .nil v2).bind fun r2 => .ret r2.2 := by
  funext s
  unfold walkTM TM.bind visitTM
  rw [walk]
  cases hv : visit () n (v, s) with
  | panic p => rfl
  | fuel => rfl
  | ok r =>
    obtain ⟨o, v', s'⟩ := r
    simp only [Res.ok_bind]
    cases o with
    | none => rfl
    | some u =>
      cases u
      have key : ∀ (A : Res (VT F H)), (A >>= fun s2 => visit () .nil s2 >>= fun r2 => Res.ok r2.2) =
          (A >>= fun q => (visit () .nil (q.1, q.2) >>= fun r => Res.ok ((r.1, r.2.1), r.2.2)) >>= fun q => TM.ret q.1.2 q.2) := by
        intro A
        cases A with
        | ok q =>
          simp only [Res.ok_bind]
          cases visit () .nil (q.1, q.2) <;> rfl
        | panic p => rfl
        | fuel => rfl
      dsimp only
      rw [key]
      show _ = (insideTM visit n v' s' >>= _)
      congr 1
      cases n with
      | «macro» name args => cases name <;> rfl
      | _ => rfl

omit [GoFloat F] in
theorem walkListTM_cons (visit : Visit Unit (VT F H)) (n : Node) (l : List Node) (v : VSt F) :
    walkListTM visit (n :: l) v = (walkTM visit n v).bind fun v1 => walkListTM visit l v1 := by
  funext s
  unfold walkListTM walkTM TM.bind
  rw [walkList]

omit [GoFloat F] in
theorem walkIdentTM_unfold (visit : Visit Unit (VT F H)) (p : Nat) (x : GoString) (v : VSt F) :
    walkIdentTM visit p x v = (visitTM visit (.ident p x) v).bind fun r => match r.1 with
      | none => .ret r.2
      | some _ => (visitTM visit .nil r.2).bind fun r2 => .ret r2.2 := by
  funext s
  unfold walkIdentTM visitTM TM.bind walkIdent
  dsimp only
  cases visit () (.ident p x) (v, s) with
  | panic p => rfl
  | fuel => rfl
  | ok r =>
    obtain ⟨o, v', s'⟩ := r
    simp only [Res.ok_bind]
    cases o with
    | none => rfl
    | some u =>
      cases u
      dsimp only
      cases visit () .nil (v', s') <;> rfl

section
variable {e : TtfEnv H} {dpi : F} {visitT : Visit Unit (VT F H)} {visit : Backend F → Visit Unit (VSt F)}

theorem sim_walkIdent (hv : SimVisit e B dpi visitT visit) (p : Nat) (x : GoString) (v : VSt F) (s : TtfSt F H) (hs : e.Sound B s)
    (hf : FineV B dpi s v) :
    Simul e B (walkIdentTM visitT p x v) (fun be => walkIdent (visit be) () p x v) (fun s' v' => FineV B dpi s' v') s := by
  rw [walkIdentTM_unfold]
  refine ((hv (.ident p x) v s (by intro k h; simp only [allNodes, List.mem_singleton] at h; subst h; trivial) hs hf).bind (g := fun r be => match r.1 with
    | none => .ok r.2
    | some _ => visit be () .nil r.2 >>= fun r2 => .ok r2.2) ?_).congr (fun s' => ?_) (fun _ _ _ h => h)
  · intro r s1 hx1 hs1 hr
    obtain ⟨o, v1⟩ := r
    cases o with
    | none => exact .ret hs1 hr (fun _ => rfl)
    | some u =>
      refine (hv .nil v1 s1 (by intro k h; simp only [allNodes, List.mem_singleton] at h; subst h; trivial) hs1 hr).bind ?_
      intro r2 s2 hx2 hs2 hr2
      exact .ret hs2 hr2 (fun _ => rfl)
  · unfold walkIdent
    congr 1
    funext r
    obtain ⟨o, v'⟩ := r
    cases o <;> rfl

theorem sim_walk_of (hv : SimVisit e B dpi visitT visit) (n : Node) (hp : Plain n) (v : VSt F) (s : TtfSt F H) (hs : e.Sound B s) (hf : FineV B dpi s v)
    (hi : ∀ v s, e.Sound B s → FineV B dpi s v →
      Simul e B (insideTM visitT n v) (fun be => inside (visit be) n v) (fun s' v' => FineV B dpi s' v') s) :
    Simul e B (walkTM visitT n v) (fun be => walk (visit be) () n v) (fun s' v' => FineV B dpi s' v') s := by
  rw [walkTM_unfold]
  refine ((hv n v s hp hs hf).bind (g := fun r be => match r.1 with
      | none => .ok r.2
      | some _ => inside (visit be) n r.2 >>= fun v2 => visit be () .nil v2 >>= fun r2 => .ok r2.2) ?_).congr
      (fun s' => walk_unfold _ _ _) (fun _ _ _ h => h)
  intro r s1 hx1 hs1 hr
  obtain ⟨o, v1⟩ := r
  cases o with
  | none => exact .ret hs1 hr (fun _ => rfl)
  | some u =>
    refine (hi v1 s1 hs1 hr).bind ?_
    intro v2 s2 hx2 hs2 hv2
    refine (hv .nil v2 s2 (by intro k h; simp only [allNodes, List.mem_singleton] at h; subst h; trivial) hs2 hv2).bind ?_
    intro r2 s3 hx3 hs3 hr2
    exact .ret hs3 hr2 (fun _ => rfl)

mutual
theorem sim_walk (hv : SimVisit e B dpi visitT visit) : ∀ (n : Node), Plain n → ∀ (v : VSt F) (s : TtfSt F H), e.Sound B s → FineV B dpi s v →
    Simul e B (walkTM visitT n v) (fun be => walk (visit be) () n v) (fun s' v' => FineV B dpi s' v') s
  | .nil, hp, v, s, hs, hf => sim_walk_of hv _ hp v s hs hf (fun v s hs hf => .pan hs (fun _ => rfl))
  | .list l, hp, v, s, hs, hf => sim_walk_of hv _ hp v s hs hf (fun v s hs hf => sim_walkList hv l (fun k h => hp k (by simp [allNodes, h])) v s hs hf)
  | .macro none args, hp, v, s, hs, hf => sim_walk_of hv _ hp v s hs hf (fun v s hs hf => sim_walkList hv args (fun k h => hp k (by simp [allNodes, h])) v s hs hf)
  | .macro (some (p, x)) args, hp, v, s, hs, hf => sim_walk_of hv _ hp v s hs hf (fun v s hs hf =>
      (sim_walkIdent hv p x v s hs hf).bind (fun v2 s2 _ hs2 hf2 => sim_walkList hv args (fun k h => hp k (by simp [allNodes, h])) v2 s2 hs2 hf2))
  | .arg _ l _, hp, v, s, hs, hf => sim_walk_of hv _ hp v s hs hf (fun v s hs hf => sim_walkList hv l (fun k h => hp k (by simp [allNodes, h])) v s hs hf)
  | .optArg _ l _, hp, v, s, hs, hf => sim_walk_of hv _ hp v s hs hf (fun v s hs hf => sim_walkList hv l (fun k h => hp k (by simp [allNodes, h])) v s hs hf)
  | .ident _ _, hp, v, s, hs, hf => sim_walk_of hv _ hp v s hs hf (fun v s hs hf => .ret hs hf (fun _ => rfl))
  | .math _ _ l _, hp, v, s, hs, hf => sim_walk_of hv _ hp v s hs hf (fun v s hs hf => sim_walkList hv l (fun k h => hp k (by simp [allNodes, h])) v s hs hf)
  | .word _ _, hp, v, s, hs, hf => sim_walk_of hv _ hp v s hs hf (fun v s hs hf => .ret hs hf (fun _ => rfl))
  | .lit _ _, hp, v, s, hs, hf => sim_walk_of hv _ hp v s hs hf (fun v s hs hf => .ret hs hf (fun _ => rfl))
  | .sym _ _, hp, v, s, hs, hf => sim_walk_of hv _ hp v s hs hf (fun v s hs hf => .ret hs hf (fun _ => rfl))
  | .sub _ n, hp, v, s, hs, hf => sim_walk_of hv _ hp v s hs hf (fun v s hs hf => sim_walk hv n (fun k h => hp k (by simp [allNodes, h])) v s hs hf)
  | .sup _ n, hp, v, s, hs, hf => sim_walk_of hv _ hp v s hs hf (fun v s hs hf => sim_walk hv n (fun k h => hp k (by simp [allNodes, h])) v s hs hf)
theorem sim_walkList (hv : SimVisit e B dpi visitT visit) : ∀ (l : List Node), PlainL l → ∀ (v : VSt F) (s : TtfSt F H), e.Sound B s → FineV B dpi s v →
    Simul e B (walkListTM visitT l v) (fun be => walkList (visit be) () l v) (fun s' v' => FineV B dpi s' v') s
  | [], _, v, s, hs, hf => .ret hs hf (fun _ => by rw [walkList])
  | n :: l, hp, v, s, hs, hf => by
    rw [walkListTM_cons]
    refine ((sim_walk hv n (fun k h => hp k (by simp [allNodesL, h])) v s hs hf).bind (g := fun v1 be => walkList (visit be) () l v1)
      (fun v1 s1 _ hs1 hf1 => sim_walkList hv l (fun k h => hp k (by simp [allNodesL, h])) v1 s1 hs1 hf1)).congr (fun s' => by rw [walkList]) (fun _ _ _ h => h)
end

/-- The loop over the nodes of a formula as a computation. -/
def visitEachTM (visit : Visit Unit (VT F H)) (l : List Node) (v : VSt F) : TM F H (VSt F) := fun s => visitEachT visit l (v, s)

theorem sim_visitEach (hv : SimVisit e B dpi visitT visit) (l : List Node) (hp : PlainL l) (v : VSt F) (s : TtfSt F H) (hs : e.Sound B s)
    (hf : FineV B dpi s v) :
    Simul e B (visitEachTM visitT l v) (fun be => visitEach (visit be) l v) (fun s' v' => FineV B dpi s' v') s := by
  induction l generalizing v s with
  | nil => exact .ret hs hf (fun _ => rfl)
  | cons n l ih =>
    have : visitEachTM visitT (n :: l) v = (visitTM visitT n v).bind fun r => visitEachTM visitT l r.2 := by
      funext s
      unfold visitEachTM TM.bind visitTM
      rw [visitEachT]
      cases visitT () n (v, s) <;> rfl
    rw [this]
    exact (hv n v s (fun k h => hp k (by simp [allNodesL, h])) hs hf).bind (fun r s1 _ hs1 hr => ih (fun k h => hp k (by simp [allNodesL, h])) r.2 s1 hs1 hr)

end

theorem sim_handleNode [EqLaws F] (e : TtfEnv H) (dpi : F) (hk : Setup e dpi) {visitT : Visit Unit (VT F H)}
    {visit : Backend F → Visit Unit (VSt F)} (hv : SimVisit e B dpi visitT visit) :
    SimNode e B dpi (handleNodeT e visitT) (fun be => handleNode be (visit be)) := by
  intro st math l s hp hd hm hs
  have : handleNodeT e visitT st math l = (walkTM visitT (.list l) ⟨[], st, math⟩).bind fun v => hbodyT e v.nodes := by
    funext s; rfl
  rw [this]
  refine (sim_walk hv (.list l) (fun k h => by
    simp only [allNodes, List.mem_cons] at h
    rcases h with rfl | h
    · trivial
    · exact hp k h) ⟨[], st, math⟩ s hs ⟨⟨hd, hm⟩, by simp⟩).bind ?_
  intro v s1 hx1 hs1 hf
  exact sim_hbody e dpi hk v.nodes s1 hs1 hf.2

theorem sim_math [EqLaws F] (e : TtfEnv H) {dpi : F} (num : GoString → Option F) (x : GoString) {fuel : Nat}
    (ih : SimVisit e B dpi (mtexVisitT e num x fuel) (fun be => mtexVisit be num x fuel)) (a : GoString) (d : Nat) (l : List Node) (hp : PlainL l) (b : Nat)
    (v : VSt F) (s : TtfSt F H) (hs : e.Sound B s) (hd : v.st.dpi = dpi) (hz : v.st.font.size = B.size) (hf : ∀ n ∈ v.nodes, Fine dpi s n) :
    Simul e B (visitTM (mtexVisitT e num x (fuel + 1)) (.math a d l b) v) (fun be => mtexVisit be num x (fuel + 1) () (.math a d l b) v)
      (fun s' r => r.1 = none ∧ r.2.math = v.math ∧ r.2.st.dpi = dpi ∧ r.2.st.font.size = B.size ∧ r.2.st.font.typ = v.st.font.typ ∧
        ∀ n ∈ r.2.nodes, Fine dpi s' n) s := by
  have := (sim_visitEach ih l hp { v with math := true, st := v.st.withType mathDefault } s hs ⟨⟨hd, fun _ => rfl, hz, fun h => nomatch h⟩, hf⟩).bind
    (f := fun v1 => .ret ((none : Option Unit), { v1 with math := v.math, st := v1.st.withType v.st.font.typ }))
    (g := fun v1 _ => .ok (none, { v1 with math := v.math, st := v1.st.withType v.st.font.typ }))
    (J := fun s' r => r.1 = none ∧ r.2.math = v.math ∧ r.2.st.dpi = dpi ∧ r.2.st.font.size = B.size ∧ r.2.st.font.typ = v.st.font.typ ∧
        ∀ n ∈ r.2.nodes, Fine dpi s' n)
    (fun v1 s1 _ hs1 hf1 => .ret hs1 ⟨rfl, rfl, hf1.1.1, hf1.1.2.2, rfl, hf1.2⟩ (fun _ => rfl))
  have hT : visitTM (mtexVisitT e num x (fuel + 1)) (.math a d l b) v =
      (visitEachTM (mtexVisitT e num x fuel) l { v with math := true, st := v.st.withType mathDefault }).bind
        fun v1 => .ret ((none : Option Unit), { v1 with math := v.math, st := v1.st.withType v.st.font.typ }) := by
    funext s
    unfold visitTM TM.bind visitEachTM
    rw [mtexVisitT]
    dsimp only
    cases visitEachT (mtexVisitT e num x fuel) l ({ v with math := true, st := v.st.withType mathDefault }, s) <;> rfl
  rw [hT]
  exact this.congr (fun s' => rfl) (fun _ _ _ h => h)

theorem sim_mtexVisit [EqLaws F] (e : TtfEnv H) (dpi : F) (hk : Setup e dpi) (num : GoString → Option F) (x : GoString) (fuel : Nat) :
    SimVisit e B dpi (mtexVisitT e num x fuel) (fun be => mtexVisit be num x fuel) := by
  induction fuel with
  | zero =>
    intro n v s _ hs hf
    exact ⟨s, .refl s, hs, rfl⟩
  | succ fuel ih =>
    intro n v s hp hs hf
    have hwith : ∀ {α : Type} (m : TM F H α) (p : Backend F → Res α) (I : TtfSt F H → α → Prop) (f : α → Option Unit × VSt F),
        Simul e B m p I s → (∀ s' a, s.Ext s' → I s' a → FineV B dpi s' (f a).2) →
        Simul e B (fun s => withT m (v, s) f >>= fun r => .ok ((r.1, r.2.1), r.2.2)) (fun be => p be >>= fun a => .ok (f a))
          (fun s' r => FineV B dpi s' r.2) s := by
      intro α m p I f hm hf'
      have : (fun s => withT m (v, s) f >>= fun r => Res.ok ((r.1, r.2.1), r.2.2)) = m.bind fun a => .ret (f a) := by
        funext s
        unfold withT TM.bind
        cases m s <;> rfl
      rw [this]
      exact hm.bind (fun a s1 hx hs1 ha => .ret hs1 (hf' s1 a hx ha) (fun _ => rfl))
    obtain ⟨⟨rfl, hm0⟩, hf2⟩ := hf
    have hf : FineV B v.st.dpi s v := ⟨⟨rfl, hm0⟩, hf2⟩
    have hnode := sim_handleNode e v.st.dpi hk ih
    have one : ∀ s' (y : TNode F), s.Ext s' → Fine v.st.dpi s' y → FineV B v.st.dpi s' (v.push [y]) := by
      intro s' y hx hy
      refine (hf.mono hx).push ?_
      intro n hn
      simp only [List.mem_cons, List.not_mem_nil, or_false] at hn
      rw [hn]; exact hy
    unfold visitTM
    cases n with
    | list l => exact Simul.ret (a := (some (), v)) hs hf (fun _ => rfl)
    | nil => exact Simul.ret (a := (some (), v)) hs hf (fun _ => rfl)
    | arg a l b => exact ⟨s, .refl s, hs, rfl⟩
    | optArg a l b => exact ⟨s, .refl s, hs, rfl⟩
    | ident a b => exact ⟨s, .refl s, hs, rfl⟩
    | sub a b => exact ⟨s, .refl s, hs, rfl⟩
    | sup a b => exact ⟨s, .refl s, hs, rfl⟩
    | word p t =>
      refine (hwith ((newCharsT e v.st v.math (decode t)).bind fun l => hlistOfT e l)
        (fun be => newChars be v.st v.math (decode t) >>= fun l => .ok (hlistOf be l true)) (fun s' n => Fine v.st.dpi s' n)
        (fun y => (some (), v.push [y])) ?_ (fun s' a hx ha => one s' a hx ha)).congr (fun s' => ?_) (fun _ _ _ h => h)
      · refine (sim_newChars e v.st v.math _ (fun c hc => hm0.mode (runeStr_ne (decode_ok _ c hc))) s hs).bind ?_
        intro l s1 hx1 hs1 hl
        exact sim_hlistOf e v.st.dpi hk l s1 hs1 hl
      · unfold mtexVisit
        dsimp only
        cases newChars (e.backend s') v.st v.math (decode t) <;> rfl
    | lit p t =>
      exact (hwith (literalCharsT e x v.st v.math (decode t)) (fun be => literalChars be x v.st v.math (decode t)) _
        (fun l => (some (), v.push l)) (sim_literalChars e x v.st v.math hk _ (fun c hc => hm0.mode (runeStr_ne (decode_ok _ c hc))) s hs)
        (fun s' a hx ha => (hf.mono hx).push ha)).congr (fun s' => rfl) (fun _ _ _ h => h)
    | sym p t =>
      cases hm : v.math with
      | false =>
        have hT : ∀ s, mtexVisitT e num x (fuel + 1) () (.sym p t) (v, s) =
            withT (newCharT e t v.st v.math) (v, s) fun c => (some (), v.push [.char c]) := by
          intro s; rw [mtexVisitT]; simp only [hm, Bool.false_eq_true, if_false]
        simp only [hT]
        refine (hwith (newCharT e t v.st v.math) (fun be => newChar be t v.st v.math) _ (fun c => (some (), v.push [.char c]))
          (sim_newChar e t v.st v.math (hm0.mode (hp (.sym p t) (by simp [allNodes]))) s hs) (fun s' a hx ha => one s' _ hx ha)).congr (fun s' => ?_) (fun _ _ _ h => h)
        rw [mtexVisit]
        simp only [hm, Bool.false_eq_true, if_false]
      | true =>
        cases hh : handlerOf t with
        | none =>
          have hT : mtexVisitT e num x (fuel + 1) () (.sym p t) (v, s) = .panic (.other "no handler for symbol") := by
            rw [mtexVisitT]; simp only [hm, if_true, hh]
          unfold Simul
          dsimp only
          rw [hT]
          exact ⟨s, .refl s, hs, by rw [mtexVisit]; simp only [hm, if_true, hh]⟩
        | some hd =>
          have hT : ∀ s, mtexVisitT e num x (fuel + 1) () (.sym p t) (v, s) =
              withT (handleT e num x (handleNodeT e (mtexVisitT e num x fuel)) hd (.sym p t) v.st v.math) (v, s)
                fun y => (some (), v.push [y]) := by
            intro s; rw [mtexVisitT]; simp only [hm, if_true, hh]
          simp only [hT]
          refine (hwith _ _ _ (fun y => (some (), v.push [y]))
            (sim_handle e num x _ _ v.st hk hnode hd (.sym p t) hp v.math hm0 (by simp) s hs) (fun s' a hx ha => one s' _ hx ha)).congr
            (fun s' => ?_) (fun _ _ _ h => h)
          rw [mtexVisit]
          simp only [hm, if_true, hh]
    | «macro» name args =>
      cases name with
      | none => exact ⟨s, .refl s, hs, rfl⟩
      | some q =>
        obtain ⟨p, name⟩ := q
        cases hh : handlerOf name with
        | none =>
          have hT : mtexVisitT e num x (fuel + 1) () (.macro (some (p, name)) args) (v, s) = .panic (.other "unknown macro") := by
            rw [mtexVisitT]; simp only [hh]
          unfold Simul
          dsimp only
          rw [hT]
          exact ⟨s, .refl s, hs, by rw [mtexVisit]; simp only [hh]⟩
        | some hd =>
          have hT : ∀ s, mtexVisitT e num x (fuel + 1) () (.macro (some (p, name)) args) (v, s) =
              withT (handleT e num x (handleNodeT e (mtexVisitT e num x fuel)) hd (.macro (some (p, name)) args) v.st v.math) (v, s)
                fun y => (none, v.push [y]) := by
            intro s; rw [mtexVisitT]; simp only [hh]
          simp only [hT]
          refine (hwith _ _ _ (fun y => (none, v.push [y]))
            (sim_handle e num x _ _ v.st hk hnode hd (.macro (some (p, name)) args) hp v.math hm0 (by simp) s hs)
            (fun s' a hx ha => one s' _ hx ha)).congr (fun s' => ?_) (fun _ _ _ h => h)
          rw [mtexVisit]
          simp only [hh]
    | math a d l b =>
      refine (sim_math e num x ih a d l (fun k h => hp k (by simp [allNodes, h])) b v s hs rfl hm0.2 hf2).congr (fun _ => rfl) ?_
      rintro s' r hx ⟨-, h2, h3, h4, h5, h6⟩
      exact ⟨⟨h3, fun ht => by rw [h2]; exact hm0.1 (h5 ▸ ht), h4, fun hm => hm0.3 (h2 ▸ hm)⟩, h6⟩

end Verif
