import Verif.Lemmas.HeapBox
import Verif.Model.HeapMtex
/-! # mtex on objects: handlers -/

namespace Verif
open GoFloat Spec
variable {F : Type} [GoFloat F]

theorem run_makeSpace (be : Backend F) (st : TState F) (w : F) {h : Heap F} {base : Nat} {l : List (Ref × TNode F)}
    (hl : Held h base l) : Run (hMakeSpace be st w) h base (makeSpace be st w) (fun h' r t => Held h' base ((r, t) :: l)) := by
  unfold hMakeSpace makeSpace
  dsimp only
  split
  · exact (does_newKern hl _).run fun _ _ hq => hq
  · exact run_panic

theorem run_handleSymbol (be : Backend F) (x : GoString) (pos : Nat) (sym : GoString) (st : TState F) (math : Bool) {h : Heap F}
    {base : Nat} {l : List (Ref × TNode F)} (hl : Held h base l) :
    Run (hHandleSymbol be x pos sym st math) h base (handleSymbol be x pos sym st math) (fun h' r t => Held h' base ((r, t) :: l)) := by
  unfold hHandleSymbol handleSymbol
  refine (run_newChar be sym st math hl).bind fun ch h1 d _ k1 => ?_
  dsimp only
  generalize isSpaced sym = b1
  generalize (setHas (newSet symBinaryOperators) sym && (prevChar (x.take pos) == bs!"{" ||
    setHas (newSet symLeftDelim) (prevChar (x.take pos)))) = b2
  generalize setHas (newSet symPunctuationSymbols) sym = b3
  generalize dotInNumber x (indexDot (x.drop pos)) = b4
  split
  · split
    · exact run_ret k1
    · refine (run_makeSpace be st _ k1).bind fun a h2 t2 _ k2 => ?_
      refine (run_makeSpace be st _ k2).bind fun b h3 t3 _ k3 => ?_
      exact (does_hlistOf be (l := [(a, t2), (ch, .char d), (b, t3)]) (l2 := l) (k3.perm (by perm_tac)) true).run fun _ _ hq => hq
  · split
    · split
      · split
        · exact run_ret k1
        · refine (run_makeSpace be st _ k1).bind fun a h2 t2 _ k2 => ?_
          exact (does_hlistOf be (l := [(ch, .char d), (a, t2)]) (l2 := l) (k2.perm (by perm_tac)) true).run fun _ _ hq => hq
      · exact run_panic
    · exact run_ret k1

theorem run_handleSpace (be : Backend F) (name : GoString) (st : TState F) {h : Heap F} {base : Nat} {l : List (Ref × TNode F)}
    (hl : Held h base l) : Run (hHandleSpace be name st) h base (handleSpace be name st) (fun h' r t => Held h' base ((r, t) :: l)) := by
  unfold hHandleSpace handleSpace
  cases spaceWidth.lookup name with
  | some w => exact run_makeSpace be st _ hl
  | none => exact run_panic

/-- Several trees, in order. -/
def HeldMany (h : Heap F) (base : Nat) (rs : List Ref) (ts : List (TNode F)) (l : List (Ref × TNode F)) : Prop :=
  ∃ l' : List (Ref × TNode F), rs = l'.map (·.1) ∧ ts = l'.map (·.2) ∧ Held h base (l' ++ l)

theorem HeldMany.cons {h : Heap F} {base : Nat} {rs : List Ref} {ts : List (TNode F)} {l : List (Ref × TNode F)} {r : Ref} {t : TNode F}
    (a : HeldMany h base rs ts ((r, t) :: l)) : HeldMany h base (r :: rs) (t :: ts) l := by
  obtain ⟨l', rfl, rfl, b⟩ := a
  exact ⟨(r, t) :: l', by simp, by simp, b.perm List.perm_middle⟩

theorem run_newChars (be : Backend F) (st : TState F) (math : Bool) (cs : List Ch) {base : Nat} : ∀ {h : Heap F} {l : List (Ref × TNode F)},
    Held h base l → Run (hNewChars be st math cs) h base (newChars be st math cs) (fun h' rs ts => HeldMany h' base rs ts l) := by
  induction cs with
  | nil => intro h l hl; exact run_ret ⟨[], rfl, rfl, hl⟩
  | cons c cs ih =>
    intro h l hl
    refine (run_newChar be _ st math hl).bind fun ch h1 d _ k1 => ?_
    refine (ih k1).bind fun rs h2 ts _ k2 => ?_
    exact run_ret k2.cons

theorem run_literalChars (be : Backend F) (x : GoString) (st : TState F) (math : Bool) (cs : List Ch) {base : Nat} :
    ∀ {h : Heap F} {l : List (Ref × TNode F)}, Held h base l →
    Run (hLiteralChars be x st math cs) h base (literalChars be x st math cs) (fun h' rs ts => HeldMany h' base rs ts l) := by
  induction cs with
  | nil => intro h l hl; exact run_ret ⟨[], rfl, rfl, hl⟩
  | cons c cs ih =>
    intro h l hl
    refine (run_handleSymbol be x 0 _ st math hl).bind fun ch h1 d _ k1 => ?_
    refine (ih k1).bind fun rs h2 ts _ k2 => ?_
    exact run_ret k2.cons

theorem run_charList (be : Backend F) (st : TState F) (math : Bool) (cs : List Ch) {h : Heap F} {base : Nat} {l : List (Ref × TNode F)}
    (hl : Held h base l) : Run ((hNewChars be st math cs).bind fun l => hHListOf be l true) h base
      (newChars be st math cs >>= fun l => .ok (hlistOf be l true)) (fun h' r t => Held h' base ((r, t) :: l)) := by
  refine (run_newChars be st math cs hl).bind fun rs h1 ts _ k1 => ?_
  obtain ⟨l', rfl, rfl, k⟩ := k1
  exact (does_hlistOf be k true).run fun _ _ hq => hq

theorem run_autoSized (be : Backend F) (a : GoString) (m : Ref) (t : TNode F) (b : GoString) (st : TState F) {h : Heap F} {base : Nat}
    {l : List (Ref × TNode F)} (hl : Held h base ((m, t) :: l)) : Run (hAutoSizedDelimiter be a m b st) h base
      (autoSizedDelimiter be a [t] b st) (fun h' r t => Held h' base ((r, t) :: l)) := by
  unfold hAutoSizedDelimiter autoSizedDelimiter
  refine (does_get hl).bind fun c h1 _ hc => ?_
  obtain ⟨rfl, rs, rfl⟩ := hc
  have e : maxDims [(t.cell rs).shell] = maxDims [t] := by
    simp [maxDims, cell_shell, height_shell, depth_shell]
  simp only [e]
  refine (run_autoHeightChar be a _ _ st _ hl).bind fun r1 h2 t1 _ k1 => ?_
  refine (run_autoHeightChar be b _ _ st _ k1).bind fun r2 h3 t2 _ k2 => ?_
  exact (does_hlistOf be (l := [(r1, t1), (m, t), (r2, t2)]) (l2 := l) (k2.perm (by perm_tac)) true).run fun _ _ hq => hq

theorem hcentered_list (be : Backend F) (n : TNode F) : hcentered be [n] =
    .list .h (hpack LHead.zero [.glue ssGlue, n, .glue ssGlue] zero true) [.glue ssGlue, n, .glue ssGlue] := by
  simp [hcentered, hlistOf]

theorem run_genfrac (be : Backend F) (delims : Bool) (rule : F) (display : Bool) (num den : Ref) (tn td : TNode F) (st : TState F)
    {h : Heap F} {base : Nat} {l : List (Ref × TNode F)} (hl : Held h base ((num, tn) :: (den, td) :: l)) :
    Run (hGenfrac be delims rule display num den st) h base (genfrac be delims rule display tn td st)
      (fun h' r t => Held h' base ((r, t) :: l)) := by
  unfold hGenfrac genfrac
  have h1 : Does (if display then HM.ret () else (hShrink be num).bind fun _ => hShrink be den) h base (fun h' _ =>
      Held h' base ((num, if display then tn else tn.shrink be) :: (den, if display then td else td.shrink be) :: l)) := by
    cases display with
    | true => exact does_ret hl
    | false =>
      simp only [Bool.false_eq_true, if_false]
      refine (does_shrink be hl).seq fun _ h' _ k => ?_
      obtain ⟨_, h2, e, f, k2⟩ := does_shrink be (k.perm (.swap _ _ _))
      exact ⟨_, h2, e, f, k2.perm (.swap _ _ _)⟩
  refine h1.bind fun _ h1 _ k1 => ?_
  dsimp only
  generalize (if display then tn else tn.shrink be) = tn at k1 ⊢
  generalize (if display then td else td.shrink be) = td at k1 ⊢
  -- `num` and `den` are read after they have become children of the centred lists
  obtain ⟨S1, S2, an, -⟩ := k1.head
  obtain ⟨S1', S2', ad, -⟩ := (k1.drop (l1 := [_])).head
  refine ((does_hcentered be (l := [(num, tn)]) (l2 := (den, td) :: l) k1).also fun r h' e => hHCentered_frame be _ e).bind
    fun cnum h2 _ k2 => ?_
  obtain ⟨k2, f2⟩ := k2
  refine ((does_hcentered be (l := [(den, td)]) (l2 := (cnum, _) :: l) (k2.perm (.swap _ _ _))).also fun r h' e => hHCentered_frame be _ e).bind
    fun cden h3 _ k3 => ?_
  obtain ⟨k3, f3⟩ := k3
  have f13 : Fr h1.length h1 h3 := f2.trans (f3.mono f2.1)
  refine (does_get_frame an f13).bind fun n h4 _ hc => ?_
  obtain ⟨rfl, rs1, rfl⟩ := hc
  refine (does_get_frame ad f13).bind fun d h4 _ hc => ?_
  obtain ⟨rfl, rs2, rfl⟩ := hc
  simp only [cell_shell, width_shell]
  simp only [List.map_cons, List.map_nil, hcentered_list] at k3
  refine (does_hpack (k3.perm (.swap _ _ _)) _ false).bind fun _ h4 _ k4 => ?_
  refine (does_hpack (k4.perm (.swap _ _ _)) _ false).bind fun _ h5 _ k5 => ?_
  refine (does_vbox k5 _ _).bind fun sp1 h6 _ k6 => ?_
  refine (does_hrule be k6 st rule).bind fun rl h7 _ k7 => ?_
  refine (does_vbox k7 _ _).bind fun sp2 h8 _ k8 => ?_
  generalize hW : GoFloat.max tn.width td.width = W at *
  -- `cden` is read after it has become a child of the vertical list
  obtain ⟨T1, T2, ac, -⟩ := (k8.perm (l' := (cden, .list .h (centredTo td W).1 (centredTo td W).2) :: (sp2, vbox zero (be.underline st.font st.dpi * ofInt 2)) ::
    (rl, hrule be st rule) :: (sp1, vbox zero (be.underline st.font st.dpi * ofInt 2)) :: (cnum, .list .h (centredTo tn W).1 (centredTo tn W).2) :: l)
    (by simp only [centredTo]; perm_tac)).head
  have k9 := k8.perm (l' := [(cnum, .list .h (centredTo tn W).1 (centredTo tn W).2), (sp1, vbox zero (be.underline st.font st.dpi * ofInt 2)),
    (rl, hrule be st rule), (sp2, vbox zero (be.underline st.font st.dpi * ofInt 2)), (cden, .list .h (centredTo td W).1 (centredTo td W).2)] ++ l)
    (by simp only [centredTo]; perm_tac)
  refine ((run_vlistOf_head k9).also fun r h' e => hVListOf_frame _ e).bind fun vl h9 hd _ k10 => ?_
  obtain ⟨k10, f10⟩ := k10
  split
  · refine (does_get_frame ac f10).bind fun cd h10 _ hc => ?_
    obtain ⟨rfl, rs3, rfl⟩ := hc
    simp only [cell_shell, height_shell]
    refine (does_setShift k10 _).bind fun _ h11 _ k11 => ?_
    refine (does_hbox k11 _).bind fun hb h12 _ k12 => ?_
    refine (does_hlistOf be (l := [(vl, _), (hb, _)]) (l2 := l) (k12.perm (.swap _ _ _)) true).bind fun bx h13 _ k13 => ?_
    split
    · exact run_autoSized be _ bx _ _ st k13
    · exact run_ret k13
  · exact run_panic

theorem cell_shift (t : TNode F) (rs : List Ref) : (t.cell rs).shift = match t with | .list _ hd _ => hd.shift | _ => zero := by
  cases t <;> rfl

theorem run_ruled (be : Backend F) (st : TState F) (body : Ref) (t : TNode F) (height depth : F) {h : Heap F} {base : Nat}
    {l : List (Ref × TNode F)} (hl : Held h base ((body, t) :: l)) :
    Run (hRuled be st body height depth) h base (ruled be st t height depth) (fun h' r t => Held h' base ((r, t) :: l)) := by
  unfold hRuled ruled
  refine (does_hrule be hl st _).bind fun rl h1 _ k1 => ?_
  refine (run_newGlue bs!"fill" k1).bind fun g h2 gd _ k2 => ?_
  dsimp only
  refine (run_vlistOf_head (l := [(rl, hrule be st (ofInt (-1))), (g, .glue gd), (body, t)]) (l2 := l) (k2.perm (by perm_tac))).bind
    fun rhs h3 hd _ k3 => ?_
  refine (run_vpack k3 _ false depth).bind fun _ h4 hd' _ k4 => ?_
  exact run_ret k4

theorem run_buildSqrt (be : Backend F) (root : Option (Ref × TNode F)) (body : Ref) (hd : LHead F) (cs : List (TNode F)) (st : TState F)
    {h : Heap F} {base : Nat} {l : List (Ref × TNode F)} (hl : Held h base ((body, .list .h hd cs) :: root.toList ++ l)) :
    Run (hBuildSqrt be (root.map (·.1)) body st) h base (buildSqrt be (root.map (·.2)) hd cs st)
      (fun h' r t => Held h' base ((r, t) :: l)) := by
  unfold hBuildSqrt buildSqrt
  refine (does_get hl).bind fun b h1 _ hc => ?_
  obtain ⟨rfl, rs, rfl⟩ := hc
  simp only [cell_shell, height_shell, depth_shell, cell_shift]
  refine (run_autoHeightChar be _ _ _ st _ hl).bind fun check h2 ct _ k2 => ?_
  refine (does_get k2).bind fun c h3 _ hc => ?_
  obtain ⟨rfl, rs2, rfl⟩ := hc
  simp only [cell_shell, height_shell, depth_shell, width_shell, cell_shift]
  generalize (match ct with | .list _ hd _ => hd.shift | _ => zero : F) = sh
  refine (does_hbox k2 _).bind fun b1 h4 _ k4 => ?_
  refine (does_hbox k4 _).bind fun b2 h5 _ k5 => ?_
  refine (does_hlistOf be (l := [(b1, hbox (ofInt 2 * be.underline st.font st.dpi)), (body, .list .h hd cs),
    (b2, hbox (ofInt 2 * be.underline st.font st.dpi))]) (l2 := (check, ct) :: (root.toList ++ l)) (k5.perm (by perm_tac)) true).bind
    fun padded h6 _ k6 => ?_
  refine (run_ruled be st padded _ _ _ k6).bind fun rhs h7 tr _ k7 => ?_
  have hroot : Does (match root.map (·.1) with
      | none => hHBox (ct.width * ofRat 5 10)
      | some r => (hShrink be r).bind fun _ => (hShrink be r).bind fun _ => .ret r) h7 base (fun h' r =>
      Held h' base ((r, match root.map (·.2) with
        | none => hbox (ct.width * ofRat 5 10)
        | some r => (r.shrink be).shrink be) :: (rhs, tr) :: (check, ct) :: l)) := by
    rcases root with _ | ⟨r, t⟩
    · exact does_hbox k7 _
    · refine (does_shrink be (k7.perm (l' := (r, t) :: (rhs, tr) :: (check, ct) :: l)
        (by simp only [Option.toList_some]; perm_tac))).seq fun _ h8 _ k8 => ?_
      refine (does_shrink be k8).seq fun _ h9 _ k9 => ?_
      exact does_ret k9
  refine hroot.bind fun r' h8 _ k8 => ?_
  refine (does_hlistOf be (l := [(r', _)]) (l2 := (rhs, tr) :: (check, ct) :: l) k8 true).bind fun r1 h9 _ k9 => ?_
  refine (run_vlistOf_head (l := [(r1, _)]) (l2 := (rhs, tr) :: (check, ct) :: l) k9).bind fun vl h10 hd' _ k10 => ?_
  refine (does_setShift k10 _).bind fun _ h11 _ k11 => ?_
  refine (does_newKern k11 _).bind fun kr h12 _ k12 => ?_
  refine (does_hlistOf be (l := [(vl, _), (kr, _), (check, ct), (rhs, tr)]) (l2 := l) (k12.perm ?_) true).run fun _ _ hq => hq
  exact (List.Perm.swap _ _ _).trans (.cons _ (.cons _ (.swap _ _ _)))

theorem run_buildOverline (be : Backend F) (body : Ref) (hd : LHead F) (cs : List (TNode F)) (st : TState F)
    {h : Heap F} {base : Nat} {l : List (Ref × TNode F)} (hl : Held h base ((body, .list .h hd cs) :: l)) :
    Run (hBuildOverline be body st) h base (buildOverline be hd cs st) (fun h' r t => Held h' base ((r, t) :: l)) := by
  unfold hBuildOverline buildOverline
  refine (does_get hl).bind fun b h1 _ hc => ?_
  obtain ⟨rfl, rs, rfl⟩ := hc
  simp only [cell_shell, height_shell, depth_shell, cell_shift]
  refine (does_hlistOf be (l := [(body, _)]) (l2 := l) hl true).bind fun p h2 _ k2 => ?_
  refine (run_ruled be st p _ _ _ k2).bind fun rhs h3 t _ k3 => ?_
  exact (does_hlistOf be (l := [(rhs, t)]) (l2 := l) k3 true).run fun _ _ hq => hq

/-- A call of `handleNode` makes a new horizontal list. -/
def MakesList (hnH : TState F → Bool → List Node → HM F Ref) (hn : TState F → Bool → List Node → Res (LHead F × List (TNode F))) : Prop :=
  ∀ st math l, Makes (hnH st math l) (hn st math l >>= fun q => .ok (.list .h q.1 q.2))

theorem MakesList.call {hnH : TState F → Bool → List Node → HM F Ref} {hn : TState F → Bool → List Node → Res (LHead F × List (TNode F))}
    (hh : MakesList hnH hn) (st : TState F) (math : Bool) (ns : List Node) {h : Heap F} {base : Nat} {l : List (Ref × TNode F)}
    (hl : Held h base l) : Run (hnH st math ns) h base (hn st math ns) (fun h' r q => Held h' base ((r, .list .h q.1 q.2) :: l)) := by
  have := (hh st math ns).call hl
  unfold Run at this ⊢
  cases hq : hn st math ns with
  | ok q =>
    rw [hq] at this
    cases hm : hnH st math ns h with
    | ok r => rw [hm] at this; exact this
    | panic p => rw [hm] at this; exact this
    | fuel => rw [hm] at this; exact this
  | panic p =>
    rw [hq] at this
    cases hm : hnH st math ns h with
    | ok r => rw [hm] at this; exact this
    | panic p => rw [hm] at this; exact this
    | fuel => rw [hm] at this; exact this
  | fuel =>
    rw [hq] at this
    cases hm : hnH st math ns h with
    | ok r => rw [hm] at this; exact this
    | panic p => rw [hm] at this; exact this
    | fuel => rw [hm] at this; exact this

theorem run_frac (be : Backend F) {hnH : TState F → Bool → List Node → HM F Ref}
    {hn : TState F → Bool → List Node → Res (LHead F × List (TNode F))} (hh : MakesList hnH hn) (delims : Bool) (rule : F) (display : Bool)
    (n1 n2 : List Node) (st : TState F) (math : Bool) {h : Heap F} {base : Nat} {l : List (Ref × TNode F)} (hl : Held h base l) :
    Run ((hnH st math n1).bind fun a => (hnH st math n2).bind fun b => hGenfrac be delims rule display a b st) h base
      (hn st math n1 >>= fun a => hn st math n2 >>= fun b => genfrac be delims rule display (.list .h a.1 a.2) (.list .h b.1 b.2) st)
      (fun h' r t => Held h' base ((r, t) :: l)) := by
  refine (hh.call st math n1 hl).bind fun a h1 qa _ k1 => ?_
  refine (hh.call st math n2 k1).bind fun b h2 qb _ k2 => ?_
  exact run_genfrac be delims rule display a b _ _ st (k2.perm (.swap _ _ _))

/-- A case that has been ruled out. -/
macro "other_case" : tactic => `(tactic| first
  | (rename_i hne; exact (hne _ _ _ _ _ _ _ rfl).elim) | (rename_i hne; exact (hne _ _ _ _ _ _ _ _ rfl).elim)
  | (rename_i hne; exact (hne _ _ _ _ rfl).elim) | (rename_i hne; exact (hne _ _ _ _ _ rfl).elim)
  | (rename_i hne _; exact (hne _ _ _ _ _ _ _ rfl).elim) | (exfalso; simp_all; done))

theorem run_handle (be : Backend F) (num : GoString → Option F) (x : GoString) {hnH : TState F → Bool → List Node → HM F Ref}
    {hn : TState F → Bool → List Node → Res (LHead F × List (TNode F))} (hh : MakesList hnH hn) (hk : Hk) (n : Node) (st : TState F)
    (math : Bool) {h : Heap F} {base : Nat} {l : List (Ref × TNode F)} (hl : Held h base l) :
    Run (hHandle be num x hnH hk n st math) h base (handle be num x hn hk n st math) (fun h' r t => Held h' base ((r, t) :: l)) := by
  unfold hHandle handle
  dsimp only
  cases hk with
  | symbol => dsimp only; split <;> first | exact run_handleSymbol be x _ _ st math hl | exact run_panic | (split <;> first | exact run_panic | other_case)
  | space => dsimp only; split <;> first | exact run_handleSpace be _ st hl | exact run_panic | (split <;> first | exact run_panic | other_case)
  | hspace =>
    dsimp only
    split
    · dsimp only
      split
      · next e => rw [e]; exact run_makeSpace be st _ hl
      · next e => rw [e]; exact run_panic
    · split <;> first | exact run_panic | other_case
  | function => dsimp only; split <;> first | exact run_charList be _ math _ hl | exact run_panic | (split <;> first | exact run_panic | other_case)
  | frac => dsimp only; split <;> first | exact run_frac be hh _ _ _ _ _ st math hl | exact run_panic | (split <;> first | exact run_panic | other_case)
  | dfrac => dsimp only; split <;> first | exact run_frac be hh _ _ _ _ _ st math hl | exact run_panic | (split <;> first | exact run_panic | other_case)
  | tfrac => dsimp only; split <;> first | exact run_frac be hh _ _ _ _ _ st math hl | exact run_panic | (split <;> first | exact run_panic | other_case)
  | binom => dsimp only; split <;> first | exact run_frac be hh _ _ _ _ _ st math hl | exact run_panic | (split <;> first | exact run_panic | other_case)
  | sqrt =>
    dsimp only
    split
    · refine (hh.call st math _ hl).bind fun a h1 qa _ k1 => ?_
      refine (hh.call st math _ k1).bind fun b h2 qb _ k2 => ?_
      exact run_buildSqrt be (some (a, .list .h qa.1 qa.2)) b qb.1 qb.2 st k2
    · refine (hh.call st math _ hl).bind fun b h2 qb _ k2 => ?_
      exact run_buildSqrt be none b qb.1 qb.2 st k2
    · split <;> first | exact run_panic | other_case
  | overline =>
    dsimp only
    split
    · refine (hh.call st math _ hl).bind fun b h2 qb _ k2 => ?_
      exact run_buildOverline be b qb.1 qb.2 st k2
    · split <;> first | exact run_panic | other_case

end Verif
