import Verif.Spec.Box
/-! # Lemmas on packing, for every arithmetic -/

namespace Verif
variable {F : Type} [GoFloat F]
open GoFloat Spec

theorem hpackDims_x (n : TNode F) (p : Dims F) : (hpackDims n p).x = p.x + n.width := by
  cases n <;> simp [hpackDims, TNode.width] <;> split <;> rfl

theorem hpackDims_ab (n : TNode F) (p : Dims F) :
    ((hpackDims n p).a, (hpackDims n p).b) =
      match reach n with
      | some (a, b) => (GoFloat.max p.a a, GoFloat.max p.b b)
      | none => (p.a, p.b) := by
  cases n <;> simp [hpackDims, reach] <;> split <;> simp_all

theorem hpackDims_st (n : TNode F) (p : Dims F) :
    (hpackDims n p).st = match n with | .glue g => addAt p.st g.stretchOrder g.stretch | _ => p.st := by
  cases n <;> simp [hpackDims] <;> split <;> rfl

theorem hpackDims_sh (n : TNode F) (p : Dims F) :
    (hpackDims n p).sh = match n with | .glue g => addAt p.sh g.shrinkOrder g.shrink | _ => p.sh := by
  cases n <;> simp [hpackDims] <;> split <;> rfl

/-- the accumulators of `HPack` after all children -/
def hsum (cs : List (TNode F)) (p : Dims F) : Dims F := cs.foldl (fun p n => hpackDims n p) p

theorem hsum_x (cs : List (TNode F)) (p : Dims F) : (hsum cs p).x = cs.foldl (fun x n => x + n.width) p.x := by
  induction cs generalizing p with
  | nil => rfl
  | cons n l ih => simp only [hsum, List.foldl_cons] at ih ⊢; rw [ih, hpackDims_x]

theorem addAt_apply (t : Fin 4 → F) (o i : Fin 4) (v : F) : addAt t o v i = if o = i then t i + v else t i := by
  unfold addAt; by_cases h : i = o
  · simp [h]
  · rw [if_neg h, if_neg (fun h' => h h'.symm)]

theorem hsum_st (cs : List (TNode F)) (p : Dims F) (o : Fin 4) :
    (hsum cs p).st o = ((gluesOf cs).filter (·.stretchOrder = o)).foldl (fun t g => t + g.stretch) (p.st o) := by
  induction cs generalizing p with
  | nil => rfl
  | cons n l ih =>
    simp only [hsum, List.foldl_cons] at ih ⊢
    rw [ih, hpackDims_st]
    cases n <;> simp only [gluesOf, List.filterMap_cons]
    rename_i g
    by_cases h : g.stretchOrder = o <;> simp [addAt_apply, h]

theorem hsum_sh (cs : List (TNode F)) (p : Dims F) (o : Fin 4) :
    (hsum cs p).sh o = ((gluesOf cs).filter (·.shrinkOrder = o)).foldl (fun t g => t + g.shrink) (p.sh o) := by
  induction cs generalizing p with
  | nil => rfl
  | cons n l ih =>
    simp only [hsum, List.foldl_cons] at ih ⊢
    rw [ih, hpackDims_sh]
    cases n <;> simp only [gluesOf, List.filterMap_cons]
    rename_i g
    by_cases h : g.shrinkOrder = o <;> simp [addAt_apply, h]

theorem hsum_cons (n : TNode F) (l : List (TNode F)) (p : Dims F) : hsum (n :: l) p = hsum l (hpackDims n p) := rfl

theorem hsum_a_keep [MaxLaws F] (cs : List (TNode F)) (p : Dims F) (c : F) :
    (lt p.a c = false → lt (hsum cs p).a c = false) ∧ (lt p.b c = false → lt (hsum cs p).b c = false) := by
  induction cs generalizing p with
  | nil => exact ⟨id, id⟩
  | cons n l ih =>
    rw [hsum_cons]
    have h := hpackDims_ab n p
    cases hr : reach n with
    | none => simp only [hr, Prod.mk.injEq] at h; rw [← h.1, ← h.2]; exact ih _
    | some q =>
      simp only [hr, Prod.mk.injEq] at h
      exact ⟨fun hc => (ih _).1 (by rw [h.1]; exact MaxLaws.max_left _ _ _ hc),
        fun hc => (ih _).2 (by rw [h.2]; exact MaxLaws.max_left _ _ _ hc)⟩

theorem hsum_ge [MaxLaws F] (cs : List (TNode F)) (p : Dims F) : ∀ n ∈ cs, ∀ q, reach n = some q →
    lt (hsum cs p).a q.1 = false ∧ lt (hsum cs p).b q.2 = false := by
  induction cs generalizing p with
  | nil => intro n hn; cases hn
  | cons m l ih =>
    intro n hn q hq
    rw [hsum_cons]
    rcases List.mem_cons.1 hn with rfl | hn
    · have h := hpackDims_ab n p
      simp only [hq, Prod.mk.injEq] at h
      refine ⟨(hsum_a_keep l _ _).1 ?_, (hsum_a_keep l _ _).2 ?_⟩
      · rw [h.1]; exact MaxLaws.max_right _ _ _ (MaxLaws.lt_self _)
      · rw [h.2]; exact MaxLaws.max_right _ _ _ (MaxLaws.lt_self _)
    · exact ih _ n hn q hq

theorem hsum_or [MaxLaws F] (cs : List (TNode F)) (p : Dims F) :
    ((hsum cs p).a = p.a ∨ ∃ n ∈ cs, ∃ q, reach n = some q ∧ (hsum cs p).a = q.1) ∧
    ((hsum cs p).b = p.b ∨ ∃ n ∈ cs, ∃ q, reach n = some q ∧ (hsum cs p).b = q.2) := by
  induction cs generalizing p with
  | nil => exact ⟨.inl rfl, .inl rfl⟩
  | cons m l ih =>
    rw [hsum_cons]
    have h := hpackDims_ab m p
    constructor
    · rcases (ih (hpackDims m p)).1 with h1 | ⟨n, hn, q, hq, e⟩
      · cases hr : reach m with
        | none => simp only [hr, Prod.mk.injEq] at h; left; rw [h1, h.1]
        | some q =>
          simp only [hr, Prod.mk.injEq] at h
          rcases MaxLaws.max_or p.a q.1 with e | e
          · left; rw [h1, h.1, e]
          · right; exact ⟨m, List.mem_cons_self, q, hr, by rw [h1, h.1, e]⟩
      · right; exact ⟨n, List.mem_cons_of_mem _ hn, q, hq, e⟩
    · rcases (ih (hpackDims m p)).2 with h1 | ⟨n, hn, q, hq, e⟩
      · cases hr : reach m with
        | none => simp only [hr, Prod.mk.injEq] at h; left; rw [h1, h.2]
        | some q =>
          simp only [hr, Prod.mk.injEq] at h
          rcases MaxLaws.max_or p.b q.2 with e | e
          · left; rw [h1, h.2, e]
          · right; exact ⟨m, List.mem_cons_self, q, hr, by rw [h1, h.2, e]⟩
      · right; exact ⟨n, List.mem_cons_of_mem _ hn, q, hq, e⟩

theorem finishGlue_box (hd : LHead F) (x : F) (st sh : Fin 4 → F) :
    (finishGlue hd x st sh).box = hd.box ∧ (finishGlue hd x st sh).shift = hd.shift := by
  unfold finishGlue setGlue
  split
  · exact ⟨rfl, rfl⟩
  · split <;> dsimp only <;> split <;> exact ⟨rfl, rfl⟩

theorem determineOrder_spec (t : Fin 4 → F) :
    (Highest t (determineOrder t)) ∨ (determineOrder t = 0 ∧ ∀ o, eq (t o) zero = true) := by
  unfold determineOrder Highest
  by_cases h3 : eq (t 3) zero = true
  · by_cases h2 : eq (t 2) zero = true
    · by_cases h1 : eq (t 1) zero = true
      · by_cases h0 : eq (t 0) zero = true
        · right
          simp only [h3, h2, h1]
          refine ⟨by simp, fun o => ?_⟩
          match o with
          | 0 => exact h0
          | 1 => exact h1
          | 2 => exact h2
          | 3 => exact h3
        · left
          simp only [Bool.not_eq_true] at h0
          simp only [h3, h2, h1]
          refine ⟨by simpa using h0, fun o ho => ?_⟩
          match o with
          | 0 => simp at ho
          | 1 => exact h1
          | 2 => exact h2
          | 3 => exact h3
      · left
        simp only [Bool.not_eq_true] at h1
        simp only [h3, h2, h1]
        refine ⟨by simpa using h1, fun o ho => ?_⟩
        match o with
        | 0 => simp at ho
        | 1 => simp at ho
        | 2 => exact h2
        | 3 => exact h3
    · left
      simp only [Bool.not_eq_true] at h2
      simp only [h3, h2]
      refine ⟨by simpa using h2, fun o ho => ?_⟩
      match o with
      | 0 => simp at ho
      | 1 => simp at ho
      | 2 => simp at ho
      | 3 => exact h3
  · left
    simp only [Bool.not_eq_true] at h3
    simp only [h3]
    refine ⟨by simpa using h3, fun o ho => ?_⟩
    match o with
    | 0 => simp at ho
    | 1 => simp at ho
    | 2 => simp at ho
    | 3 => simp at ho

theorem setGlue_spec (hd : LHead F) (x : F) (s : Int) (t : Fin 4 → F) : SetFor (setGlue hd x s t) s x t := by
  unfold SetFor setGlue
  rcases determineOrder_spec t with h | ⟨h0, h⟩
  · left
    have h' := h
    unfold Highest at h'
    simp only [h'.1]
    exact ⟨rfl, h, rfl⟩
  · right
    simp only [h]
    exact ⟨rfl, h0, fun o => trivial⟩

theorem finishGlue_spec (hd : LHead F) (x : F) (cs : List (TNode F)) :
    GlueRule (finishGlue hd x (stretchTotal cs) (shrinkTotal cs)) x cs := by
  unfold GlueRule finishGlue GoFloat.pos
  split
  · exact ⟨rfl, rfl⟩
  · split
    · exact setGlue_spec _ _ _ _
    · exact setGlue_spec _ _ _ _

theorem hsum_stretch (cs : List (TNode F)) : (hsum cs Dims.zero).st = stretchTotal cs :=
  funext fun o => hsum_st cs Dims.zero o
theorem hsum_shrink (cs : List (TNode F)) : (hsum cs Dims.zero).sh = shrinkTotal cs :=
  funext fun o => hsum_sh cs Dims.zero o
theorem hsum_natural (cs : List (TNode F)) : (hsum cs Dims.zero).x = naturalWidth cs := hsum_x cs Dims.zero

/-- `HPack` in terms of the specification. -/
theorem hpack_eq (hd : LHead F) (cs : List (TNode F)) (w : F) (add : Bool) :
    hpack hd cs w add =
      let w' := if add then w + naturalWidth cs else w
      finishGlue { hd with box := { hd.box with height := (hsum cs Dims.zero).a, depth := (hsum cs Dims.zero).b, width := w' } }
        (w' - naturalWidth cs) (stretchTotal cs) (shrinkTotal cs) := by
  rw [← hsum_natural, ← hsum_stretch, ← hsum_shrink]; rfl

/-! ## Vertical lists -/

theorem stack_snd (q : F × F) (n : TNode F) : (stack q n).2 = n.depth := by cases n <;> rfl

theorem foldl_stack_snd (cs : List (TNode F)) (q : F × F) (h : cs ≠ []) :
    (cs.foldl stack q).2 = lastDepth cs := by
  induction cs generalizing q with
  | nil => exact absurd rfl h
  | cons n l ih =>
    cases l with
    | nil => simp [stack_snd, lastDepth]
    | cons m l => rw [List.foldl_cons, ih _ (by simp)]; simp [lastDepth]

theorem foldl_stack_zero (cs : List (TNode F)) : (cs.foldl stack (zero, zero)).2 = lastDepth cs := by
  cases cs with
  | nil => rfl
  | cons n l => exact foldl_stack_snd _ _ (by simp)

/-- what one node does to the accumulators of `VPack` -/
theorem vpackDims_ok (n : TNode F) (p : Dims F) (h : isGlyph n = false) :
    ∃ p', vpackDims n p = .ok p' ∧ (p'.x, p'.b) = stack (p.x, p.b) n ∧
      p'.a = (vwidths [n]).foldl GoFloat.max p.a ∧
      p'.st = (match n with | .glue g => addAt p.st g.stretchOrder g.stretch | _ => p.st) ∧
      p'.sh = (match n with | .glue g => addAt p.sh g.shrinkOrder g.shrink | _ => p.sh) := by
  cases n with
  | box b => refine ⟨_, rfl, rfl, ?_, rfl, rfl⟩; simp only [vwidths, TNode.width, List.filterMap_cons]; split <;> simp_all
  | char c => simp [isGlyph] at h
  | accent c => simp [isGlyph] at h
  | list k hd cs => refine ⟨_, rfl, rfl, ?_, rfl, rfl⟩; simp only [vwidths, TNode.width, List.filterMap_cons]; split <;> simp_all
  | rule b => refine ⟨_, rfl, rfl, ?_, rfl, rfl⟩; simp only [vwidths, TNode.width, List.filterMap_cons]; split <;> simp_all
  | glue g => exact ⟨_, rfl, rfl, rfl, rfl, rfl⟩
  | kern k => exact ⟨_, rfl, rfl, rfl, rfl, rfl⟩

theorem vwidths_cons (n : TNode F) (l : List (TNode F)) : vwidths (n :: l) = vwidths [n] ++ vwidths l := by
  rw [vwidths, vwidths, vwidths, ← List.filterMap_append]; rfl

theorem vpackAll_ok (cs : List (TNode F)) (p : Dims F) (h : ∀ n ∈ cs, isGlyph n = false) :
    ∃ p', vpackAll cs p = .ok p' ∧ (p'.x, p'.b) = cs.foldl stack (p.x, p.b) ∧
      p'.a = (vwidths cs).foldl GoFloat.max p.a ∧
      (∀ o, p'.st o = ((gluesOf cs).filter (·.stretchOrder = o)).foldl (fun t g => t + g.stretch) (p.st o)) ∧
      (∀ o, p'.sh o = ((gluesOf cs).filter (·.shrinkOrder = o)).foldl (fun t g => t + g.shrink) (p.sh o)) := by
  induction cs generalizing p with
  | nil => exact ⟨p, rfl, rfl, rfl, fun _ => rfl, fun _ => rfl⟩
  | cons n l ih =>
    obtain ⟨p1, e1, s1, a1, st1, sh1⟩ := vpackDims_ok n p (h n List.mem_cons_self)
    obtain ⟨p2, e2, s2, a2, st2, sh2⟩ := ih p1 (fun m hm => h m (List.mem_cons_of_mem _ hm))
    refine ⟨p2, ?_, ?_, ?_, ?_, ?_⟩
    · simp only [vpackAll, e1]; exact e2
    · rw [s2, s1, List.foldl_cons]
    · rw [a2, a1, vwidths_cons n l, List.foldl_append]
    · intro o
      rw [st2, st1]
      cases n <;> simp only [gluesOf, List.filterMap_cons]
      rename_i g
      by_cases h : g.stretchOrder = o <;> simp [addAt_apply, h]
    · intro o
      rw [sh2, sh1]
      cases n <;> simp only [gluesOf, List.filterMap_cons]
      rename_i g
      by_cases h : g.shrinkOrder = o <;> simp [addAt_apply, h]

theorem vpackAll_panic (cs : List (TNode F)) (p : Dims F) (h : ∃ n ∈ cs, isGlyph n = true) :
    ∃ e, vpackAll cs p = .panic e := by
  induction cs generalizing p with
  | nil => obtain ⟨n, hn, _⟩ := h; cases hn
  | cons n l ih =>
    by_cases hg : isGlyph n = true
    · cases n <;> simp [isGlyph] at hg <;> exact ⟨_, rfl⟩
    · obtain ⟨p1, e1, _⟩ := vpackDims_ok n p (by simpa using hg)
      obtain ⟨m, hm, hgm⟩ := h
      rcases List.mem_cons.1 hm with rfl | hm
      · exact absurd hgm hg
      · obtain ⟨e, he⟩ := ih p1 ⟨m, hm, hgm⟩
        exact ⟨e, by simp only [vpackAll, e1]; exact he⟩

/-- `VPack` in terms of the specification. -/
theorem vpack_eq (hd : LHead F) (cs : List (TNode F)) (h : F) (add : Bool) (l : F)
    (hg : ∀ n ∈ cs, isGlyph n = false) :
    vpack hd cs h add l = .ok (
      let d := lastDepth cs
      let x := if lt l d then naturalHeight cs + (d - l) else naturalHeight cs
      let h' := if add then h + x else h
      finishGlue { hd with box := { hd.box with width := (vwidths cs).foldl GoFloat.max zero,
                                                depth := if lt l d then l else d, height := h' } }
        (h' - x) (stretchTotal cs) (shrinkTotal cs)) := by
  obtain ⟨p, e, s, a, st, sh⟩ := vpackAll_ok cs Dims.zero hg
  have hx : p.x = naturalHeight cs := (Prod.ext_iff.1 s).1
  have hb : p.b = lastDepth cs := (Prod.ext_iff.1 s).2.trans (foldl_stack_zero cs)
  have hst : p.st = stretchTotal cs := funext fun o => st o
  have hsh : p.sh = shrinkTotal cs := funext fun o => sh o
  unfold vpack
  rw [e]
  simp only [Res.ok_bind]
  rw [← hx, ← hb, ← hst, ← hsh]
  congr 1
  by_cases hl : lt l p.b = true <;> simp only [hl, a] <;> rfl

end Verif
